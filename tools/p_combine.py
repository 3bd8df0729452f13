P('C121','Records set and erased on different devices at the same time all take effect',
 'Several devices hold the same config; each sets and erases contacts, groups, group members, conversations or communities (any number of calls), and publishes. After a device merged the versions of all the others, each record about which only one device made calls is as on that device (erased if it erased it), and each record nobody made a call about is as before.',
 'all configs, all numbers of devices, all sequences of set/erase calls on each, all orders and repetitions of delivery',
 'The outcome depends on the hashes that order the messages and on every combination of concurrent edits; tests try a handful of two-device merges.',
 ['src/config.cpp: ConfigMessage::ConfigMessage(merge)','src/config/base.cpp: ConfigBase::merge, DictFieldProxy::erase','src/config/contacts.cpp: Contacts::set, erase','src/config/user_groups.cpp: UserGroups::set, erase','src/config/groups/members.cpp: Members::set, erase','src/config/convo_info_volatile.cpp: set, erase'],
 'Frame lemma for each call (other records are left alone) composed with the exchange theorem of C59; KeepsWay says the device did not remove the table. Counterexample erase_last_loses proved for the real code.')
