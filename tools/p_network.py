P('C59','Edits made concurrently on any number of devices are combined',
 'Let any number of devices of an account hold the same config, edit it independently and push. When one of them, having pushed its version, merges the messages of all the others (in any order, with duplicates, with the common config and junk mixed in), it then has at every path: what a device put there, if no device whose message has a greater hash touched that path; what the common config has, if no device touched it. So what one device changed and no other touched is never lost. The same holds for each element of a set. The devices may have any history (edits, pushes, merges, dumps, restores).',
 'all account histories of all devices, any number of devices, all edits, all batches containing the messages of all devices',
 'Any number of devices, edits and delivery orders; each device has its own history.',
 ['src/config.cpp: ConfigMessage(merge constructor), MutableConfigMessage, increment','src/config/base.cpp: _merge, push, confirm_pushed, dump'],
 'Verif/Props/Network.lean: devices as an inductive set of client states; an invariant (PInv) that every device config is an honest history, carries the hash of its own serialisation and re-serialises to the same bytes; so updates made on different devices are children of one config, and the merge of children of one config is C17 and C18.')
P('C60','Contacts set concurrently on several devices all survive',
 'Let any number of devices hold the same config and call Contacts::set for any contacts. When one of them, having pushed, merges the messages of the others, Contacts::get returns every contact that only one device set, as that device set it last, and every contact of the common config that no device set, as it was.',
 'all devices and histories as in C59, all contacts, ids and spellings',
 'Any number of devices and contacts, any order of delivery.',
 ['src/config/contacts.cpp: Contacts::set, get','src/config/base.cpp: _merge, push'],
 'Corollary of C59 and C46: sets are edits; a device leaves the records alone that it does not set; the contact read is a function of the scalars of its record.')
