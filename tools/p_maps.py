P('C136','Contacts, members, groups and legacy groups behave as maps, whatever happens in between',
 'Start with a new config object and make any sequence of get, set, erase, iteration and size calls on the contacts, the group members, the groups or the legacy groups. Between the calls anything else may happen: pushes, confirmations, dumps, key changes, merges that bring nothing new, edits elsewhere in the config, restarts from the dump at any point, and another device that has nothing newer merging what is pushed and carrying on from there. Then every call returns what a map from (lower case) ids to records with the same history of set and erase returns: get finds the record set last in the form the specification describes, erase says whether there was one, iteration lists exactly the records present in the order of the ids, size counts them, and an exception is thrown for ids that are not valid and only for these.',
 'all sequences of calls and of events in between, all records, all ids',
 'The guarantee is about every interleaving of calls with publishing, restarts and changes of device; a unit test plays a few fixed scripts.',
 ['src/config/contacts.cpp: get, set, erase, size, begin','src/config/groups/members.cpp: get, set, erase, size, begin','src/config/user_groups.cpp: get_group, get_legacy_group, set, erase_group, erase_legacy_group, size_groups, size_legacy_groups, begin_groups, begin_legacy_groups','src/config/base.cpp: push, merge, dump, ConfigBase(dump)'],
 'The specification is an abstract map (RecMap) with a relation Says between a call, its result and the map afterwards, shown deterministic by says_unique; MapRun are the histories. Proved by a forward simulation: Holds (the stored table is clean and its view is the map) is preserved by every call (call_says) and by every event in between (between_holds). Conversations are not included: their set may drop a record when it is pushed (C56).')
