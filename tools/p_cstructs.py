P('C137','Contacts, members, groups and legacy groups through the C interface behave as maps',
 'A C program makes any sequence of get, get_or_construct, set, erase, size calls and iterator loops on the contacts, the group members, the groups or the legacy groups of a new config object, with structs in its own memory whatever bytes they hold before, and with pushes, confirmations, dumps, restarts, merges that bring nothing new, key changes and edits elsewhere in between. As long as it passes ids of fewer than 191 bytes to the functions that report errors and NUL-terminated strings in the structs it sets, no function reads or writes outside an array of a struct, and every call returns, and leaves in the struct, what a map with the same history of set and erase would: the id, the strings with their terminating NUL, the picture, the keys, the members and the flags of the record; false and an error message for an id that is not valid; false alone if there is no record. A struct that was read can be set again without changing anything for any reader. The kicked functions say and change exactly whether the group in the struct has a key.',
 'all sequences of calls and events in between, all memory contents of the structs, all ids and records',
 'The structs are fixed-size arrays overwritten in part, so what a call leaves in them depends on every earlier call and on the lengths of the strings; a test reads a few fresh structs.',
 ['src/config/contacts.cpp: contact_info::into, contact_info(const contacts_contact&), contacts_get, contacts_get_or_construct, contacts_set, contacts_erase, contacts_size, contacts_iterator_*','src/config/groups/members.cpp: member::into, groups_members_get, groups_members_get_or_construct, groups_members_set, groups_members_erase, groups_members_iterator_*','src/config/user_groups.cpp: group_info::into, legacy_group_info::into, user_groups_get_group, user_groups_get_legacy_group, user_groups_set_group, user_groups_set_legacy_group, user_groups_set_free_legacy_group, user_groups_it_is_group, user_groups_it_is_legacy_group, ugroups_group_set_kicked, ugroups_group_is_kicked','src/config/internal.hpp: copy_c_str, wrap_exceptions'],
 'CStructs models the structs as memory (arrays of bytes with their previous contents) and the C functions over them. CSays is the specification: a map, with predicates ContactShown/ContactMeant etc. saying which bytes of a struct hold a record and what the library takes a struct for. c_collections_are_maps is a simulation on top of that of C136 with the extra invariant that every stored record fits the struct (CClean); c_get_set_keeps follows from the fact that a shown record is meant again; c_struct_roundtrip connects the memory model with the conversions of C49, C89 and C95.')
