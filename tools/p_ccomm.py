P('C124','Communities and conversations through the C interface',
 'A C program reads a community (conversation or membership) by URL and room: if either is not valid it gets no record and, in last_error, a text about the one that is wrong; otherwise no error and the record, if there is one, copied completely into the struct without undefined behaviour. Setting a struct and reading it back, under any spelling of URL and room, gives the key and the settings that were set; a struct that was read, when set again, sets exactly that record; erasing never throws, and what was erased is gone while the other communities are as before. The documented loop with the it_is functions fills, for every stored data, the struct of the right type with each conversation (or group) once. The C functions for the members of a legacy group do what they say.',
 'all reachable objects, all byte strings as URL, room, key and id, all stored data',
 'Quantifies over everything another device may have stored and every spelling; the interesting inputs are those no test author thought of.',
 ['src/config/convo_info_volatile.cpp: convo_info_volatile_get_community, _get_or_construct_community, _set_*, _erase_community, convo_info_volatile_it_is_*, convo::*::into','src/config/user_groups.cpp: user_groups_get_community, _get_or_construct_community, _set_community, _erase_community, user_groups_it_is_*, ugroups_legacy_member_add, ugroups_legacy_members_count, ugroups_group_set_kicked','src/config/community.cpp: canonical_url, canonical_room'],
 'C functions as frames around the C++ getters of C58 and C85, structs with explicit copies (too long or too short: undefined behaviour); the loops are composed with C120 by induction over the rounds. A server stored without a 32-byte key makes the getter read out of bounds: shown by c_comm_overread.')
