P('C146','The user\'s group list through the C interface behaves as one roll, with the structs in memory',
 'A C program makes any sequence of get, get_or_construct, set, set_free, erase and size calls and documented iterator loops (over everything or one type) on the groups, communities and legacy groups of a new config object, with structs in its own memory whatever bytes they hold before, and with pushes, confirmations, dumps, restarts, merges that bring nothing new, key changes and edits elsewhere in between. As long as structs it passes have terminated strings where the library reads them, keys have 32 bytes and ids of legacy groups fewer than 191 bytes, no function reads or writes outside an array of a struct, and every call returns, and leaves in the struct of the right type, what a roll of groups with the same history would (C139): each community with its server, the room as it was spelled, the key last given for the server and the settings; each group and legacy group with all its fields; an error message about the URL (if it is invalid) or the room otherwise, or about the id; false alone if there is none. Calls about one type never change what calls about another type return. Loops show every group of the type asked for once, in order. Setting a struct with an invalid id, URL or room lets the exception out of the C function. A struct that was read can be set again at any time without changing any answer.',
 'all sequences of calls and events in between, all memory contents of the structs, all ids, servers, rooms, keys and settings',
 'The structs are fixed-size arrays overwritten in part, all three types share one config object and one iterator, and answers depend on the whole history; a test sees one history with fresh structs.',
 ['src/config/user_groups.cpp: community_info::into, group_info::into, legacy_group_info::into, base_into, base_from, user_groups_get_*, user_groups_get_or_construct_*, user_groups_set_*, user_groups_erase_*, user_groups_size*, user_groups_iterator_*, user_groups_it_is_*','include/session/config/user_groups.h','src/config/internal.hpp: copy_c_str'],
 'CRoll models the struct of communities as memory, the C functions over it and the documented loop with one struct of each type (groups and legacy groups: CStructs). CRollSays is the specification: a Roll (C139) with predicates saying what a struct holds and that it can be handed back; for groups and legacy groups it is CSays of C137. c_group_list_is_a_roll is a simulation on top of call_roll of C139 and c_call_says of C137, with c_call_other saying what a call does not touch. c_group_put_back: a struct that was read, set again, leaves the same roll, and a roll has one answer (roll_unique).')
