P('C139','The list of groups behaves as one object, whatever is done in between',
 'Whatever sequence of get, get_or_construct, set, erase, iteration and size is made on the UserGroups of a new writable object, for groups, legacy groups, communities and all of them together, with publishing, confirmations, dumps, restarts, key changes, merges that bring nothing new, edits elsewhere and other devices taking over in between, every call returns what three maps with the same history of set and erase would return, and throws exactly for ids, server URLs, room names and server keys that are not valid. A community reads back with the room name as it was last spelled and the settings as set, under any spelling of its URL and room; setting a room gives its key to every room of the server; the kinds do not disturb each other; begin() lists the groups, then the communities in the order of server and room, then the legacy groups, each once, and size() is the length of that list.',
 'all sequences of calls and events in between, all groups, legacy groups, communities, ids, URLs, rooms and keys',
 'What a call returns depends on the whole history and on calls of other kinds; a test runs a few calls.',
 ['src/config/user_groups.cpp: get_group, get_or_construct_group, get_legacy_group, get_or_construct_legacy_group, get_community, get_or_construct_community, set, erase_*, size, size_*, iterator','include/session/config/community.hpp: comm_iterator_helper'],
 'Roll is the specification: maps of groups and legacy groups as in C136, rooms by canonical server and room with their spelling and settings, and the key of every server; RollSays says what it answers, deterministically (roll_unique). RollHolds relates the data of the object to a roll. call_says (C136) covers the records and call_other shows that they touch nothing else; setUComm_roll, eraseUComm_roll and urooms_lists cover the communities; between_roll what happens in between; group_list_is_a_roll is the induction over the history.')
