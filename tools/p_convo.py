P('C54','Conversation read states read back as set',
 'After ConvoInfoVolatile::set of a one-to-one conversation, group or legacy group, get_or_construct returns the unread flag given and, as last-read time, the one given if it is earlier than the stored one or not more than 30 days old, otherwise the stored one; under every spelling of the id; every other conversation is as before. erase removes exactly that conversation and tells whether there was one. An exception (invalid id, read-only object) leaves the object unchanged.',
 'all reachable objects, ids, times, flags, clock values',
 'All histories of the object and all clocks; the rule has three cases per stored value.',
 ['src/config/convo_info_volatile.cpp: get_1to1, get_group, get_legacy_group, set, set_base, erase'],'Verif/Convo.lean models the class on top of the proxies (C43-C45); the clock is a parameter.')
P('C55','Setting a last-read time never causes undefined behaviour',
 'ConvoInfoVolatile::set is defined for every int64 last_read.',
 'all objects, ids, int64 times',
 'All 2^64 times.',
 ['src/config/convo_info_volatile.cpp: set_base'],'False of the code: milliseconds are converted to nanoseconds, which overflows after the year 2262 (witness convo_set_overflows). convo_set_error: every earlier time is accepted.')
P('C56','Pruning removes exactly the stale conversations',
 'push (through prune_stale) removes exactly the conversations last read more than 45 days ago and not marked unread, keeps all others and everything else unchanged, and never fails on a writable object; a device that receives the message sees no stale conversation and all the others.',
 'all reachable objects whose communities are stored under canonical names, all clock values, all receiving devices',
 'Any number of conversations of four kinds, with shared servers.',
 ['src/config/convo_info_volatile.cpp: prune_stale, push'],'Induction over the collected ids. False of the code for groups: they are never pruned (prune_ignores_groups).')
P('C57','Iterating over conversations yields what get finds',
 'Iterating over one-to-one conversations, groups, legacy groups or communities yields exactly the conversations get finds (for communities: those with a key), each once; size is an upper bound, and exact if nothing malformed is stored.',
 'all reachable objects',
 'Tables of any size, including entries other clients wrote in other formats.',
 ['src/config/convo_info_volatile.cpp: iterator, size_*; include/session/config/community.hpp: comm_iterator_helper'],'Iteration as filterMap/flatMap over the sorted tables.')
P('C58','Community read states read back as set; the key is per server',
 'After set of a community, get returns its read state (by the rule of C54) under every spelling of URL and room, with the key given; the key applies to all rooms of that server; other rooms\' read states and other servers are as before. erase removes exactly that room and, with the last room, the server; all other communities keep their keys.',
 'all reachable objects, URLs, rooms, keys, times',
 'Any number of servers and rooms sharing records.',
 ['src/config/convo_info_volatile.cpp: community_field, get_community, set, erase'],'Path disjointness lemmas over the nested records.')
