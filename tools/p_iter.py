P('C120','A loop over a config shows every record exactly once and ends',
 'For every stored data, including entries this version does not understand, a loop over the conversations, groups, contacts or group members, whether it ends on done() or on == end(), terminates without undefined behaviour and shows exactly the records the config holds, each once and sorted by type; a loop over one type (begin_1to1, begin_communities, begin_groups, begin_legacy_groups) shows exactly those of that type.',
 'all stored data, both ways to end the loop, all subtypes',
 'The data may have any number of tables, servers and rooms and unknown entries anywhere; tests iterate a few.',
 ['src/config/convo_info_volatile.cpp: ConvoInfoVolatile::iterator','src/config/user_groups.cpp: UserGroups::iterator','src/config/contacts.cpp: Contacts::iterator','src/config/groups/members.cpp: Members::iterator','src/config/internal.hpp / include/session/config/community.hpp: comm_iterator_helper'],
 'Iterators as the state machines of the code (Verif/Iter.lean); invariant: what is still to come equals the rest of the list.')
