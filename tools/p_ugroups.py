UG=['src/config/user_groups.cpp: base_group_info::load, set_base, get_group, get_legacy_group, get_community, get_or_construct_*, set, erase_*, size_*, iterator','include/session/config/user_groups.hpp']
P('C83','A group reads back as it was set, with its admin key only if it is the key of that group',
 'After UserGroups::set(group) the group reads back under every spelling of its id with the settings given (name cut to 100 bytes, no negative times), the secret key exactly if it is the genuine key of the group (and the id is asked for in lower case), and the authentication data given unless the record has the admin key; all other groups, unknown fields and everything outside the groups are as before; the size grows by one exactly if the group is new. erase removes exactly that group. A group marked kicked reads back as kicked; one made by create_group reads back as made. A call that throws changes nothing.',
 'all reachable config objects, all group records within the C++ types, all seeds and ids',
 'Records, ids, key material and prior contents are unbounded.',
 UG,'Verif/UserGroups.lean models the functions on top of a generic table of records (Verif/RecTable.lean); crypto_sign_seed_keypair is a parameter pub. group_admin_lost shows two surprising behaviours of the code: an upper-case id loses the admin key, and stale authentication data is kept.')
P('C84','A legacy group reads back as it was set, with its members and admins',
 'After UserGroups::set(legacy group) the group reads back under every spelling of its id, as far as it can be stored; a valid group with lower-case ids reads back exactly. Every id is a plain member or an admin exactly as given (an id given as both counts as plain member). Everything else is as before; erase removes exactly that group; a failed call changes nothing. insert/erase of members and counts do what they say.',
 'all reachable config objects, all legacy groups within the C++ types, all member lists',
 'Member lists and prior contents are unbounded.',
 UG+['src/config/user_groups.cpp: legacy_group_info::insert, erase, counts, load'],'Same generic layer; the two stored sets are characterised by membership (memberSet_spec, loadSet_spec).')
P('C85','A community reads back as it was set, under every spelling of its URL',
 'After UserGroups::set(community) the community reads back under every spelling of URL and room with the room as spelled in set, the key and the settings; the key given becomes the key of every room of that server; settings of other rooms, other servers, the other groups and everything else are as before. erase_community removes exactly that room. set throws exactly on an invalid URL, room or key (or object not modifiable) and then changes nothing.',
 'all reachable config objects, all communities, all spellings',
 'URLs, rooms and contents are unbounded.',
 UG+['src/config/community.cpp'],'Writes to non-nested paths (writeAll_get), URL normal forms from C51.')
P('C86','Iterating over the groups yields exactly the groups',
 'Iteration over groups (legacy groups) yields each group that get finds exactly once, under the lower-case spelling of its id, in order of the binary id, and never more than the size; over communities exactly those that get_community finds with a key, if all were stored by set (which set maintains); over everything: groups, then communities, then legacy groups.',
 'all reachable config objects',
 'All table contents, including entries of wrong shape from other versions.',
 UG,'recs_spec over the sorted table; mem_ucomms for the nested table of servers and rooms.')
P('C87','Whatever is stored, what is read is well-formed',
 'Every contact, group and legacy group that get returns is well-formed, whatever other devices or versions stored: a contact never has notify mode mentions_only, has a complete picture or none and an expiry timer exactly with a mode; a group has a secret key only if it is the genuine key of its id, and 100 bytes of authentication data or none, no negative join time; a legacy group has both keys or none, a non-negative timer, and every member is a valid lower-case session id.',
 'all config objects with arbitrary data, all ids',
 'Ranges over arbitrary stored data, including what only a foreign or buggy version could have stored.',
 UG+['src/config/contacts.cpp: contact_info::load'],'Case analysis of the load functions; no hypothesis on the data.')
P('C88','A group set on one device is the group read on the others',
 'After a group, legacy group or community is set and pushed on one device and the message delivered, get on the receiving device returns what get returns on the sending device, for every spelling, members and keys included.',
 'all pairs of reachable objects as in C34, all records',
 'Whole chain from the typed API through serialisation, encryption and back, for all contents.',
 UG+['src/config/base.cpp: push, _merge'],'Composition with delivery_full (C34); records survive pruning because "K" / "n" is always written.')
P('C89','Reading a group and writing it back through the C interface changes nothing',
 'The C struct filled by user_groups_get_* and converted back by user_groups_set_* is the same group, and the conversions never access memory out of bounds.',
 'all group, legacy group and community records',
 'All string lengths and contents.',
 ['src/config/user_groups.cpp: group_info::into, legacy_group_info::into, community_info::into and the constructors from the C structs','src/config/internal.hpp: copy_c_str'],'viaC composes the two conversions. False of the code for over-long names stored by other devices (buffer overflow) and for communities of servers without a key (over-read of 32 bytes).')
P('C90','Members added to a legacy group on different devices all survive',
 'Devices holding the same config each store their own version of a legacy group (adding, removing, promoting members); when one of them merges the messages of all others, every member whose status only one device changed is as that device made it, and members nobody touched are still members.',
 'any number of devices, any legacy groups, any merge order and duplicates',
 'Arbitrary numbers of devices, members and message orders.',
 UG+['src/config.cpp: ConfigMessage merge','src/config/base.cpp: _merge'],'Composition of edits_combine (C59) with the stored shape of the group. Needs that no device removes the last plain member or admin: otherwise false (legacy_member_lost), since an emptied set is published as the removal of the field.')
