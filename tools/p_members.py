GM=['src/config/groups/members.cpp: Members::get, get_or_construct, set, erase, size, iterator, member::load, member::into, member(const config_group_member&)','include/session/config/groups/members.hpp']
P('C91','A group member reads back as it was set',
 'After Members::set(m) the member reads back under every spelling of its id as far as it can be stored (name cut to 100 bytes, a picture only if complete, no pending invitation or promotion of an admin, no negative status, the supplement flag only for somebody invited and not being promoted); a record within the documented limits reads back exactly. Other members, unknown fields and everything else are as before; the size grows by one exactly if the member is new. erase removes exactly that member and reports whether there was one. A call that throws changes nothing, and set throws exactly for an invalid id or an object that cannot be modified. The status calls (set_invited, set_accepted, set_promoted, set_removed, making somebody an admin), once stored, are seen as documented by invite_pending, invite_failed, promotion_pending, promotion_failed, promoted, is_removed and should_remove_messages, and change nothing else.',
 'all reachable config objects, all member records within the C++ types, all spellings of ids',
 'Records, ids and prior contents are unbounded.',
 GM,'Verif/GroupMembers.lean on top of the generic record table (Verif/RecTable.lean).')
P('C92','Iterating over the members yields exactly the members',
 'Iteration over Members yields exactly the members get finds, each once, under the lower-case spelling of its id, in order of the binary id; never more than size(), and exactly size() if all entries are well-formed. It throws exactly if there is a record under a 33-byte key that is not a session id, and set never makes such a record.',
 'all reachable config objects',
 'All table contents, including entries of wrong shape from other versions.',
 GM,'Recursion over the table as the iterator does; recs_spec.')
P('C93','Whatever is stored, a member read is well-formed, and it is the member the admin stored',
 'Every member get returns has a complete picture or none, no pending invitation or promotion while admin, no negative status and the supplement flag only with a pending invitation, whatever other versions stored. After an admin sets a member, pushes, and the message is delivered, get on a device of any member returns what get returns on the admin device.',
 'all stored data; all pairs of reachable objects as in C34, all member records',
 'Arbitrary stored data; whole chain from typed API through serialisation, signature, encryption and back.',
 GM+['src/config/base.cpp: push, _merge'],'Case analysis of load; composition with delivery_full (C34).')
P('C94','Each setter of the group info changes its own value only, and the members see it',
 'Info::set_name, set_description, set_profile_pic, set_expiry_timer, set_created, set_delete_before, set_delete_attach_before and destroy_group change what their getter returns to the value given (cut to 100/2000 bytes; empty or non-positive meaning none) and no other getter; no setter un-destroys a group. Whatever other versions stored, a name or description shown is not empty, the key of the picture has 32 bytes or is missing, and is_destroyed holds exactly if a positive number is stored. After a push and delivery the members see the same values.',
 'all reachable config objects, all values within the C++ types',
 'Values and prior contents unbounded.',
 ['src/config/groups/info.cpp: all getters and setters','include/session/config/groups/info.hpp'],'Fields layer (C43) applied to each key; fields_delivered (C34/C43) for the other device.')
P('C95','Reading a group member and writing it back through the C interface changes nothing',
 'The C struct filled by groups_members_get and converted back by groups_members_set is the same member, and the conversions never access memory out of bounds.',
 'all member records that get can return',
 'All string lengths and statuses.',
 GM+['src/config/internal.hpp: copy_c_str'],'viaC composes the two conversions. False of the code for over-long names or URLs stored by other devices and for statuses this version does not know.')
