P('C147','Saving what is already saved does nothing, and default values take no space',
'After a successful call that saves or erases a contact, group, legacy group, community, member or conversation, or that sets a field of the profile or of the group information, and after the change has been published, the same call made again - at the same or a later time, on the same object or on any object that has received the change - succeeds and leaves the object exactly as it was, so that the call causes no push and no dump. Clearing a field that is not set does nothing, and after a field is cleared nothing is stored for it. A saved record stores exactly the key that keeps it alive, the settings that differ from their default and keys this library does not know that were stored before.',
'all reachable objects, all records, ids, fields and values in the range of the types of the API, all times of the second call not before the first, and all receivers to which the change is delivered',
'A test repeats a few calls with a few values; here every combination of settings, earlier content and receiver counts, and a setter that stores its default, or that compares with something other than what it stores, makes devices push to each other forever only for some of them.',
['src/config/internal.cpp: set_flag, set_positive_int, set_nonzero_int, set_nonempty_str','include/session/config/base.hpp: DictFieldProxy::assign_if_changed, erase','src/config/contacts.cpp: Contacts::set','src/config/user_groups.cpp: UserGroups::set','src/config/groups/members.cpp: Members::set','src/config/convo_info_volatile.cpp: set','src/config/user_profile.cpp','src/config/groups/info.cpp'],
'Props/Again: every call of RecOp (Combine) and SetCall is a list of writes at paths of which none is inside another; after the first run every path holds what was written (writeAll_get), pruning keeps it (valAt_pruneD: what is written is never empty), so the second run compares equal everywhere (writeAll_noop). For conversations the last-read time is written only if it is new enough and newer than what is stored: the second run is shown to take a branch that writes the same or nothing. The space of a record follows from the list of its writes; the specification lists the documented keys with the condition under which each is stored. Times after the year 2262 overflow in the comparison (C55) and are excluded.')
