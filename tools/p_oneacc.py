P('C157','The calls of an account whose devices take turns read back as those of one device',
 'Let any number of devices take turns as in C156, each turn a sequence of successful calls: storing, erasing and changing contacts (all ten setters), the profile (name, picture, note-to-self priority and expiry, message requests), groups and legacy groups, communities (from their parts or as an object whatever calls made it), conversations, the members and the information of a group, or plain edits of fields. Then one single device could have made all these calls itself, one after the other, and all of them would have succeeded there; every device given the newest version has the content of that one device, so it shows the same contact, profile and conversation for every id, and, once the one device has published too, the same lists and sizes. Removing a community is the exception: what that does is not a matter of the content only.',
 'all numbers of devices, all sequences of turns and calls with all arguments, all pushes, confirmations, dumps, merges and restarts in between, all orders of delivery',
 'The setters read before they write; that what they read is what one device would have read holds only by induction over the whole history.',
 ['src/config/contacts.cpp: Contacts::set','src/config/user_profile.cpp: UserProfile::set_profile_pic','src/config/user_groups.cpp: UserGroups::set','src/config/convo_info_volatile.cpp: ConvoInfoVolatile::set_base, erase_impl','src/config/base.cpp: ConfigBase::_merge'],
 'Props/OneAccount.lean: each call is a sequence of field edits chosen by the content (Planned); a shadow device follows the turns of C155; removal of a community has a witness that it is no such call.')
