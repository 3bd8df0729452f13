P('C129','User profile and group description through the C interface',
 'The user profile and the description of a group, set and read through the C interface only, with any arguments C can express (any C strings, any struct with a picture, any int or int64). A setter that returns success changes what the C getters show exactly as asked (a name or picture is the C string given, an empty one clears it; a group name keeps its first 100 bytes and a description its first 2000; a timer or time below 0 clears it; any positive answer for message requests reads back as 1, a negative one as -1) and nothing else; one that fails changes nothing; on an object that can be changed every call succeeds, so after any program of calls the getters show what the calls said, in order. On a member\'s object of a group no call changes anything. Objects with the same contents show the same. groups_info_init and groups_members_init without secret key make an object that verifies with the group key and cannot sign, with the secret key that belongs to the public key one that signs with it, with any other secret key an error; with a dump, whatever follows it, the object holds what the dumped one did.',
 'all histories of such objects, all programs of setters, all arguments and buffers',
 'Quantifies over all argument values and programs of calls; boundaries (a name of 101 bytes, a string with no NUL in the struct, a negative timer) show only for some.',
 ['src/config/user_profile.cpp: user_profile_get_name ... user_profile_set_blinded_msgreqs','src/config/groups/info.cpp: groups_info_init ... groups_info_destroy_group','src/config/internal.hpp: c_group_wrapper_init','include/session/config/user_profile.h','include/session/config/groups/info.h'],
 'The C frames of CProfile over the setters of C50 and C94; each call is a list of writes (IsWrites), so its effect follows from the generic write lemmas. What fails, and is proved to fail: the picture getters write beyond the struct if and only if a stored URL has 224 bytes or more, which the C++ setters of the base and other clients can store (c_pic_overflow, c_profile_fails); timers beyond int are shown wrapped (c_profile_fails); on a member\'s object the void setters let the exception out through the C interface (c_info_member).')
