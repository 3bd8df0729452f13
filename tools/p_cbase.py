P('C128','Config objects through the C interface',
 'A config object made and used through the C interface only (its init function, config_merge, config_push, config_confirm_pushed, config_dump, config_current_hashes, the key functions and any setters), by any program with any arguments. Init without a dump makes an empty object with nothing to push whose only key is the first half of the secret key; an init that fails leaves a C string in the caller\'s 256 bytes. Unless malloc fails: the list config_merge returns can be read as C strings and is exactly the hashes, complete, of the messages accepted, in order; the struct of config_push can be read and holds the sequence number, the message and the hashes to delete; config_current_hashes gives the current hash, complete; config_get_keys gives all keys, 32 bytes each, in order. config_key, config_has_key, add, remove and clear agree with that list. config_dump followed by init with it (whatever follows it in memory) gives an object with the same contents, need for a push and hashes. And end to end: what one C program gets from config_push, another gives to config_merge from a larger buffer: it then shows what the first showed, has nothing to push, and reads back the hash; the first, after config_confirm_pushed, has nothing to push either, and both have the same current hash.',
 'all histories of such objects, all messages, hashes, keys, dumps and contents, all behaviours of malloc',
 'Quantifies over all histories, including restarts, and all message sets; a hash with a NUL, a short buffer or an offset wrong by one would only show for some.',
 ['src/config/base.cpp: config_merge, config_push, config_confirm_pushed, config_dump, config_current_hashes, config_get_keys, config_add_key, config_add_key_low_prio, config_clear_keys, config_remove_key, config_key_count, config_has_key, config_key','src/config/internal.hpp: c_wrapper_init, make_string_list','include/session/config/base.h'],
 'The C frames of CBase over the object of C29-C41, with the blocks of C108. CReach: all histories of C calls; every such object is a reachable object of the C++ model whose hashes contain no NUL (CReach.inv), which is what makes them readable. What the model shows beside: config_merge and config_push have no exception handler, so an exception of merge or push leaves through the C interface; config_key out of range is undefined; malloc is unchecked everywhere; config_free does not free the internals (a leak, not expressible here).')
