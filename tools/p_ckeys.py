P('C127','Group keys through the C interface',
 'A group keys object used through the C interface only, by any program of calls (load_message, rekey, load_admin_key, key_supplement, dump) with any arguments: a call that returns false leaves the group — keys, Info and Members — exactly as it was, with the first 255 characters of the reason in last_error; one that returns true leaves last_error alone. At every moment the index interface gives 32 bytes for every index below size and null from there on; these are the keys Info and Members decrypt with, index 0 the one they encrypt with. An admin\'s rekey returns the message that pending_config then returns, and a member (or another admin) who passes it to load_message has the same key at index 0 as the admin. current_hashes can be read as a C string list and holds exactly the hashes to keep, complete. After a dump and groups_keys_init with it the new object has the same keys at the same indices, pending message, hashes and generation. The generation returned is that of the newest key given, as long as it fits an int.',
 'all histories of the object and of Info and Members used with it, all messages, hashes, timestamps, secrets and error texts',
 'Quantifies over all histories of all three objects and all message contents.',
 ['src/config/groups/keys.cpp: groups_keys_init, groups_keys_size, group_keys_get_key, groups_keys_load_admin_key, groups_keys_rekey, groups_keys_pending_config, groups_keys_load_message, groups_keys_current_hashes, groups_keys_needs_rekey, groups_keys_needs_dump, groups_keys_dump, groups_keys_key_supplement, groups_keys_current_generation','include/session/config/groups/keys.h','include/session/config/groups/keys.hpp: current_generation'],
 'The C frames over the three-object model of C96, with the error buffer, C strings and buffer reads explicit; the invariant (a history all of whose hashes are C strings, a buffer of 256 bytes) is kept by every call. Generations beyond int are the missing part: current_generation converts int64_t to int (c_keys_generation_wraps). The header declares groups_keys_get_key while the source defines group_keys_get_key, and documents a groups_keys_free that does not exist: neither can be expressed here.')
