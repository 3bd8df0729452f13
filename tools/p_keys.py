P('C64','The group encryption key is the newest key received, independent of order',
 'Whatever key messages a device has loaded, in whatever order, interleaved with dumps and restores: once one of them brought a key, and unless the device has a pending rekey of its own, group_enc_key is the newest key it was ever given (by generation, then timestamp, then key bytes). Two devices given the same keys therefore encrypt with the same key. Assumption: a key of one generation arrives with one timestamp.',
 'all sequences of load_key_message, rekey, dump and restore, on any number of devices',
 'Unbounded histories and all delivery orders.',
 ['src/config/groups/keys.cpp: Keys::insert_key, Keys::group_enc_key, Keys::load_key_message, Keys::remove_expired'],
 'Verif/GroupKeys.lean models the Keys object; an invariant over all reachable states (GroupKeysInv) relates it to the log of messages loaded. The assumption is shown necessary.')
P('C65','Which group keys are held',
 'Keys held were brought by loaded messages. A key received stays available for decryption unless a key of a later generation is more than 60 days older than some key received; with timestamps in the order of the generations exactly those keys are held, so that devices given the same keys hold the same list. The list is sorted newest first, pending key first, without repetition.',
 'all sequences of operations and delivery orders',
 'Unbounded histories and all delivery orders.',
 ['src/config/groups/keys.cpp: Keys::insert_key, Keys::remove_expired, Keys::group_keys','include/session/config/groups/keys.hpp: KEY_EXPIRY'],
 'Invariant over reachable states; that the order of timestamps is needed is shown by a counterexample.')
P('C66','The key messages to keep on the swarm',
 'current_hashes reports hashes of loaded messages only; every key held was brought by a message whose hash is reported (so that the message is not left to expire); a message which had no key for this device is reported after it was loaded exactly if its generation is not older than every key held; none is reported once no key is held.',
 'all sequences of operations',
 'Unbounded histories.',
 ['src/config/groups/keys.cpp: Keys::current_hashes, Keys::insert_key, Keys::remove_expired'],
 'Part of the same invariant.')
P('C67','A restored Keys object behaves as the one that was dumped',
 'In every reachable state, constructing a Keys object from a dump gives back the keys, the message hashes and the pending rekey, and hence the same encryption key, key list, needs_rekey, and the same result of a further rekey or supplement; it does not need a dump.',
 'all reachable states',
 'Every reachable state, any number of keys and hashes.',
 ['src/config/groups/keys.cpp: Keys::make_dump, Keys::dump, Keys::load_dump'],
 'The dump is encoded with the bt model and read with the lazy consumer model; the round trip uses the invariant (sortedness, value ranges).')
P('C68','needs_dump of the group keys',
 'If needs_dump is false after loading a message, a restore from the previous dump gives the same object.',
 'all reachable states and messages',
 'Every reachable state.',
 ['src/config/groups/keys.cpp: Keys::insert_key, Keys::load_key_message, Keys::needs_dump'],
 'Proved for keys and pending rekey; refuted for message hashes (a known key arriving under a new hash).')
P('C69','needs_rekey detects conflicting rekeys',
 'needs_rekey is true exactly for an admin that was given two different keys of the latest generation it knows of, in whatever order they arrived.',
 'all sequences of operations and delivery orders',
 'All histories.',
 ['src/config/groups/keys.cpp: Keys::needs_rekey'],
 'From the invariant.')
P('C70','A rekey reaches every member and takes over',
 'An admin can rekey for any list of well-formed session ids. The new key is of a later generation than all keys the admin was given and is used at once. Every admin, and every member on the list, finds exactly the new key in the message; loading it makes a device that has been given only earlier generations encrypt with it, and drops the pending rekey of the admin. Two admins that rekey the same members in the same state produce the same key and message; rekeys that differ in the members or the generation hash different texts, so they have different keys unless the hash collides on those two.',
 'all states, member lists and devices',
 'Any number of members and keys; arbitrary prior histories.',
 ['src/config/groups/keys.cpp: Keys::rekey, Keys::load_key_message, Keys::pending_config, Keys::group_enc_key'],
 'Construction and parsing of the signed message over the bt model; primitives with functional laws; no accidental opening of somebody elses entry is an explicit hypothesis.')
P('C71','Group key messages are authenticated',
 'For arbitrary input bytes: load_key_message accepts a message only if all of it up to the last field is signed by the group key, and every key it brings is the decryption, with a key only this member (or the admins) and the group share, of a ciphertext within the signed part.',
 'all input bytes',
 'Arbitrary (adversarial) input.',
 ['src/config/groups/keys.cpp: Keys::load_key_message, try_decrypting'],
 'Soundness of the lazy bt reader and of the two decryption loops.')
P('C72','A key supplement gives a new member the keys of the group',
 'Any member to whom an admin sends a supplement finds in it exactly the keys the admin holds, with their generations and timestamps; admins find none. A new member that loads it encrypts with the admin\'s latest loaded key and, with nondecreasing timestamps, holds the same keys.',
 'all reachable states, member lists and devices',
 'Any number of keys and members.',
 ['src/config/groups/keys.cpp: Keys::key_supplement, Keys::load_key_message'],
 'As C70.')
P('C73','Group messages reach every holder of the key',
 'A message of 1 to 1,000,000 bytes encrypted by encrypt_message, compressed or not, with any padding, is returned unchanged by decrypt_message, together with the session id of the sender, on every device that holds the key the sender encrypts with. A device that was given all keys the sender was given holds that key, unless it also knows a generation later than all of the sender\'s that was superseded more than 60 days ago. Larger messages, and messages without any key, are refused; with padding > 1 the result is a multiple of it and less than one multiple longer. An empty message is accepted but can be decrypted by nobody.',
 'all messages, devices, histories, nonces, paddings',
 'Any message and any pair of key histories.',
 ['src/config/groups/keys.cpp: Keys::encrypt_message, Keys::decrypt_message','src/config/internal.cpp: zstd_compress, zstd_decompress'],
 'Verif/GroupMsg.lean, Verif/Props/GroupMsg.lean: bt model for the dict, the Keys state machine for the keys; zstd and ciphers are parameters with laws; that no other key of the receiver opens the ciphertext is an explicit hypothesis.')
P('C74','Group messages are attributed to their author',
 'Whatever decrypt_message returns, for arbitrary input bytes: the input was encrypted with a key held; the content carries a valid signature of the payload by the Ed25519 key whose session id is returned; the message is the payload or its decompression, which is then of at most 1,000,000 bytes however large the expansion would be.',
 'all input bytes and key states',
 'Arbitrary (adversarial) input.',
 ['src/config/groups/keys.cpp: Keys::decrypt_message','src/config/internal.cpp: zstd_decompress'],
 'Soundness of reading; the decompression loop is modelled chunk by chunk.')
P('C75','Promotion to admin',
 'load_admin_key changes nothing for an admin; for a member it succeeds exactly for the group\'s 32-byte seed or 64-byte secret key, after which the object is an admin and can rekey for any list of members.',
 'all objects and secrets',
 'All inputs and states.',
 ['src/config/groups/keys.cpp: Keys::load_admin_key'],
 'Direct, with C70.')
