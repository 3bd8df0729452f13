P('C108','Memory blocks handed to C programs hold what they should',
 'The single block returned for a list of strings (current hashes, merged hashes), for a push, and for the list of keys has the size computed for it; filling it stays within the block at whatever address it was allocated, and a C program following the pointers in it reads back exactly the strings, the sequence number, the message and the keys.',
 'all lists of strings, messages, keys, block addresses and previous contents',
 'Pointer arithmetic must be right for all sizes; a test sees only the ones it uses and not an overflow.',
 ['src/config/base.cpp: make_string_list, config_push, config_get_keys, config_merge, config_current_hashes'],
 'Verif/CMem.lean: a block is an address and its bytes, pointers are 8 little-endian bytes, a store outside is undefined behaviour; induction over the list.')
P('C109','C getters report an invalid id in last_error and nothing else',
 'The C getters of contacts, conversations, groups, legacy groups and members leave last_error empty and return what the C++ function finds for a valid id, and for an invalid one return false with the message of the exception in last_error; messages longer than the buffer are cut to fit. The C erasers let no exception out: true means that the record was there and is gone under every spelling of its id, with all others as before, false that nothing changed.',
 'all states and ids',
 'Ids are unbounded; memory safety cannot be tested exhaustively.',
 ['src/config/contacts.cpp','src/config/convo_info_volatile.cpp','src/config/user_groups.cpp','src/config/groups/members.cpp','src/config/base.cpp: set_error','src/config/groups/keys.cpp: set_error'],
 'Verif/CErr.lean models the buffer of 256 bytes and strcpy. False of ids of 191 bytes or more: the message overflows the buffer.')
P('C110','Iterating over the members of a legacy group from C',
 'The documented loop over the members of a legacy group from C, erasing any members through the iterator as it goes, terminates without use of an invalid iterator, shows every member exactly once in order and leaves exactly those not erased.',
 'all groups and all choices of members to erase',
 'Ranges over all member maps and all sequences of erasures.',
 ['src/config/user_groups.cpp: ugroups_legacy_members_begin, _next, _erase, _free'],
 'Verif/CIter.lean models iterators into an ordered map; induction over the members not yet shown.')
P('C111','Buffers for secret keys behave like values',
 'Every program that constructs, moves, resets, loads, writes and destroys buffers for secrets within their lifetimes and bounds is free of undefined behaviour, whatever allocations fail; each buffer has the value last given to it, a moved-from buffer is empty, and no allocation is leaked.',
 'all programs of these operations, all patterns of allocation failure',
 'Ranges over all sequences of operations.',
 ['include/session/util.hpp: sodium_array','src/util.cpp'],
 'Verif/Sodium.lean: a heap of blocks, use of a freed block is undefined behaviour; an invariant (each block is owned by exactly one variable). False of move assignment, which has no return statement.')
P('C112','get_or_construct gives what get finds, otherwise an empty record',
 'For every kind of record, get_or_construct accepts exactly the ids (URLs, rooms, keys) that are valid, gives what get finds and otherwise a record with nothing but the id; a community can be looked up by its full or partial URL as by its parts, its key may be given in hex in either case, and the full URL of every community in the list gives it back.',
 'all states, ids, URLs, rooms and keys',
 'Ids, URLs and states are unbounded.',
 ['src/config/contacts.cpp: get_or_construct','src/config/convo_info_volatile.cpp: get_or_construct_*','src/config/user_groups.cpp: get_or_construct_*','src/config/groups/members.cpp: get_or_construct'],
 'Case analysis; the URL round trip of C52 for rooms in any spelling.')
P('C113','Helper functions do what their descriptions say',
 'string_iequal compares up to case, end_with and starts_with test for a suffix and a prefix, SessionID::hex gives the session id in hex with the prefix 05.',
 'all strings and keys',
 'Ranges over all strings.',
 ['include/session/util.hpp','src/fields.cpp'],
 'Verif/Helpers.lean. False of starts_with, which compares the wrong part, and of SessionID::hex, which writes the byte 5 instead of the digits 05.')
P('C114','C functions for encrypted messages deliver exactly what the C++ functions return',
 'The C functions that decrypt (incoming, legacy group, blinded, ONS, group messages, push notifications) and encrypt messages report success exactly if the C++ function returns; then the buffer of 67 bytes holds the NUL-terminated session id and the new allocation exactly the message, with its length; otherwise nothing is written (for group encryption: a null pointer and length 0).',
 'all keys, ids, messages and ciphertexts of the documented lengths',
 'Ranges over all ciphertexts, including hostile ones; memory safety cannot be tested exhaustively.',
 ['src/session_encrypt.cpp: session_encrypt_*, session_decrypt_*','src/config/groups/keys.cpp: groups_keys_encrypt_message, groups_keys_decrypt_message'],
 'Verif/CEnc.lean: copies outside the destination are undefined behaviour; the C++ functions are shown free of it and the lengths of their results computed.')
P('C115','C functions for subaccounts fill exactly the documented buffers',
 'The C functions that make, sign with and verify subaccount values fill buffers of exactly the documented sizes (100, 36, 64 and 64 bytes; 49, 89 and 89 characters of NUL-terminated base64 that decodes to these values), and leave them alone if the C++ function throws.',
 'all keys, ids, messages and signing values',
 'Ranges over all inputs; memory safety cannot be tested exhaustively.',
 ['src/config/groups/keys.cpp: groups_keys_swarm_make_subaccount_flags, groups_keys_swarm_subaccount_sign, groups_keys_swarm_subaccount_sign_binary, groups_keys_swarm_subaccount_token_flags, groups_keys_swarm_verify_subaccount_flags'],
 'Lengths of the results; base64 decoding undoes encoding.')
P('C116','groups_keys_swarm_verify_subaccount requires write permission',
 'groups_keys_swarm_verify_subaccount returns true only for values with read and write permission, and false for values that do not validate.',
 'all group ids, keys and values',
 'Ranges over all values.',
 ['src/config/groups/keys.cpp: groups_keys_swarm_verify_subaccount','include/session/config/groups/keys.h'],
 'False: the C++ defaults require neither permission, and nothing catches the exception for an invalid group id.')
P('C117','Multi-recipient messages can be read with any of the functions',
 'A message encrypted for several recipients with the X25519 keys or the Ed25519 key of the sender is the same; each recipient gets exactly its message from each decryption function, in C++ or C, with X25519 or Ed25519 keys. The C functions return a null pointer and leave the length alone exactly if the C++ function throws or finds nothing (or the message is empty and malloc(0) returns null).',
 'all senders, recipients, messages, domains, nonces, paddings and encoded inputs',
 'Ranges over all lists of recipients and messages.',
 ['src/multi_encrypt.cpp: x_keys, decrypt_for_multiple_simple, decrypt_for_multiple_simple_ed25519, session_encrypt_for_multiple_simple, session_encrypt_for_multiple_simple_ed25519, session_decrypt_for_multiple_simple*'],
 'Verif/CMulti.lean, on top of C61.')
