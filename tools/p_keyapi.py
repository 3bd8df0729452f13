P('C105','Merging bencoded dicts and sorted lists',
 'bt::merge of two dicts has exactly the keys of both, in order, and the first dict\'s value wherever both have one. bt::merge_sorted of two lists sorted by a comparison is sorted; with duplicates it holds exactly the elements of both, and without duplicates it holds exactly the elements of the first list and those of the second that the comparison does not equate with one of the first.',
 'all dicts, all sorted lists, all strict weak orders',
 'Ranges over all values and all comparison functions.',
 ['src/bt_merge.cpp: merge','include/session/bt_merge.hpp: merge_sorted'],'Verif/BtMerge.lean models both loops; induction over the two inputs.')
P('C106','Key pairs, signatures and conversions agree with each other',
 'For every seed: the secret key derived from it gives back the seed; signing with seed or secret key gives the same signature, which verifies under the public key; the converted secret and public keys form an X25519 key pair. Keys, signatures, hash sizes and hash keys of the wrong length are refused. A hash has the requested size and an empty key means no key.',
 'all seeds, messages, hash sizes and keys',
 'Ranges over all seeds and messages.',
 ['src/ed25519.cpp: ed25519_key_pair, seed_for_ed_privkey, sign, verify','src/curve25519.cpp: to_curve25519_pubkey, to_curve25519_seckey','src/hash.cpp: hash'],
 'Verif/KeyApi.lean over the abstract curve of C76; the algebra of Curve.Good.')
P('C107','C functions for keys, signatures and hashes stay within their output buffers',
 'Given output buffers of the documented size, the C functions for key pairs, seeds, conversions, signatures, hashes and blinding fill exactly those buffers with the result of the C++ function, or return false and write nothing.',
 'all arguments and buffer contents',
 'Memory safety for all inputs; a test cannot see an overflow into padding.',
 ['src/ed25519.cpp','src/curve25519.cpp: session_curve25519_key_pair','src/hash.cpp: session_hash','src/xed25519.cpp','src/blinding.cpp','include/session/curve25519.h'],
 'Buffers are byte lists of the documented length, a copy beyond the end is undefined behaviour. False of session_curve25519_key_pair, which copies a 64-byte array into a 32-byte buffer.')
