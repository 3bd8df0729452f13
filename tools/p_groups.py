P('C61','Multi-recipient encryption delivers to each recipient its own message',
 'encrypt_for_multiple_simple succeeds for every list of valid recipient keys, with one message for all or one message each, any domain, given or random nonce and any padding; decrypt_for_multiple_simple called by the i-th recipient with the sender\'s public key and the same domain returns the i-th message. Somebody whose keys or domain differ gets nothing. encrypt_for_multiple leaves out recipients with invalid keys if told to ignore them, and otherwise fails if there is one; the entries for the others are the same.',
 'all messages, recipients, keys, domains, nonces, paddings and random fillers',
 'Any number of recipients and messages of any length.',
 ['src/multi_encrypt.cpp: encrypt_multi_key, encrypt_for_multiple_simple, decrypt_for_multiple_simple','include/session/multi_encrypt.hpp: encrypt_for_multiple, decrypt_for_multiple'],
 'Verif/Multi.lean, Verif/Props/Multi.lean: X25519, BLAKE2b and the AEAD are parameters with laws (commutativity of the key exchange, decryption inverts encryption and accepts nothing else); that an entry for somebody else does not open under ones key by accident is a hypothesis about those two keys.')
P('C62','What multi-recipient decryption returns was encrypted by the named sender for this recipient',
 'Whatever decrypt_for_multiple_simple returns is the plaintext of a ciphertext contained in the input, encrypted under the key derived from the secret shared between the caller and the named sender, both public keys and the domain; for arbitrary input bytes. Keys for different senders, recipients, directions or domains (first 64 bytes) are different unless the hash collides.',
 'all input bytes, keys and domains',
 'Arbitrary (adversarial) input.',
 ['src/multi_encrypt.cpp: decrypt_for_multiple_simple, encrypt_multi_key, decrypt_multi_impl'],
 'Soundness of the lazy bt reader (what it returns occurs in the input) and of the first-match loop.')
P('C63','Filler entries and default nonce of multi-recipient encryption',
 'With pad > 1 the number of entries is a multiple of pad and the filler entries look like real ones ("the size of each junk entry will be the same as the (encrypted) size of the first message"); an empty nonce means a random one.',
 'all messages, recipients, paddings',
 'Any number of recipients and any message sizes.',
 ['src/multi_encrypt.cpp: encrypt_for_multiple_simple','include/session/multi_encrypt.hpp: encrypt_for_multiple_simple'],
 'The count is proved; the size claim and the empty nonce are refuted for all inputs: the filler is 16 bytes shorter than every real entry, and the Ed25519 overload with the default (empty) nonce always throws.')
