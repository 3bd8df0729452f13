P('C80','Messages to a session id',
 'For every sender, recipient and message, what encrypt_for_recipient or encrypt_for_recipient_deterministic returns is decrypted by the recipient\'s decrypt_incoming to the message and the sender\'s Ed25519 key, and by decrypt_incoming_session_id to the message and the sender\'s session id; the ciphertext is exactly 144 bytes longer. Seed or secret key, id with or without prefix make no difference; the deterministic version returns the same ciphertext for all of them. Conversely, for arbitrary ciphertexts, a message is returned only with a valid signature of the returned key over message, key and the recipient\'s own public key, so a message signed for another recipient, or altered, is not accepted.',
 'all senders, recipients, messages, ephemeral keys; arbitrary ciphertexts for the converse',
 'All keys and messages; adversarial ciphertexts.',
 ['src/session_encrypt.cpp: sign_for_recipient, encrypt_for_recipient, encrypt_for_recipient_deterministic, decrypt_incoming, decrypt_incoming_session_id'],
 'Over the abstract curve with X25519 as commuting Diffie-Hellman and an ideal box; sealed boxes are built from them as in libsodium.')
P('C81','Messages to a blinded id',
 'For every two accounts, server and message, what encrypt_for_blinded_recipient returns for the recipient\'s 15- or 25-blinded id is decrypted by decrypt_from_blinded_recipient — of the recipient and of the sender — to the message and the sender\'s session id. For arbitrary ciphertexts and a 25-blinded recipient, the session id returned is that of an account whose blinded id is the given sender id. Shown to fail for 15-blinding: the sender id may differ from the account\'s in one bit (of the wrong byte), so that a message is reported as sent by the session id of another account; a message to the other of the two ids of blind15_id cannot be read by the recipient; and an empty recipient id is undefined behaviour.',
 'all accounts, servers, messages, nonces; arbitrary ciphertexts and ids for the converse',
 'All keys; the failing case depends on one bit of a public key.',
 ['src/session_encrypt.cpp: blinded_shared_secret, encrypt_for_blinded_recipient, decrypt_from_blinded_recipient'],
 'Over the abstract curve with an ideal AEAD; the forged message is exhibited on a small group with coordinates modulo a 253-bit prime.')
P('C82','ONS responses and push notifications',
 'decrypt_ons_response returns a session id exactly for the encryptions of 33 bytes under the key of the name, and then these in hex. decrypt_push_notification returns exactly the encrypted message without the NUL padding, for every message not ending in NUL and every amount of padding, and whatever it returns was encrypted under the given key with the nonce in front. Shown to fail: a padded empty message comes back as its padding.',
 'all names, ids, nonces, messages, paddings; arbitrary inputs',
 'All inputs.',
 ['src/session_encrypt.cpp: decrypt_ons_response, decrypt_push_notification'],
 'The AEAD is ideal.')
