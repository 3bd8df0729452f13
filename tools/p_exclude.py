P('C132','A rekey shuts out everyone it does not list',
 'A rekey message contains the new key sealed for the admins, sealed once for each member listed at that moment, and fillers, and nothing else that depends on the new key; a key supplement contains the keys held sealed for the session ids given and nobody else. So after an admin erases a member from the list and rekeys, the device of that member - provided its own key opens neither what is sealed with the key of another member nor a filler of this message - accepts the message but gets no key from it: it decrypts with the keys it had, encrypts with the key it had, and its Info and Members are untouched. And a device none of whose keys opens a config message merged or a group message given to it reads nothing from it: the merge reports nothing accepted and changes neither content nor seqno, and decrypt_message throws.',
 'all groups in any reachable state, all members not listed, all supplements, all later messages',
 'Exclusion is about every device not listed and every message made afterwards; a test checks one removed member.',
 ['src/config/groups/keys.cpp: rekey, key_supplement, load_key_message, decrypt_message','include/session/config/groups/members.hpp: erase, set_removed','src/config/base.cpp: merge'],
 'IsRekey/SealedFor say exactly what a rekey message is made of (rekey_contents, both directions); the assumption Shut is about the ciphertexts of that one message, not about the cipher for all messages. The member branch of load_key_message is evaluated on it: no ciphertext opens, so no key is stored and only the active hash is recorded. A member merely flagged with set_removed is still listed and still gets the new key (C97): erase is what excludes.')
