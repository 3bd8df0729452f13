P('C76','XEd25519 signatures verify',
 'For every clamped x25519 private key — in particular that of every account — message and random bytes, xed25519::verify under the x25519 public key (the session id) accepts what xed25519::sign returns; xed25519::pubkey of the x25519 form of an Ed25519 key is that key with the sign cleared. Shown to fail for private keys that are not clamped, which sign accepts: every signature made with one that is not congruent to its clamped form is rejected.',
 'all private keys, messages and random bytes',
 'All keys and messages, both signs of the public key; tests use a few key pairs.',
 ['src/xed25519.cpp: sign, verify, pubkey, xed25519_compute_r, fe25519_montx_to_edy'],
 'Abstract group of prime order with y-coordinates over a prime field, signs and the Ed25519 encoding; scalar arithmetic on 32 bytes is concrete; the map between Edwards y and Montgomery u is computed in the field.')
P('C77','15-blinded ids',
 'For every account and server: blind15_id of the session id (bytes or hex, with or without prefix) and blinded15_id_from_ed of the Ed25519 key agree up to the sign bit, i.e. the id is one of the two of the hex version; blind15_key_pair of seed or secret key gives the key of that id with its private scalar; blind15_sign signatures verify under it; session_id_matches_blinded_id recognises the id as the account\'s and never as that of an account with another session id.',
 'all accounts (both signs), servers, messages',
 'All keys; the sign ambiguity is data-dependent.',
 ['src/blinding.cpp: blind15_factor, blind15_id, blinded15_id_from_ed, blind15_key_pair, blind15_sign, session_id_matches_blinded_id'],
 'Over the abstract curve; kA = ±k|A|.')
P('C78','25-blinded ids',
 'For every account and server: blind25_id of the session id (bytes or hex, with or without prefix), blinded25_id_from_ed of the Ed25519 key and the key of blind25_key_pair are all the same; blind25_sign signatures verify under it; session_id_matches_blinded_id recognises it, and accepts nothing but the lower-case hex of a blinded id of the session id. Shown to fail: a blinded id with upper-case digits is never recognised; one shorter than two characters is read out of bounds.',
 'all accounts (both signs), servers, messages, strings',
 'All keys and arbitrary strings.',
 ['src/blinding.cpp: blind25_factor, blind25_id, blinded25_id_from_ed, blind25_key_pair, blind25_sign, session_id_matches_blinded_id'],
 'Over the abstract curve; k\'A = k|A|.')
P('C79','Group subaccounts',
 'For every group key, member account and permissions, what swarm_make_subaccount returns passes swarm_verify_subaccount of the member for exactly the permissions it was made with; swarm_subaccount_sign then gives, for every message, the token of swarm_subaccount_token, a group signature on it and a message signature valid under the key in the token. Conversely a value that swarm_verify_subaccount accepts contains a group signature on the token, with flags that include the permissions asked for. Shown to fail: the top bit of the factor is not authenticated; flipping it keeps verification true but makes every signature invalid.',
 'all group keys, members (both signs), permissions, messages, and arbitrary values',
 'All keys and adversarial values.',
 ['src/config/groups/keys.cpp: swarm_make_subaccount, swarm_subaccount_token, swarm_subaccount_sign, swarm_verify_subaccount, subaccount_blind_factor'],
 'Over the abstract curve; binary output of swarm_subaccount_sign.')
