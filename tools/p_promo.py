P('C118','A member given the group secret key becomes an admin without losing anything',
 'load_admin_key on a member device succeeds exactly for the 32-byte seed or 64-byte secret key of the group. Afterwards the three objects hold exactly what they held, in every state a member device can be in; every modification of Info and Members, all of which threw before, succeeds; what the new admin changes and pushes is accepted and shown by every other device of the group (under the conditions of C98); and dumps the device made as a member load into the admin objects with the same content, seqno and hashes.',
 'all histories of a member device and of the receiving device, all secrets, all modifications',
 'Ranges over all states in which the promotion can happen, on both sides.',
 ['src/config/groups/keys.cpp: Keys::load_admin_key','src/config/base.cpp: ConfigSig::set_sig_keys, set_sig_pubkey, init_sig_keys'],
 'Reach and GReach are families indexed by the device keys, with a promotion step, so every theorem about reachable objects covers promoted ones; Verif/Promotion.lean.')
P('C119','What an object signs passes its own verifier',
 'After the constructor and any sequence of set_sig_keys, set_sig_pubkey and clear_sig_keys: an object that signs also verifies, it is read-only exactly with a public key alone, a call that throws changes nothing, and signatures made by the object pass its verifier.',
 'all constructor arguments and all sequences of calls',
 'Sequences of calls are unbounded.',
 ['src/config/base.cpp: ConfigSig::set_sig_keys, set_sig_pubkey, clear_sig_keys, init_sig_keys'],
 'State machine SigKeys; induction over the calls.')
