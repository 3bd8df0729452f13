GS=['src/config/groups/keys.cpp: Keys::Keys, rekey, load_key_message, group_keys, group_enc_key','src/config/base.cpp: replace_keys','src/config/groups/members.cpp','src/config/groups/info.cpp']
P('C96','Keys, Info and Members always agree on the encryption keys',
 'In every history of the three objects of a group - edits, merges, pushes and dumps of Info and Members, key messages, rekeys, and restarts from dumps of the three objects that need not be of the same time, also across a promotion of the member to admin - Info and Members hold exactly the keys of group_keys(), in that order, and encrypt with group_enc_key(). Loading a key message changes nothing else in them, and nothing at all if it throws.',
 'all histories of the three objects, all key messages, all crash points between the dumps',
 'Ranges over all interleavings of calls on three objects and all combinations of old and new dumps.',
 GS,'Verif/GroupState.lean composes the models of Keys, Info and Members; inductive invariant over GReach.')
P('C97','A rekey reaches the listed members, on all three objects',
 'After a successful rekey the new key is newer than every key seen, all three objects encrypt with it, Info and Members show what they showed before and need a push. Any device of an admin, or of a member that Members::get finds on the admin device, that loads the key message and has not seen a later generation, takes the new key over in all three objects, with the rest of its state unchanged.',
 'all reachable groups on the admin side and on the member side, all member lists, all hashes and timestamps in range',
 'Arbitrary member lists, histories and states of the receiving device.',
 GS,'Composition of rekey_reaches, new_key_takes_over (C70, C64) with iteration over Members (C92) and C96.')
P('C98','What one device of a group publishes, the others see',
 'Info or Members pushed from any device of the group is accepted by every other device that holds the key used - the current key or an older one - and had no conflicting change of its own; afterwards it shows the same description, the same members and the same list of members, and has nothing to push.',
 'all pairs of reachable groups, with any sets of keys in common',
 'Ranges over all histories of both devices.',
 GS,'delivery_received (C34 generalised to any position of the key) with C96; equality of the member lists from sortedness.')
