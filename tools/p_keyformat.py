P('C143','The group key messages accepted are exactly those in the documented format',
 'A bencoded dict is accepted as a group key message if and only if it has the entries that keys.hpp documents: a nonce, either "+" (a list of ciphertexts of at least 68 bytes) with a generation, or a non-negative generation, the admin copy of 48 bytes and "k", a list of a multiple of 75 ciphertexts of 48 bytes, and as its last entry a valid signature of all bytes before it by the group. What a device takes from it is exactly what is in it for that device: the admin copy for admins, the first ciphertext that opens with the member key for members, the generation otherwise. Every rekey and supplement that is published has this form.',
 'all bencoded dicts with any further entries; all devices, admin or not; all timestamps; all rekeys and supplements published',
 'An equivalence over all inputs: tests cannot show that nothing else is accepted, nor that nothing documented is refused.',
 ['include/session/config/groups/keys.hpp: Keys (format description)','src/config/groups/keys.cpp: Keys::load_key_message, Keys::rekey, Keys::key_supplement','src/config.cpp: verify_config_sig'],'Verif/Props/KeyFormat.lean: a specification from the header comment (KeyFrame, SuppFields, FullFields, KeyMessage), lemmas that the dict consumer on sorted dicts is a lookup, equivalence with the parser. Found on the way: the header says "k" is a packed byte string and the nonce has 24 bytes; the code wants a list and takes longer nonces; an admin reading a supplement never looks into it.')
