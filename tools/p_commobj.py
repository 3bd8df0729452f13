P('C125','community objects stay well-formed under all setters',
 'However a community object is made and whatever setters are called on it afterwards, also when some throw and the program carries on, its server URL and room are canonical and room() is a spelling of the room. Each setter does what it says and changes nothing else, or throws and changes nothing (not so: set_full_url with a bad room has already changed the server). full_url() of an object given to set_full_url of another makes them equal, and each of the three texts of the key gives the key back. An object with a 32-byte key that is set is read back under every spelling of server and room. The C function for partial URLs agrees with the one for full URLs, and stays inside the buffers unless the room is longer than 64 characters. An object whose key is given as the text of 31 bytes, which the setters accept, can be set too and then hides every room of that server from iteration.',
 'all byte strings as URL, room and key, all sequences of setter calls, all reachable UserGroups objects',
 'Quantifies over all sequences of calls with all arguments, including those that throw half-way.',
 ['include/session/config/community.hpp: community','src/config/community.cpp: community::community, set_full_url, set_base_url, set_pubkey, set_room, full_url, pubkey_hex, pubkey_b32z, pubkey_b64, community_parse_partial_url','src/config/user_groups.cpp: UserGroups::set(const community_info&)','src/config/convo_info_volatile.cpp: ConvoInfoVolatile::set(const convo::community&)'],
 'The object as a record, setters as functions that return the new object and the outcome; the invariant by induction over the calls; set composes with C85 (ucomm_set_get). The two cases that do not hold are shown by set_full_url_half and comm_obj_short_key with concrete instances.')
