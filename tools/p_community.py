P('C51','Community server URLs and rooms have one normal form',
 'canonical_url accepts exactly the spellings of a server URL (http or https, a host name of at least two labels and 4 characters, optional port below 65536, optional final slash) and returns protocol and host in lower case with the port only when it is not the default; the result does not depend on letter case and is its own normal form. canonical_room accepts exactly 1 to 64 letters, digits, dashes and underscores and returns them in lower case.',
 'all byte strings',
 'Infinitely many spellings; two spellings of one community must never be stored as two.',
 ['src/config/community.cpp: parse_url, canonical_url, canonicalize_room'],'Verif/Community.lean models the scanners; soundness and completeness against a declarative grammar (Spells), by induction.')
P('C52','A full community URL parses back to its parts',
 'parse_full_url(full_url(base, room, pubkey)) is (base, room, pubkey), and likewise for the /r/ form and for URLs without key; the C function that writes the URL stays inside its buffer.',
 'all normal-form base URLs, normal-form rooms and 32-byte keys',
 'All hosts (including ones containing r, key-like text), rooms and keys.',
 ['src/config/community.cpp: full_url, parse_partial_url, parse_full_url, community_make_full_url'],'Lemmas on first/last occurrences of a pattern; no /r/ can occur inside a normal-form base.')
P('C53','Parsing a community URL through the C interface never writes outside the buffers',
 'community_parse_full_url writes at most BASE_URL_MAX_LENGTH + 1, ROOM_MAX_LENGTH + 1 and 32 bytes.',
 'all byte strings as URL',
 'All inputs.',
 ['src/config/community.cpp: community_parse_full_url'],'False of the code: the room is not validated when parsing (witness c_parse_overflows). c_parse_in_bounds_partial: a room that is too long is the only way to overflow.')
