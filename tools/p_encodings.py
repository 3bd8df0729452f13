P('C122','A public key means the same in every text form',
 'A 32-byte key may be given as hex (letters of either case), base64 with or without padding, or base32z: setting a community key, a community URL with the key in it (C++ or C), looking up communities and conversations by key text, and the onion-request key parsers all read the same key from every form; two different keys have no form in common; any other text is refused, or read as the key of zeros by the onion-request parser; hex and byte constructors of the onion key types accept exactly the right lengths, and snode addresses are 58 characters and distinct for distinct keys.',
 'all 32-byte keys, all texts, all URLs with canonical servers and valid rooms, all configs',
 'There are 2^256 keys and more texts; the classification by length and the digit tables have to be right for all of them.',
 ['src/config/internal.cpp: decode_pubkey','src/config/community.cpp: parse_partial_url, parse_full_url, community_parse_full_url','src/onionreq/key_types.cpp: parse_pubkey, load_from_hex, load_from_bytes, snode_address'],
 'Encoders and decoders of oxen-encoding written out digit by digit; round trips by structural induction on the bytes, lengths of decoded values by induction on the digits; then case analysis on the accepted lengths.')
