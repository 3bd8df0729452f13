T('C51','proved',['canonical_url_iff','canonical_url_case','canonical_url_idem','canonical_room_iff','canonical_room_case'])
T('C52','proved',['full_url_roundtrip'])
T('C53','partial',['c_parse_in_bounds_partial','c_parse_oxenc_partial','c_parse_overflows'],'False of the code: parse_partial_url does not check the room, so a room longer than 64 characters overflows the room buffer. Proved: that is the only way.')
