T('C64','proved',['enc_key_newest','enc_key_agree','enc_key_needs_same_times'],'Assumes that a key of one generation arrives with one timestamp (shown necessary by enc_key_needs_same_times).')
T('C65','proved',['keys_held','keys_listed','keys_held_exactly','keys_held_agree','held_needs_times_in_order'],'keys_held needs no assumption; exactness assumes timestamps in the order of generations (shown necessary).')
T('C66','proved',['current_hashes_cover','other_message_kept'],'other_message_kept: messages with no key for this device are kept too, unless older than all keys held.')
T('C67','proved',['keys_restore'])
T('C68','partial',['keys_needs_dump_partial','keys_reload_loses_only','needs_dump_misses_hash'],'False of the code for message hashes: loading a known key under a new hash changes the dump without setting needs_dump (proved). keys_reload_loses_only: over any history since the last dump nothing else is lost, and exactly those hashes.')
T('C69','proved',['needs_rekey_iff'])
T('C70','proved',['rekey_succeeds','rekey_reaches','rekey_newer','rekey_deterministic','new_key_takes_over','toy_rekey','rekey_fresh'],'Idealised primitives; no accidental opening is an explicit hypothesis.')
T('C71','proved',['keymsg_authentic'])
T('C72','proved',['supplement_reaches','supplement_fresh'])
T('C73','proved',['message_roundtrip','receiver_holds_key','message_refused','message_padded','empty_message_lost'],'Idealised primitives; no accidental opening under another key is an explicit hypothesis.')
T('C74','proved',['message_authentic','unzip_iff'])
T('C75','proved',['promotion'])
