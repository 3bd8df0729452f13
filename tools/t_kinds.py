T('C140','proved',['kinds_differ','derivation_unique','kind_good','other_kind_ignored','dumps_not_kept_apart'],'BLAKE2b, XChaCha20-Poly1305, zstd and the curve are parameters; what is assumed of them for one message is the structure Apart, met by concrete messages in the examples (Info and Members of one group; contacts and profile of one account).')
