T('C61','proved',['multi_roundtrip','multi_outsider','multi_vector_roundtrip','multi_invalid_recipients'],'Idealised primitives; no accidental opening is an explicit hypothesis.')
T('C62','proved',['multi_authentic','multi_vector_authentic','multi_key_separation'])
T('C63','partial',['multi_filler_partial','multi_filler_size_differs','multi_ed_default_nonce_throws'],'The documented size of filler entries and the meaning of an empty nonce are false of the code (proved).')
