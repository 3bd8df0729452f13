T('C105','proved',['btMerge_spec','mergeSorted_spec'],'')
T('C106','proved',['ed_api','key_api_lengths','hash_api','curve_pair'],'For seeds whose public key is not the neutral element and messages whose nonce is not zero (both have negligible probability and are conditions of the library functions themselves).')
T('C107','partial',['c_crypto_in_bounds_partial','curve25519_key_pair_overflows'],'False of session_curve25519_key_pair, which always writes 64 bytes into the documented 32 (curve25519_key_pair_overflows); proved for the twelve others.')
