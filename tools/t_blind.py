T('C76','proved',['xed_roundtrip','xed_account','xed_pubkey','xed_unclamped_fails'],'The nonce being 0 modulo the order (probability 2^-252) is excluded by hypothesis. The expected behaviour for unclamped keys is false of the code (proved).')
T('C77','proved',['blind15_ids','blind15_keypair','blind15_signs','matches15_own','matches15_sound'],'A blinding factor or nonce of 0 modulo the order is excluded by hypothesis.')
T('C78','proved',['blind25_ids','blind25_keypair','blind25_signs','matches25_own','matches_sound','matches_uppercase_fails','matches_short_ub'],'A blinding factor or nonce of 0 modulo the order is excluded by hypothesis.')
T('C79','proved',['subaccount_roundtrip','subaccount_sound','subaccount_topbit'],'A factor or nonce of 0 modulo the order is excluded by hypothesis. Base64 output is not modelled.')
