T('C127','partial',['c_keys_call','c_keys_run','c_keys_between','c_keys_by_index','c_keys_hashes','c_keys_restart','c_rekey_reaches','c_load_admin','c_keys_generation_partial','c_keys_generation_wraps'],'All but the generation is proved in full; the generation is right below 2^31 only, and wrong beyond (c_keys_generation_wraps), because current_generation returns int. That a rekey reaches a member has the same assumptions as C97.')
