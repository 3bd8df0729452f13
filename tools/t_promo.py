T('C118','proved',['load_admin_key','promoted_can_edit','promoted_loads_old_dumps','promoted_publishes'],'promoted_loads_old_dumps is stated for Info; Members is the same class of object.')
T('C119','partial',['sig_keys_partial','sig_calls','sig_init','sig_pubkey_keeps_signer'],'False of the code: set_sig_pubkey with another key after set_sig_keys keeps the old signer, so the object signs with a key its verifier rejects. Proved for all sequences without that.')
