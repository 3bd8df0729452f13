T('C143','proved',['keymsg_accepted_iff','load_accepts_iff','packed_keys_refused','rekeys_in_format','supplements_in_format'],'For dicts encoded as the library encodes them, keys ascending; hplain says the same of the supplement the member decrypts.')
