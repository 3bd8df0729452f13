T('C96','proved',['group_keys_in_step','group_load_only_keys'],'Direct calls of add_key/replace_keys on Info or Members by the application are not part of the histories.')
T('C97','proved',['group_rekey_effects','group_rekey_reaches','member_no_pending'],'As in C70: entries for other members must not open with the member key (NoConfusion), shown for a concrete case. That others find no key is a secrecy property outside the model.')
T('C98','proved',['group_info_delivered','group_members_delivered','members_named'],'Hypotheses as in C34; no other key of the receiver opens the message.')
