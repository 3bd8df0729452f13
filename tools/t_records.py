T('C46','proved',['contact_set_get','Contact.Valid.norm_eq','contact_set_error','contact_rewrite_noop','contact_update','contact_setters','contact_setters_succeed','contact_erase','sameId_iff','valid_id_iff','id_spells'])
T('C47','proved',['contact_iter'])
T('C48','proved',['contact_delivered'],'Hypotheses as in C34 (delivery). The second part needs, for the other contacts, that their record has a name field (which set always writes).')
T('C49','partial',['contact_via_c_partial','contact_via_c_sound','contact_via_c_fails'],'False of the code: mute_until is not carried by the conversions and copy_c_str overflows. Proved: everything else is preserved for valid records without NUL bytes.')
T('C50','proved',['profile_set','profile_delivered'])
