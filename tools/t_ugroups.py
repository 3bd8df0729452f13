T('C83','proved',['group_set_get','group_set_error','group_erase','group_kicked','group_created','group_admin_lost'],'pub (crypto_sign_seed_keypair) is a parameter with 32-byte outputs. group_admin_lost: with an upper-case id the admin key is not read, and writing the record back erases it; stale auth data kept beside a secret key.')
T('C84','proved',['legacy_set_get','legacy_set_error','legacy_erase','legacy_members','Legacy.Valid.norm_eq','legacy_member_spellings'],'legacy_member_spellings: insert treats two spellings of an id as two members; stored they become one non-admin.')
T('C85','proved',['ucomm_set_get','ucomm_set_error','ucomm_erase'])
T('C86','proved',['group_iter','legacy_iter','ucomm_iter','ucomm_set_canon','all_groups_iter','all_groups_size'],'Communities: under the hypothesis that all are stored as set stores them (CanonRooms).')
T('C87','proved',['read_sound'])
T('C88','proved',['group_delivered','legacy_delivered','ucomm_delivered'],'Hypotheses as in C34 (delivery). Other records need the field that set always writes.')
T('C89','partial',['group_via_c_partial','legacy_via_c_partial','ucomm_via_c','ugroups_via_c_sound','ugroups_via_c_fails'],'False of the code for names over 100 bytes (overflow) and communities without a key (over-read). Proved: everything else is preserved for names without NUL.')
T('C90','partial',['legacy_members_combine','legacy_members_line','legacy_member_lost'],'Proved if no device removes the last plain member or the last admin (otherwise false, legacy_member_lost). For histories with earlier merges an id newly made admin is shown to be a member, not necessarily admin, since elements removed earlier can come back (lost_element_returns of C25); for devices without an earlier real merge the status is exactly what the one device made of it (legacy_members_line).')
