T('C108','proved',['make_string_list_ok','config_push_ok','config_get_keys_ok'],'The contents handed to these functions are those of C08, C27 and C38. A NUL within a string ends it for C programs, as the statement says.')
T('C109','partial',['c_get_reports_partial','c_group_get_reports','c_error_fits','c_get_overflows','c_set_throws','c_erase'],'False of the code for ids of 191 bytes or more, for which the getters overflow the error buffer (c_get_overflows), and of the setters, which let the exception out (c_set_throws).')
T('C110','proved',['member_iteration','keptFrom_eq'],'')
T('C111','partial',['sodium_array_values_partial','sodium_move_assign_ub'],'False of move assignment, which is always undefined behaviour (sodium_move_assign_ub); proved for programs of all other operations. Elements are bytes, the only instance in the library.')
T('C112','proved',['or_construct','ucomm_or','comm_convo_or','comm_by_url','comm_by_hex','ucomm_found_by_url'],'For the last, communities stored as set stores them (CanonRooms), which set maintains.')
T('C113','partial',['string_iequal_spec','end_with_spec','starts_with_wrong','session_id_hex_wrong'],'False of starts_with and SessionID::hex (neither is used in the library).')
T('C114','proved',['c_encryption','c_group_messages'],'malloc is taken to succeed (the code does not check it).')
T('C115','proved',['c_subaccounts','readB64_toB64'],'')
T('C116','partial',['c_verify_subaccount_partial','c_verify_subaccount_wrong'],'False of the code: values made with read permission only are accepted, and an invalid group id makes the exception leave the C function (c_verify_subaccount_wrong). Proved: it accepts exactly the valid values with read permission.')
T('C117','proved',['multi_any_api','multi_ed_form','multi_c_failure'],'With the hypotheses of C61 about accidental decryption under a key of someone else. The Ed25519 C++ encryption function with its default nonce is the subject of C63.')
