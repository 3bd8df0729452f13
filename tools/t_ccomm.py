T('C124','partial',['c_comm_get_partial','c_ucomm_get_partial','c_comm_overread','c_convo_back','c_comm_set_get','c_comm_erase','c_convo_loop','c_ugroup_loop_partial','c_legacy_members','c_group_kicked'],'False when the server is stored without a key of 32 bytes: the C getters then read beyond an empty string (c_comm_overread, with a reachable instance). The loop over groups needs stored names of at most 100 bytes (see C89).')
