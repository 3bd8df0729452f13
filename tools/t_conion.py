T('C123','partial',['c_call_iff','c_call_in_bounds','c_build_iff','c_decrypt_iff','c_onion_to_snode','c_onion_to_server_partial','c_decrypt_authentic','c_setters_throw'],'Partial only for server destinations, as C101: payloads without NUL and ASCII URLs. Setters throw C++ exceptions for bad arguments (c_setters_throw). The documented onion_request_builder_free does not exist.')
