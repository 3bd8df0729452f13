P('C123','Onion requests through the C interface',
 'A C program configures a builder (cipher, hops, destination: keys as 64 hex characters, texts NUL-terminated), builds requests with it and decrypts replies. Each setter does exactly what the C++ call with the decoded arguments does, or throws and leaves the builder alone; build gives the request C++ build gives and the key pair for the reply, does not change the builder, and returns false instead of throwing; the request passes through the hops in order to the destination, which gets the payload; its reply is decrypted by onion_request_decrypt with the keys that build wrote; what onion_request_decrypt accepts is authentic; buffers are not overrun if they have the documented sizes.',
 'all sequences of setter calls, all payloads, all random choices, all numbers of hops, all replies and ciphertexts',
 'Composition of the C layer with the nested encryption for every path length and every randomness; tests exercise one fixed request.',
 ['src/onionreq/builder.cpp: onion_request_builder_init, _set_enc_type, _set_snode_destination, _set_server_destination, _add_hop, _build','src/onionreq/response_parser.cpp: onion_request_decrypt','include/session/onionreq/builder.h'],
 'C calls are decoded by a relation Says to the calls of C100/C101; induction over the calls shows that the builder is the C++ one, then the theorems C100-C102 are composed with characterisations of the C build and decrypt functions.')
