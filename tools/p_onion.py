PO=['src/onionreq/builder.cpp: Builder::build, encode_size, parse_enc_type','src/onionreq/hop_encryption.cpp: HopEncryption::encrypt, decrypt','src/onionreq/parser.cpp: OnionReqParser','src/onionreq/response_parser.cpp: ResponseParser','include/session/onionreq/builder.hpp','src/onionreq/key_types.cpp: parse_x25519_pubkey']
P('C100','Onion requests to a service node reach it through the hops in order, and its reply comes back',
 'For every payload, cipher and list of hops, and any order of the calls that configure a Builder which was not given a server destination, build succeeds, and (if the request is within the size limit of the parsers, below 4 GiB) each hop’s OnionReqParser decrypts a request naming the next node and carrying the next request, in the order in which the hops were added, and the destination’s parser yields exactly the payload with the empty headers entry. Whatever the destination encrypts with encrypt_reply, the ResponseParser made from the builder decrypts to the same bytes.',
 'all payloads, hop lists, ciphers, random draws, call histories without a server destination, replies',
 'The number of layers is unbounded and the sizes and contents are arbitrary.',
 PO,'Verif/Onion.lean models builder, hop encryption and parsers over abstract primitives; induction over the hops with the invariant that a blob passes through the rest of the path whatever metadata precedes it.')
P('C101','Onion requests to a server reach it with the payload intact',
 'As C100 for a server destination: the last hop is told host, target, protocol, port and method, and the server gets exactly the payload.',
 'all payloads, URLs, hop lists, ciphers, random draws, call histories',
 'Ranges over all payloads and paths.',
 PO,'As C100. False for payloads with a NUL byte (the payload is passed as a C string) and for ports left out after an earlier destination gave one.')
P('C102','Only the destination can produce a response',
 'Whatever bytes ResponseParser::decrypt (or onion_request_decrypt) accepts, they are nonce and sealed message under the key derived from the secret shared by the request’s final key pair and the destination’s key, with the request’s cipher or (for XChaCha20 requests) AES-GCM.',
 'all byte strings as response','Ranges over all adversarial inputs.',PO,
 'Inversion of decrypt, with AEAD decryption accepting only what was sealed.')
P('C103','A node accepts only well-formed, sealed requests within the size limit',
 'OnionReqParser, given any bytes, either throws or returns: it never reads outside them. If it returns, the request is no larger than the limit, is a size, a ciphertext of that size and JSON; the JSON names a known cipher (or none, which means AES-GCM) and an ephemeral key which is not the null key that stands for malformed ones; and the payload is what was sealed under the key shared with that ephemeral key.',
 'all byte strings as request, all keys and limits','Ranges over all adversarial inputs.',PO,
 'Inversion of the parser.')
P('C104','A request goes to the destination set last',
 'Whatever calls of set_snode_destination, set_server_destination, set_enc_type and add_hop were made on a Builder, the request goes to the destination (and port, or the default port of the protocol) given last.',
 'all call histories','Ranges over all call histories.',PO,
 'Proved for server destinations with a port, and for service nodes if no server was ever set; refuted otherwise.')
