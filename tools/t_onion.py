T('C100','proved',['onion_to_snode'],'Relays is the specification of passing a request along; primitives as in OPrims.Good (JSON: what was dumped parses to the same members; ASCII strings can be dumped).')
T('C101','partial',['onion_to_server_partial','onion_server_payload_cut','onion_port_sticky'],'Proved for payloads without NUL bytes, ASCII URLs and, if no port is given, none given to an earlier destination (onion_port_sticky: else that port is used). onion_server_payload_cut: with a NUL the payload is cut there (builder.cpp:108 passes payload.data() where a string is expected).')
T('C102','proved',['response_authentic'],'')
T('C103','proved',['onionParse_sound','onionParse_safe'],'base64 and base32z decoding of the ephemeral key are parameters.')
T('C104','partial',['onion_to_server_partial','onion_to_snode','onion_snode_after_server','onion_port_sticky'],'False in general: a service node set after a server is ignored (onion_snode_after_server), and a port is kept for later destinations without one (onion_port_sticky).')
