PR=['src/config/protos.cpp: wrap_config, unwrap_config','proto/SessionProtos.pb.cc','proto/WebSocketResources.pb.cc','src/config/base.cpp: merge, push']
P('C99','Protobuf envelopes carry config messages unchanged',
 'For every account key, config message below 1 GiB, sequence number and each of the four user namespaces, wrap_config succeeds, adds at most 400 bytes, and unwrap_config of the same account and namespace returns the message; for any other namespace unwrap_config refuses it. Whatever bytes unwrap_config is given, what it returns was signed by the account itself, as a config message of that namespace. A config object with such envelopes has the property on which delivery (C34) rests.',
 'all keys (seed or secret key), messages, sequence numbers and namespaces; all byte strings as input of unwrap_config',
 'Ranges over all messages and all adversarial inputs.',
 PR,'Verif/Protos.lean models the protobuf wire format and the five message types; round trip by induction over field lists, composed with C80.')
