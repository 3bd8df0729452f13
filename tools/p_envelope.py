P('C149','Every encoding of an envelope is read alike',
 'unwrap_config returns data exactly if its input is a protobuf WebSocketMessage of type REQUEST whose request carries an Envelope with a known type and a timestamp, whose content decrypts to a message of the account to itself consisting of a Content with a SharedConfigMessage of that namespace with that data, a byte 0x80 and any number of zeros. The order of fields, further fields, repeated fields (the last counts), a request that comes in parts and the length of the padding do not matter, so envelopes made by other programs are read as well.',
 'all keys, namespaces and byte strings; all field lists of the five messages',
 'All encodings of unboundedly long messages.',
 ['src/config/protos.cpp: unwrap_config','proto/SessionProtos.proto','proto/WebSocketResources.proto'],
 'Props/Envelope.lean: the field readers are characterised by the last occurrence of a field; unwrap_iff from that, unwrap_any_encoding from the round trip of field lists.')
