P('C144','Exactly which configs can be pushed',
 'push succeeds exactly if the object has an encryption key and its serialised config or, if shorter, the compressed form plus one byte has at most 76760 bytes (groups::Info, groups::Members) or 71640 bytes (the four user configs, whose messages are wrapped in protobuf). Sizes of messages are multiples of the padding bucket (plus 1 to 400 bytes of wrapper). A push that fails leaves content, seqno, needs_push, needs_dump, hashes and keys as they were.',
 'every reachable config object of each kind, every content',
 'The limit applies after compression, padding, encryption and wrapping of arbitrary content.',
 ['src/config/base.cpp: push','include/session/config.hpp: MAX_MESSAGE_SIZE','include/session/config/encrypt.hpp: padded_size','src/config/protos.cpp: wrap_config'],
 'Verif/Props/PushSize.lean: sizes of the padding buckets (arithmetic), of the encryption and of the wrapper (upper bound of C99 and a lower bound), composed for the six kinds.')
