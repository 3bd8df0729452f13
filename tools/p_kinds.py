P('C140','The kinds of configuration are kept apart',
 'Every kind of configuration has a namespace and an encryption domain of its own, as the C and C++ interfaces report them. The key a message is encrypted with is derived from an input that determines the 32-byte key, the size and the kind. A message pushed by an object of one kind is not taken up by an object of any other kind, even if both hold the same keys, as all objects of one account and Info and Members of one group do: merging a batch with such a message does exactly what merging the batch without it does. Dumps, in contrast, carry no mark of their kind: any dump loads into an object of any kind as into one of its own.',
 'all pairs of kinds, all reachable objects, keys, contents and batches in which the message appears',
 'Tests merge messages of the same kind; that no message of another kind is ever taken up ranges over all contents, keys and batches.',
 ['include/session/config/namespaces.hpp','include/session/config/*.hpp: storage_namespace, encryption_domain, accepts_protobuf','src/config/encrypt.cpp: make_encrypt_key','src/config/protos.cpp: unwrap_config','src/config/base.cpp: merge, config_storage_namespace, config_encryption_domain'],
 'CfgKind lists the six classes with their virtual functions and CfgKind.sys builds the model object of each; kind_good shows that the conditions of the other theorems hold for all six. derivation_unique is injectivity of the derivation input. other_kind_ignored follows from it, from the namespace check of the protobuf envelope (C99) and from junk_ignored (C36), under cryptographic assumptions about the one message (Apart): no hash collision with the derivation inputs of the receiver, the ciphertext opens under one key only, an envelope is not by accident a ciphertext.')
