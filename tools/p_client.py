CFG='src/config.cpp'
BASE='src/config/base.cpp'
ENC='src/config/encrypt.cpp'
P('C27','Config encryption round-trips and rejects everything else',
  'decrypt(encrypt(m,k,d),k,d) = m for every message, 32-byte key and domain of 1..24 bytes; anything decrypt accepts is what the AEAD made from its result; inputs below 40 bytes are a decrypt_error, never an out-of-range read; wrong key or domain sizes are refused.',
  'every message, key, domain and ciphertext', 'Byte strings of any length.', [f'{ENC}:encrypt', f'{ENC}:decrypt', f'{ENC}:make_encrypt_key'],
  'AEAD and BLAKE2b as parameters with functional laws; the size-dependent key and the nonce suffix are explicit.')
P('C28','Padding hides the length and is removed exactly',
  'A padded message plus overhead is a multiple of the bucket of its size (256/1024/2048/5120), never shorter than the message, monotone and idempotent, and stripping leading NULs gives back any message that does not start with NUL.',
  'every message and overhead', 'Every size.', ['include/session/config/encrypt.hpp:padded_size', f'{ENC}:pad_message', f'{BASE}:_merge'],
  'Arithmetic on the bucket function; dropWhile.')
P('C29','The sequence number never goes back',
  'Whatever calls are made on a config object, in whatever order, and whatever messages are merged (with a non-negative seqno, and signed in the canonical form the library writes), its seqno never decreases; reloading a dump keeps it (or adds one if there were unpushed changes).',
  'all executions (edits, merges, pushes, confirmations, dumps, reloads, key changes)', 'Unbounded histories with adversarial messages.',
  [f'{BASE}:_merge', f'{BASE}:dirty', f'{BASE}:push', f'{BASE}:init_from_dump'],
  'Inductive execution relation, invariant, and a case analysis of each call.')
P('C30','A sequence number identifies the content that was published',
  'While the seqno stays the same, an object that is not dirty keeps exactly the same content and publishes exactly the same bytes, so two pushes returning the same seqno return the same message.',
  'all executions', 'Unbounded histories.', [f'{BASE}:push', f'{BASE}:_merge', f'{BASE}:dirty'], 'Same invariant as C29.')
P('C31','Pending changes stay pending until they are known elsewhere',
  'Once needs_push is true it stays true until confirm_pushed is called with the current seqno after a push, or a merge takes over a message after being given one that lists exactly what would be pushed in its history or that is lag or more ahead.',
  'every reachable state and every call', 'All interleavings of calls.', [f'{BASE}:_merge', f'{BASE}:confirm_pushed', f'{BASE}:set_state'],
  'Case analysis of each call; merge outcome lemma.')
P('C32','A confirmation applies only to what was pushed',
  'confirm_pushed(s, h) after push returned s has an effect only if the object still holds exactly the pushed content; after any later edit or content-changing merge it is ignored. Confirming at once clears needs_push and makes h the current hash.',
  'all executions between push and confirm', 'Asynchronous network replies: every interleaving.', [f'{BASE}:confirm_pushed', f'{BASE}:push'],
  'Corollary of C29 and C30.')
P('C33','A client without signing key never tries to publish',
  'An object with a verifier but no signer never needs a push in any reachable state, every modification throws and changes nothing, and push returns no hashes to delete.',
  'all executions of a read-only object', 'All histories.', [f'{BASE}:set_state', f'{BASE}:push'], 'Invariant.')
P('C34','A pushed config is delivered exactly',
  'Merging the message returned by push into another object of the same kind with the same encryption key (a new one, one holding a version the pushed config lists in its history, or one lag or more behind; with or without signing key) makes it hold exactly the pushed content and seqno, with nothing to push, and returns the message hash. A message sent without the protobuf wrapper by another version is read just as well.',
  'every reachable sender and receiver', 'All contents and histories; compression, padding, encryption and wrapping included.',
  [f'{BASE}:push', f'{BASE}:_merge', f'{BASE}:merge'], 'Envelope inverse lemmas, then the message merge outcome for two messages.')
P('C35','Clients converge',
  'Two objects able to publish that hold published configs and have between them seen the same set of valid messages have the same content and seqno after merging, in any order and with any duplicates or junk mixed in; if a new version is needed both make it, byte-identical.',
  'every pair of reachable objects and every pair of message lists', 'All interleavings and orders.', [f'{BASE}:_merge', f'{CFG}:ConfigMessage(vector,...)'],
  'Set dependence of the message merge (C05) lifted to objects. False for objects that cannot sign: witness readonly_diverges.')
P('C36','merge returns exactly the accepted messages, and junk is harmless',
  'The hashes returned by merge are exactly those of the given messages that decrypt with one of the keys and are valid config messages, in order; messages that cannot be decrypted or unpacked have no effect whatsoever.',
  'every reachable object and every list of messages', 'Adversarial inputs.', [f'{BASE}:merge', f'{BASE}:_merge'], 'Index bookkeeping of all_confs / bad_confs.')
P('C37','The hash of the live config is never reported as obsolete',
  'After any merge the current hash is that of the message the content came from, and obsolete hashes are those of superseded messages only, never that of the current config.',
  'every reachable object and every list of messages', 'All orders, duplicates and invalid messages.', [f'{BASE}:_merge', f'{BASE}:push', f'{BASE}:confirm_pushed'],
  'False of the code (two witnesses): the index of the message used counts only valid messages but is applied to all of them; a copy of the own message read before its confirmation is obsolete. Partial: batches without invalid messages and with fresh hashes.')
P('C38','dump and load preserve the object',
  'Loading the dump of any reachable object gives an object with the same content, pending state, current and obsolete hashes; if nothing was being edited, with the same seqno and published bytes.',
  'every reachable object', 'All histories and contents.', [f'{BASE}:make_dump', f'{BASE}:init_from_dump'], 'Round trip of the bencoded dump and of the message in it.')
P('C39','needs_dump is true whenever a crash would lose something',
  'If needs_dump() is false then loading the last dump gives back the current state.',
  'every execution, every crash point', 'Crash at every point of every history.', [f'{BASE}:set_state', f'{BASE}:dirty', f'{BASE}:_merge', f'{BASE}:dump'],
  'False of the code: a second edit while dirty, and new obsolete hashes, do not set the flag (witnesses). Partial: everything else is preserved.')
P('C40','The next update supersedes the previous push',
  'An edit made after a push, also after reloading a dump in between, publishes a config that lists the pushed one in its history.',
  'every reachable object and edit, lag >= 2', 'All histories.', [f'{CFG}:increment_impl', f'{BASE}:init_from_dump', f'{BASE}:make_dump'],
  'False of the code for signed configs after a reload (the dump lacks the signature, so the hash differs; witness). Proved without reload, and with reload for unsigned configs.')
P('C41','The list of encryption keys stays well-formed and ordered',
  'Keys are always distinct and 32 bytes; high priority puts a key in front, low priority at the end, others keep their order; replace_keys sets the list; wrong sizes are refused without effect; a change of keys marks the config for pushing exactly if asked to, on an object that can be written to, and the first key is another one afterwards; otherwise nothing but the list changes.',
  'every reachable object and every key', 'All sequences of calls.', [f'{BASE}:add_key', f'{BASE}:remove_key', f'{BASE}:replace_keys', f'{BASE}:clear_keys'], 'List lemmas, invariant.')
P('C42','No incoming message can fail an assertion in merge',
  'In builds with assertions, no list of messages makes merge abort.',
  'every reachable object and every list of messages', 'Adversarial inputs.', [f'{BASE}:_merge'],
  'False of the code for new objects and for read-only objects (witnesses). Partial: objects that hold a config and can sign; for the others, exactly which messages do it.')
