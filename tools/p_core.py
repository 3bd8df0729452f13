CFG='src/config.cpp'; CH='include/session/config.hpp'; BASE='src/config/base.cpp'; BH='include/session/config/base.hpp'
P('C01','Config messages survive a serialise/parse round trip',
  'Parsing the bytes produced by serialize() of any config message yields a message with the same data, the same diff, the same seqno, the same unknown keys and exactly those lagged diffs whose seqno lies in (seqno-lag, seqno); the hash is the hash of the bytes, and a signed message is accepted by a verifier that accepts the signer\'s signature.',
  'every well-formed config message (any nesting, any keys and values, any lagged diffs), every lag, with and without signer/verifier',
  'The space of nested dicts/sets/scalars and unknown keys is infinite; a test samples a few literals.',
  [f'{CFG}:serialize_impl', f'{CFG}:ConfigMessage(ustring_view,...)', f'{CFG}:parse_data', f'{CFG}:load_diff', 'src/config/internal.cpp:load_unknowns'],
  'Byte-level bencode encoder/decoder and message parser; induction over the nested value.')
P('C02','Accepted messages are canonical',
  'Whatever bytes are offered, a message that the parser accepts has data whose dict keys and set elements are strictly ascending, holds no empty dict or set anywhere, only 64-bit integers, and lagged diffs strictly ascending by (seqno, hash).',
  'every byte string accepted by the parser', 'Adversarial inputs are unbounded; only a proof covers all accepted byte strings.',
  [f'{CFG}:parse_data', f'{CFG}:parse_lagged_diffs', f'{CFG}:load_diff'],
  'Soundness of the parser model by induction on the decoded value.')
P('C03','Serialisation is injective',
  'Two config messages that serialise to the same bytes have the same data, seqno, diff and unknown keys, so equal hashes of distinct contents can only come from a hash collision.',
  'every pair of well-formed messages', 'Quantifies over pairs of unbounded values.',
  [f'{CFG}:serialize_impl'], 'Corollary of the round trip.')
P('C04','Unknown top-level keys are carried forward',
  'Top-level keys (and values) that this version does not know, as written by a newer client, survive parsing, incrementing, any modification of the data and re-serialising.',
  'every accepted message, every set of unknown keys, every modification of the data', 'The set of future keys is unbounded.',
  ['src/config/internal.cpp:append_unknown', 'src/config/internal.cpp:load_unknowns', f'{CFG}:increment_impl'],
  'Model of append_unknown/load_unknowns; composition with increment.')
P('C05','No message is accepted without a valid signature over exactly its preceding bytes',
  'If a verifier is set, a message is accepted only if it ends in a 64-byte "~" entry and the verifier accepted that signature for exactly the bytes before the entry, which start at the first byte of the message.',
  'every byte string and every verifier', 'Forgery attempts are unbounded.',
  [f'{CFG}:verify_config_sig'], 'Top-level entries carry their byte offset; case analysis of the parser.')
P('C06','Lagged diffs of an accepted message lie inside the lag window',
  'Every lagged diff retained from an accepted message has a seqno strictly greater than seqno-lag and strictly less than the seqno of the message, and a 32-byte hash.',
  'every accepted byte string, every lag', 'All inputs.',
  [f'{CFG}:parse_lagged_diffs'], 'Induction over the rows of the lagged list.')
P('C07','Parsing always terminates',
  'For every byte string the config message parser returns or throws; it never loops forever.',
  'every byte string', 'Non-termination can hide behind a single malformed nested value.',
  [f'{CFG}:load_diff'], 'Diffs with an integer value are an explicit `hang` outcome of the model. The claim is false of the code (integer diff values loop forever); a concrete message witnesses it, and termination is proved whenever no such value occurs; for bencoded dicts it is proved exactly which ones hang the parser.')
P('C08','Merging skips invalid messages',
  'Merging a batch gives the same result as merging the batch with every unparseable message removed, and the error handler is told exactly the indices of the removed ones.',
  'every batch of byte strings', 'All batches, all kinds of damage.',
  [f'{CFG}:ConfigMessage(vector,...)'], 'Induction over the batch. Data that is not a bencoded dict throws outside the try block and aborts the whole merge: witness for the negation.')
P('C09','Applying the diff between two states to the old one gives the new one',
  'For every previous content and every new (pruned) content, applying the diff that a modified config publishes to the previous content, with the new content as value source, yields exactly the new content.',
  'every pair of config contents, arbitrarily nested', 'Unbounded nested structures and every combination of add/remove/replace/type change.',
  [f'{CFG}:diff_impl', f'{CFG}:apply_diff'], 'Mutual structural induction over nested dicts.')
P('C10','The published diff is empty exactly when nothing changed',
  'A modified config publishes an empty diff if and only if its pruned content equals the content it started from.',
  'every pair of contents', 'Unbounded pairs.', [f'{CFG}:diff_impl', f'{CFG}:MutableConfigMessage::diff'],
  'From C09 (if) and reflexivity of the diff (only if).')
P('C11','Diffs published by a client are accepted by other clients',
  'The diff between any valid content and any content, after pruning, passes the validation that other clients apply to received diffs, and computing it never dereferences an empty optional.',
  'every pair of contents', 'Unbounded pairs.', [f'{CFG}:diff_impl', f'{CFG}:load_diff'], 'Structural induction.')
P('C12','Merging does not depend on the order of the messages',
  'Merging any permutation of a batch yields a config with the same data, seqno, hash and lagged diffs.',
  'every batch and every permutation, provided messages with equal (seqno, hash) are equal (no hash collision)', 'n! permutations of unbounded batches.',
  [f'{CFG}:ConfigMessage(vector,...)'], 'The kept set, the maximum and the replay map are characterised independently of order.')
P('C13','Duplicate messages do not matter',
  'Adding further copies of messages already in a batch does not change the data, seqno, hash or lagged diffs of the merge result.',
  'every batch and every multiplicity', 'Unbounded.', [f'{CFG}:ConfigMessage(vector,...)'], 'As C12.')
P('C14','A merge result absorbs the messages it was made from',
  'Merging the published merge result together with any of the messages it was merged from returns that result unchanged (no new conflict, no new seqno).',
  'every batch that needed a merge, every sub-collection of it', 'Every history.',
  [f'{CFG}:ConfigMessage(vector,...)'], 'The inputs are in the lagged diffs of the result or too old.')
P('C15','A merge result has the highest seqno of its inputs, or one more',
  'If exactly one message of the batch is current, the result is that message with its own seqno, which is the highest in the batch; otherwise (a real merge) the result has seqno highest+1.',
  'every batch', 'All batches.', [f'{CFG}:ConfigMessage(vector,...)'], 'Characterisation of the kept configs.')
P('C16','Merging never discards every message',
  'For every nonempty batch of valid messages at least one is kept as current, so the merge never reads an empty list; the message with the highest (seqno, hash) is always kept.',
  'every batch and every lag >= 1', 'All batches.', [f'{CFG}:ConfigMessage(vector,...) assert(curr_confs >= 1)'], 'Maximum argument; for lag <= 0 the claim is false (witness).')
P('C17','Concurrent changes to different entries all survive a merge',
  'If several clients modify the same base config, the merge of their messages contains every change: each entry changed by exactly one of them has the value it gave, and entries nobody touched keep the base value.',
  'every base config with an honest history (merges included; for elements absent from a set: no merges), all sets of concurrent one-step modifications, with or without older versions in the batch', 'Unbounded.', [f'{CFG}:ConfigMessage(vector,...)', f'{CFG}:apply_diff'], 'Pointwise semantics of apply over the replay list.')
P('C18','In a conflict the message with the higher (seqno, hash) wins',
  'If several merged messages change the same entry, the merged entry has the value from the message with the highest (seqno, hash) among those that changed it.',
  'every batch of conflicting messages', 'Unbounded.', [f'{CFG}:ConfigMessage(vector,...)'], 'Last applied diff wins, replay is ascending.')
P('C19','A client that cannot sign never fabricates a config',
  'With a verifier and no signer, the result of a merge is always one of the given valid messages.',
  'every batch', 'All batches.', [f'{CFG}:ConfigMessage(vector,...) verifier && !signer'], 'Case analysis.')
P('C20','Messages too far behind are ignored',
  'A message whose seqno is lag or more behind the highest in the batch contributes nothing: removing it leaves the merge result unchanged.',
  'every batch, lag >= 1', 'All batches.', [f'{CFG}:ConfigMessage(vector,...)'], 'It is redundant; the other messages do not change status.')
P('C21','A message supersedes the message it was derived from',
  'Loading a message, incrementing it, modifying it and publishing the result gives a message which, merged with the original in any order, is returned unchanged as the only current one.',
  'every message, every modification, lag >= 2', 'All messages and modifications.', [f'{CFG}:increment_impl', f'{CFG}:ConfigMessage(vector,...)'],
  'The original appears in the lagged diffs of the derived message.')
P('C22','Merging is not aborted by a well-formed but inconsistent diff',
  'A single accepted message can never make the merge of the others fail.',
  'every batch', 'Adversarial messages.', [f'{CFG}:apply_diff', f'{CFG}:load_diff'],
  'False of the code: set diffs with one list are accepted by the parser but rejected when applied; witness. Partial: batches of diffs that all come from honest clients never fail.')
P('C23','A diff mentions only what changed, and all of it',
  'The diff a config publishes leaves every entry that did not change alone, whatever config it is applied to, and imposes the new value of every entry that did change.',
  'every pair of contents and every config the diff is applied to', 'Unbounded contents on both sides.', [f'{CFG}:diff_impl', f'{CFG}:apply_diff'],
  'Leafwise effect of applying a diff to arbitrary data.')
P('C24','Unknown top-level keys survive a merge',
  'Top-level keys this version does not understand, present in the merged messages, are still present in the result.',
  'every batch', 'All batches.', [f'{CFG}:ConfigMessage(vector,...)'],
  'False of the code for real merges (the result is built without unknown_); witness. Partial: kept when the result is one of the inputs.')
P('C25','Concurrent changes several steps apart all survive a merge',
  'If clients modify a common base config in several published steps each, an entry changed by only one of them keeps the value it gave in the merge of their latest messages.',
  'every base and all sequences of modifications', 'Unbounded histories.', [f'{CFG}:apply_diff', f'{CFG}:ConfigMessage(vector,...)'],
  'False of the code: a record replayed with a content that has since lost the enclosing dict erases the whole dict; witnesses (a lost change, and a lost set element that later returns). Partial: the highest message is never overruled.')
P('C26','A history lists only earlier versions',
  'Every config lists in its history only seqnos lower than its own, in order and without duplicates, so trimming it on increment never erases through an invalidated iterator.',
  'every message obtainable through the API, adversarial inputs included', 'All histories.', [f'{CFG}:increment_impl'], 'Invariant of all constructors.')
