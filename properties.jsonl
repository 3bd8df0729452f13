{"id": "C01", "title": "Config messages survive a serialise/parse round trip", "statement": "Parsing the bytes produced by serialize() of any config message yields a message with the same data, the same diff, the same seqno, the same unknown keys and exactly those lagged diffs whose seqno lies in (seqno-lag, seqno); the hash is the hash of the bytes, and a signed message is accepted by a verifier that accepts the signer's signature.", "quantifier": "every well-formed config message (any nesting, any keys and values, any lagged diffs), every lag, with and without signer/verifier", "why_tests_cant": "The space of nested dicts/sets/scalars and unknown keys is infinite; a test samples a few literals.", "anchors": ["src/config.cpp:serialize_impl", "src/config.cpp:ConfigMessage(ustring_view,...)", "src/config.cpp:parse_data", "src/config.cpp:load_diff", "src/config/internal.cpp:load_unknowns"]}
{"id": "C02", "title": "Accepted messages are canonical", "statement": "Whatever bytes are offered, a message that the parser accepts has data whose dict keys and set elements are strictly ascending, holds no empty dict or set anywhere, only 64-bit integers, and lagged diffs strictly ascending by (seqno, hash).", "quantifier": "every byte string accepted by the parser", "why_tests_cant": "Adversarial inputs are unbounded; only a proof covers all accepted byte strings.", "anchors": ["src/config.cpp:parse_data", "src/config.cpp:parse_lagged_diffs", "src/config.cpp:load_diff"]}
{"id": "C03", "title": "Serialisation is injective", "statement": "Two config messages that serialise to the same bytes have the same data, seqno, diff and unknown keys, so equal hashes of distinct contents can only come from a hash collision.", "quantifier": "every pair of well-formed messages", "why_tests_cant": "Quantifies over pairs of unbounded values.", "anchors": ["src/config.cpp:serialize_impl"]}
{"id": "C04", "title": "Unknown top-level keys are carried forward", "statement": "Top-level keys (and values) that this version does not know, as written by a newer client, survive parsing, incrementing, any modification of the data and re-serialising.", "quantifier": "every accepted message, every set of unknown keys, every modification of the data", "why_tests_cant": "The set of future keys is unbounded.", "anchors": ["src/config/internal.cpp:append_unknown", "src/config/internal.cpp:load_unknowns", "src/config.cpp:increment_impl"]}
{"id": "C05", "title": "No message is accepted without a valid signature over exactly its preceding bytes", "statement": "If a verifier is set, a message is accepted only if it ends in a 64-byte \"~\" entry and the verifier accepted that signature for exactly the bytes before the entry, which start at the first byte of the message.", "quantifier": "every byte string and every verifier", "why_tests_cant": "Forgery attempts are unbounded.", "anchors": ["src/config.cpp:verify_config_sig"]}
{"id": "C06", "title": "Lagged diffs of an accepted message lie inside the lag window", "statement": "Every lagged diff retained from an accepted message has a seqno strictly greater than seqno-lag and strictly less than the seqno of the message, and a 32-byte hash.", "quantifier": "every accepted byte string, every lag", "why_tests_cant": "All inputs.", "anchors": ["src/config.cpp:parse_lagged_diffs"]}
{"id": "C07", "title": "Parsing always terminates", "statement": "For every byte string the config message parser returns or throws; it never loops forever.", "quantifier": "every byte string", "why_tests_cant": "Non-termination can hide behind a single malformed nested value.", "anchors": ["src/config.cpp:load_diff"]}
{"id": "C08", "title": "Merging skips invalid messages", "statement": "Merging a batch gives the same result as merging the batch with every unparseable message removed, and the error handler is told exactly the indices of the removed ones.", "quantifier": "every batch of byte strings", "why_tests_cant": "All batches, all kinds of damage.", "anchors": ["src/config.cpp:ConfigMessage(vector,...)"]}
{"id": "C09", "title": "Applying the diff between two states to the old one gives the new one", "statement": "For every previous content and every new (pruned) content, applying the diff that a modified config publishes to the previous content, with the new content as value source, yields exactly the new content.", "quantifier": "every pair of config contents, arbitrarily nested", "why_tests_cant": "Unbounded nested structures and every combination of add/remove/replace/type change.", "anchors": ["src/config.cpp:diff_impl", "src/config.cpp:apply_diff"]}
{"id": "C10", "title": "The published diff is empty exactly when nothing changed", "statement": "A modified config publishes an empty diff if and only if its pruned content equals the content it started from.", "quantifier": "every pair of contents", "why_tests_cant": "Unbounded pairs.", "anchors": ["src/config.cpp:diff_impl", "src/config.cpp:MutableConfigMessage::diff"]}
{"id": "C11", "title": "Diffs published by a client are accepted by other clients", "statement": "The diff between any valid content and any content, after pruning, passes the validation that other clients apply to received diffs, and computing it never dereferences an empty optional.", "quantifier": "every pair of contents", "why_tests_cant": "Unbounded pairs.", "anchors": ["src/config.cpp:diff_impl", "src/config.cpp:load_diff"]}
{"id": "C12", "title": "Merging does not depend on the order of the messages", "statement": "Merging any permutation of a batch yields a config with the same data, seqno, hash and lagged diffs.", "quantifier": "every batch and every permutation, provided messages with equal (seqno, hash) are equal (no hash collision)", "why_tests_cant": "n! permutations of unbounded batches.", "anchors": ["src/config.cpp:ConfigMessage(vector,...)"]}
{"id": "C13", "title": "Duplicate messages do not matter", "statement": "Adding further copies of messages already in a batch does not change the data, seqno, hash or lagged diffs of the merge result.", "quantifier": "every batch and every multiplicity", "why_tests_cant": "Unbounded.", "anchors": ["src/config.cpp:ConfigMessage(vector,...)"]}
{"id": "C14", "title": "A merge result absorbs the messages it was made from", "statement": "Merging the published merge result together with any of the messages it was merged from returns that result unchanged (no new conflict, no new seqno).", "quantifier": "every batch that needed a merge, every sub-collection of it", "why_tests_cant": "Every history.", "anchors": ["src/config.cpp:ConfigMessage(vector,...)"]}
{"id": "C15", "title": "A merge result has the highest seqno of its inputs, or one more", "statement": "If exactly one message of the batch is current, the result is that message with its own seqno, which is the highest in the batch; otherwise (a real merge) the result has seqno highest+1.", "quantifier": "every batch", "why_tests_cant": "All batches.", "anchors": ["src/config.cpp:ConfigMessage(vector,...)"]}
{"id": "C16", "title": "Merging never discards every message", "statement": "For every nonempty batch of valid messages at least one is kept as current, so the merge never reads an empty list; the message with the highest (seqno, hash) is always kept.", "quantifier": "every batch and every lag >= 1", "why_tests_cant": "All batches.", "anchors": ["src/config.cpp:ConfigMessage(vector,...) assert(curr_confs >= 1)"]}
{"id": "C17", "title": "Concurrent changes to different entries all survive a merge", "statement": "If several clients modify the same base config, the merge of their messages contains every change: each entry changed by exactly one of them has the value it gave, and entries nobody touched keep the base value.", "quantifier": "every base config with an honest history (merges included; for elements absent from a set: no merges), all sets of concurrent one-step modifications, with or without older versions in the batch", "why_tests_cant": "Unbounded.", "anchors": ["src/config.cpp:ConfigMessage(vector,...)", "src/config.cpp:apply_diff"]}
{"id": "C18", "title": "In a conflict the message with the higher (seqno, hash) wins", "statement": "If several merged messages change the same entry, the merged entry has the value from the message with the highest (seqno, hash) among those that changed it.", "quantifier": "every batch of conflicting messages", "why_tests_cant": "Unbounded.", "anchors": ["src/config.cpp:ConfigMessage(vector,...)"]}
{"id": "C19", "title": "A client that cannot sign never fabricates a config", "statement": "With a verifier and no signer, the result of a merge is always one of the given valid messages.", "quantifier": "every batch", "why_tests_cant": "All batches.", "anchors": ["src/config.cpp:ConfigMessage(vector,...) verifier && !signer"]}
{"id": "C20", "title": "Messages too far behind are ignored", "statement": "A message whose seqno is lag or more behind the highest in the batch contributes nothing: removing it leaves the merge result unchanged.", "quantifier": "every batch, lag >= 1", "why_tests_cant": "All batches.", "anchors": ["src/config.cpp:ConfigMessage(vector,...)"]}
{"id": "C21", "title": "A message supersedes the message it was derived from", "statement": "Loading a message, incrementing it, modifying it and publishing the result gives a message which, merged with the original in any order, is returned unchanged as the only current one.", "quantifier": "every message, every modification, lag >= 2", "why_tests_cant": "All messages and modifications.", "anchors": ["src/config.cpp:increment_impl", "src/config.cpp:ConfigMessage(vector,...)"]}
{"id": "C22", "title": "Merging is not aborted by a well-formed but inconsistent diff", "statement": "A single accepted message can never make the merge of the others fail.", "quantifier": "every batch", "why_tests_cant": "Adversarial messages.", "anchors": ["src/config.cpp:apply_diff", "src/config.cpp:load_diff"]}
{"id": "C23", "title": "A diff mentions only what changed, and all of it", "statement": "The diff a config publishes leaves every entry that did not change alone, whatever config it is applied to, and imposes the new value of every entry that did change.", "quantifier": "every pair of contents and every config the diff is applied to", "why_tests_cant": "Unbounded contents on both sides.", "anchors": ["src/config.cpp:diff_impl", "src/config.cpp:apply_diff"]}
{"id": "C24", "title": "Unknown top-level keys survive a merge", "statement": "Top-level keys this version does not understand, present in the merged messages, are still present in the result.", "quantifier": "every batch", "why_tests_cant": "All batches.", "anchors": ["src/config.cpp:ConfigMessage(vector,...)"]}
{"id": "C25", "title": "Concurrent changes several steps apart all survive a merge", "statement": "If clients modify a common base config in several published steps each, an entry changed by only one of them keeps the value it gave in the merge of their latest messages.", "quantifier": "every base and all sequences of modifications", "why_tests_cant": "Unbounded histories.", "anchors": ["src/config.cpp:apply_diff", "src/config.cpp:ConfigMessage(vector,...)"]}
{"id": "C26", "title": "A history lists only earlier versions", "statement": "Every config lists in its history only seqnos lower than its own, in order and without duplicates, so trimming it on increment never erases through an invalidated iterator.", "quantifier": "every message obtainable through the API, adversarial inputs included", "why_tests_cant": "All histories.", "anchors": ["src/config.cpp:increment_impl"]}
{"id": "C27", "title": "Config encryption round-trips and rejects everything else", "statement": "decrypt(encrypt(m,k,d),k,d) = m for every message, 32-byte key and domain of 1..24 bytes; anything decrypt accepts is what the AEAD made from its result; inputs below 40 bytes are a decrypt_error, never an out-of-range read; wrong key or domain sizes are refused.", "quantifier": "every message, key, domain and ciphertext", "why_tests_cant": "Byte strings of any length.", "anchors": ["src/config/encrypt.cpp:encrypt", "src/config/encrypt.cpp:decrypt", "src/config/encrypt.cpp:make_encrypt_key"]}
{"id": "C28", "title": "Padding hides the length and is removed exactly", "statement": "A padded message plus overhead is a multiple of the bucket of its size (256/1024/2048/5120), never shorter than the message, monotone and idempotent, and stripping leading NULs gives back any message that does not start with NUL.", "quantifier": "every message and overhead", "why_tests_cant": "Every size.", "anchors": ["include/session/config/encrypt.hpp:padded_size", "src/config/encrypt.cpp:pad_message", "src/config/base.cpp:_merge"]}
{"id": "C29", "title": "The sequence number never goes back", "statement": "Whatever calls are made on a config object, in whatever order, and whatever messages are merged (with a non-negative seqno, and signed in the canonical form the library writes), its seqno never decreases; reloading a dump keeps it (or adds one if there were unpushed changes).", "quantifier": "all executions (edits, merges, pushes, confirmations, dumps, reloads, key changes)", "why_tests_cant": "Unbounded histories with adversarial messages.", "anchors": ["src/config/base.cpp:_merge", "src/config/base.cpp:dirty", "src/config/base.cpp:push", "src/config/base.cpp:init_from_dump"]}
{"id": "C30", "title": "A sequence number identifies the content that was published", "statement": "While the seqno stays the same, an object that is not dirty keeps exactly the same content and publishes exactly the same bytes, so two pushes returning the same seqno return the same message.", "quantifier": "all executions", "why_tests_cant": "Unbounded histories.", "anchors": ["src/config/base.cpp:push", "src/config/base.cpp:_merge", "src/config/base.cpp:dirty"]}
{"id": "C31", "title": "Pending changes stay pending until they are known elsewhere", "statement": "Once needs_push is true it stays true until confirm_pushed is called with the current seqno after a push, or a merge takes over a message after being given one that lists exactly what would be pushed in its history or that is lag or more ahead.", "quantifier": "every reachable state and every call", "why_tests_cant": "All interleavings of calls.", "anchors": ["src/config/base.cpp:_merge", "src/config/base.cpp:confirm_pushed", "src/config/base.cpp:set_state"]}
{"id": "C32", "title": "A confirmation applies only to what was pushed", "statement": "confirm_pushed(s, h) after push returned s has an effect only if the object still holds exactly the pushed content; after any later edit or content-changing merge it is ignored. Confirming at once clears needs_push and makes h the current hash.", "quantifier": "all executions between push and confirm", "why_tests_cant": "Asynchronous network replies: every interleaving.", "anchors": ["src/config/base.cpp:confirm_pushed", "src/config/base.cpp:push"]}
{"id": "C33", "title": "A client without signing key never tries to publish", "statement": "An object with a verifier but no signer never needs a push in any reachable state, every modification throws and changes nothing, and push returns no hashes to delete.", "quantifier": "all executions of a read-only object", "why_tests_cant": "All histories.", "anchors": ["src/config/base.cpp:set_state", "src/config/base.cpp:push"]}
{"id": "C34", "title": "A pushed config is delivered exactly", "statement": "Merging the message returned by push into another object of the same kind with the same encryption key (a new one, one holding a version the pushed config lists in its history, or one lag or more behind; with or without signing key) makes it hold exactly the pushed content and seqno, with nothing to push, and returns the message hash. A message sent without the protobuf wrapper by another version is read just as well.", "quantifier": "every reachable sender and receiver", "why_tests_cant": "All contents and histories; compression, padding, encryption and wrapping included.", "anchors": ["src/config/base.cpp:push", "src/config/base.cpp:_merge", "src/config/base.cpp:merge"]}
{"id": "C35", "title": "Clients converge", "statement": "Two objects able to publish that hold published configs and have between them seen the same set of valid messages have the same content and seqno after merging, in any order and with any duplicates or junk mixed in; if a new version is needed both make it, byte-identical.", "quantifier": "every pair of reachable objects and every pair of message lists", "why_tests_cant": "All interleavings and orders.", "anchors": ["src/config/base.cpp:_merge", "src/config.cpp:ConfigMessage(vector,...)"]}
{"id": "C36", "title": "merge returns exactly the accepted messages, and junk is harmless", "statement": "The hashes returned by merge are exactly those of the given messages that decrypt with one of the keys and are valid config messages, in order; messages that cannot be decrypted or unpacked have no effect whatsoever.", "quantifier": "every reachable object and every list of messages", "why_tests_cant": "Adversarial inputs.", "anchors": ["src/config/base.cpp:merge", "src/config/base.cpp:_merge"]}
{"id": "C37", "title": "The hash of the live config is never reported as obsolete", "statement": "After any merge the current hash is that of the message the content came from, and obsolete hashes are those of superseded messages only, never that of the current config.", "quantifier": "every reachable object and every list of messages", "why_tests_cant": "All orders, duplicates and invalid messages.", "anchors": ["src/config/base.cpp:_merge", "src/config/base.cpp:push", "src/config/base.cpp:confirm_pushed"]}
{"id": "C38", "title": "dump and load preserve the object", "statement": "Loading the dump of any reachable object gives an object with the same content, pending state, current and obsolete hashes; if nothing was being edited, with the same seqno and published bytes.", "quantifier": "every reachable object", "why_tests_cant": "All histories and contents.", "anchors": ["src/config/base.cpp:make_dump", "src/config/base.cpp:init_from_dump"]}
{"id": "C39", "title": "needs_dump is true whenever a crash would lose something", "statement": "If needs_dump() is false then loading the last dump gives back the current state.", "quantifier": "every execution, every crash point", "why_tests_cant": "Crash at every point of every history.", "anchors": ["src/config/base.cpp:set_state", "src/config/base.cpp:dirty", "src/config/base.cpp:_merge", "src/config/base.cpp:dump"]}
{"id": "C40", "title": "The next update supersedes the previous push", "statement": "An edit made after a push, also after reloading a dump in between, publishes a config that lists the pushed one in its history.", "quantifier": "every reachable object and edit, lag >= 2", "why_tests_cant": "All histories.", "anchors": ["src/config.cpp:increment_impl", "src/config/base.cpp:init_from_dump", "src/config/base.cpp:make_dump"]}
{"id": "C41", "title": "The list of encryption keys stays well-formed and ordered", "statement": "Keys are always distinct and 32 bytes; high priority puts a key in front, low priority at the end, others keep their order; replace_keys sets the list; wrong sizes are refused without effect; a change of keys marks the config for pushing exactly if asked to, on an object that can be written to, and the first key is another one afterwards; otherwise nothing but the list changes.", "quantifier": "every reachable object and every key", "why_tests_cant": "All sequences of calls.", "anchors": ["src/config/base.cpp:add_key", "src/config/base.cpp:remove_key", "src/config/base.cpp:replace_keys", "src/config/base.cpp:clear_keys"]}
{"id": "C42", "title": "No incoming message can fail an assertion in merge", "statement": "In builds with assertions, no list of messages makes merge abort.", "quantifier": "every reachable object and every list of messages", "why_tests_cant": "Adversarial inputs.", "anchors": ["src/config/base.cpp:_merge"]}
{"id": "C43", "title": "A field reads back what was written to it", "statement": "After a successful assignment to a field the getters return that value, after an erase nothing, after set_insert/set_erase the set has/lacks exactly that element more than before; fields at other paths are unaffected, whatever was stored along the path before. An operation that throws changes nothing, and on an object that can publish none throws.", "quantifier": "all reachable config objects, all paths of any depth, all values (strings, 64-bit integers, sets, nested dicts), all other paths", "why_tests_cant": "Paths, nesting and previous contents (including values of the wrong type on the way) are unbounded.", "anchors": ["include/session/config/base.hpp: ConfigBase::DictFieldProxy (assign_if_changed, insert_if_missing, set_erase_impl, erase, get_clean, get_dirty)"]}
{"id": "C44", "title": "A push becomes necessary exactly when something changed", "statement": "On an object without unpublished edits, writing a value that is already there (or erasing one that is not) does nothing at all; every operation that changes the content leaves the object with something to push; and an operation that makes it need a push has changed the content.", "quantifier": "all reachable config objects, all field operations, paths and values", "why_tests_cant": "A redundant push happens on every device of every user; tests only compare a few values.", "anchors": ["include/session/config/base.hpp: ConfigBase::DictFieldProxy (assign_if_changed, insert_if_missing, set_erase_impl, erase, get_clean, get_dirty)"]}
{"id": "C45", "title": "What is written on one device is read on the others", "statement": "After a push is delivered, every field of the receiving object (getter at any path, element of any set) reads exactly what the same field of the pushing object held when it pushed; empty sets and dicts count as absent.", "quantifier": "all pairs of reachable objects sharing an encryption key where the receiver has no unpublished edits and holds nothing or something the pushed config supersedes; all paths", "why_tests_cant": "Needs the whole chain: accessor, pruning, diffing, serialising, compression, padding, encryption, and back, for all contents.", "anchors": ["include/session/config/base.hpp: ConfigBase::DictFieldProxy (assign_if_changed, insert_if_missing, set_erase_impl, erase, get_clean, get_dirty)", "src/config/base.cpp: push, _merge"]}
{"id": "C46", "title": "A contact reads back as it was set, and setting one changes only that one", "statement": "After Contacts::set(r), get under any spelling (upper/lower case hex) of the id returns r (for every valid r exactly r; otherwise r with over-long names cut, incomplete pictures/expirations dropped, ...); every other contact, fields of the stored record that this version does not know and everything outside the contacts is as before; the size grows by one exactly if the contact is new. A single-field setter changes exactly that field. erase removes exactly that contact and reports whether it existed. A call that throws (exactly: invalid id, or object not modifiable) changes nothing.", "quantifier": "all reachable config objects, all contact records within the C++ types, all ids", "why_tests_cant": "Records, ids and prior contents (from any version of the library) are unbounded.", "anchors": ["src/config/contacts.cpp: contact_info::load, Contacts::get, get_or_construct, set, set_*, erase, size", "include/session/config/contacts.hpp: contact_info, Contacts", "src/config/internal.cpp: check_session_id, session_id_to_bytes, set_flag, set_positive_int, set_nonzero_int, set_nonempty_str"]}
{"id": "C47", "title": "Iterating over the contacts yields exactly the contacts", "statement": "Iteration over a Contacts object yields each contact that get() finds exactly once, under the lower-case spelling of its id, and nothing else. It throws only if the table holds a 33-byte key not starting with 0x05, which set() never creates.", "quantifier": "all reachable config objects", "why_tests_cant": "All table contents, including entries of wrong shape from other versions.", "anchors": ["src/config/contacts.cpp: Contacts::iterator::_load_info, operator++"]}
{"id": "C48", "title": "A contact set on one device is the contact read on the others", "statement": "After a contact is set and pushed on one device and the message delivered, get on the receiving device returns the record that was set, for every spelling of the id; all other contacts also read as on the sending device.", "quantifier": "all pairs of reachable objects as in C34, all contact records", "why_tests_cant": "Whole chain from the typed API through serialisation, encryption and back, for all contents.", "anchors": ["src/config/contacts.cpp: contact_info::load, Contacts::get, get_or_construct, set, set_*, erase, size", "include/session/config/contacts.hpp: contact_info, Contacts", "src/config/internal.cpp: check_session_id, session_id_to_bytes, set_flag, set_positive_int, set_nonzero_int, set_nonempty_str", "src/config/base.cpp: push, _merge"]}
{"id": "C49", "title": "Reading a contact and writing it back through the C interface changes nothing", "statement": "contacts_get followed by contacts_set with the struct unmodified leaves the stored contact as it was, and never writes outside the struct.", "quantifier": "all contact records", "why_tests_cant": "All string lengths and contents.", "anchors": ["src/config/contacts.cpp: contact_info::into, contact_info(const contacts_contact&)", "src/config/internal.hpp: copy_c_str"]}
{"id": "C50", "title": "The profile reads back as it was set, here and on other devices", "statement": "Each setter of UserProfile makes its getter return the value set (a picture needs both URL and 32-byte key, else it is removed; a non-positive timer removes the timer) and changes nothing else of the profile; after delivery as in C34 the whole profile reads the same on the other device.", "quantifier": "all reachable config objects; all names, pictures, int priorities, timers", "why_tests_cant": "All values in all states, and the whole chain through serialisation and encryption.", "anchors": ["src/config/user_profile.cpp: set_name, set_profile_pic, set_nts_priority, set_nts_expiry, set_blinded_msgreqs and the getters"]}
{"id": "C51", "title": "Community server URLs and rooms have one normal form", "statement": "canonical_url accepts exactly the spellings of a server URL (http or https, a host name of at least two labels and 4 characters, optional port below 65536, optional final slash) and returns protocol and host in lower case with the port only when it is not the default; the result does not depend on letter case and is its own normal form. canonical_room accepts exactly 1 to 64 letters, digits, dashes and underscores and returns them in lower case.", "quantifier": "all byte strings", "why_tests_cant": "Infinitely many spellings; two spellings of one community must never be stored as two.", "anchors": ["src/config/community.cpp: parse_url, canonical_url, canonicalize_room"]}
{"id": "C52", "title": "A full community URL parses back to its parts", "statement": "parse_full_url(full_url(base, room, pubkey)) is (base, room, pubkey), and likewise for the /r/ form and for URLs without key; the C function that writes the URL stays inside its buffer.", "quantifier": "all normal-form base URLs, normal-form rooms and 32-byte keys", "why_tests_cant": "All hosts (including ones containing r, key-like text), rooms and keys.", "anchors": ["src/config/community.cpp: full_url, parse_partial_url, parse_full_url, community_make_full_url"]}
{"id": "C53", "title": "Parsing a community URL through the C interface never writes outside the buffers", "statement": "community_parse_full_url writes at most BASE_URL_MAX_LENGTH + 1, ROOM_MAX_LENGTH + 1 and 32 bytes.", "quantifier": "all byte strings as URL", "why_tests_cant": "All inputs.", "anchors": ["src/config/community.cpp: community_parse_full_url"]}
{"id": "C54", "title": "Conversation read states read back as set", "statement": "After ConvoInfoVolatile::set of a one-to-one conversation, group or legacy group, get_or_construct returns the unread flag given and, as last-read time, the one given if it is earlier than the stored one or not more than 30 days old, otherwise the stored one; under every spelling of the id; every other conversation is as before. erase removes exactly that conversation and tells whether there was one. An exception (invalid id, read-only object) leaves the object unchanged.", "quantifier": "all reachable objects, ids, times, flags, clock values", "why_tests_cant": "All histories of the object and all clocks; the rule has three cases per stored value.", "anchors": ["src/config/convo_info_volatile.cpp: get_1to1, get_group, get_legacy_group, set, set_base, erase"]}
{"id": "C55", "title": "Setting a last-read time never causes undefined behaviour", "statement": "ConvoInfoVolatile::set is defined for every int64 last_read.", "quantifier": "all objects, ids, int64 times", "why_tests_cant": "All 2^64 times.", "anchors": ["src/config/convo_info_volatile.cpp: set_base"]}
{"id": "C56", "title": "Pruning removes exactly the stale conversations", "statement": "push (through prune_stale) removes exactly the conversations last read more than 45 days ago and not marked unread, keeps all others and everything else unchanged, and never fails on a writable object; a device that receives the message sees no stale conversation and all the others.", "quantifier": "all reachable objects whose communities are stored under canonical names, all clock values, all receiving devices", "why_tests_cant": "Any number of conversations of four kinds, with shared servers.", "anchors": ["src/config/convo_info_volatile.cpp: prune_stale, push"]}
{"id": "C57", "title": "Iterating over conversations yields what get finds", "statement": "Iterating over one-to-one conversations, groups, legacy groups or communities yields exactly the conversations get finds (for communities: those with a key), each once; size is an upper bound, and exact if nothing malformed is stored.", "quantifier": "all reachable objects", "why_tests_cant": "Tables of any size, including entries other clients wrote in other formats.", "anchors": ["src/config/convo_info_volatile.cpp: iterator, size_*; include/session/config/community.hpp: comm_iterator_helper"]}
{"id": "C58", "title": "Community read states read back as set; the key is per server", "statement": "After set of a community, get returns its read state (by the rule of C54) under every spelling of URL and room, with the key given; the key applies to all rooms of that server; other rooms' read states and other servers are as before. erase removes exactly that room and, with the last room, the server; all other communities keep their keys.", "quantifier": "all reachable objects, URLs, rooms, keys, times", "why_tests_cant": "Any number of servers and rooms sharing records.", "anchors": ["src/config/convo_info_volatile.cpp: community_field, get_community, set, erase"]}
{"id": "C59", "title": "Edits made concurrently on any number of devices are combined", "statement": "Let any number of devices of an account hold the same config, edit it independently and push. When one of them, having pushed its version, merges the messages of all the others (in any order, with duplicates, with the common config and junk mixed in), it then has at every path: what a device put there, if no device whose message has a greater hash touched that path; what the common config has, if no device touched it. So what one device changed and no other touched is never lost. The same holds for each element of a set. The devices may have any history (edits, pushes, merges, dumps, restores).", "quantifier": "all account histories of all devices, any number of devices, all edits, all batches containing the messages of all devices", "why_tests_cant": "Any number of devices, edits and delivery orders; each device has its own history.", "anchors": ["src/config.cpp: ConfigMessage(merge constructor), MutableConfigMessage, increment", "src/config/base.cpp: _merge, push, confirm_pushed, dump"]}
{"id": "C60", "title": "Contacts set concurrently on several devices all survive", "statement": "Let any number of devices hold the same config and call Contacts::set for any contacts. When one of them, having pushed, merges the messages of the others, Contacts::get returns every contact that only one device set, as that device set it last, and every contact of the common config that no device set, as it was.", "quantifier": "all devices and histories as in C59, all contacts, ids and spellings", "why_tests_cant": "Any number of devices and contacts, any order of delivery.", "anchors": ["src/config/contacts.cpp: Contacts::set, get", "src/config/base.cpp: _merge, push"]}
{"id": "C61", "title": "Multi-recipient encryption delivers to each recipient its own message", "statement": "encrypt_for_multiple_simple succeeds for every list of valid recipient keys, with one message for all or one message each, any domain, given or random nonce and any padding; decrypt_for_multiple_simple called by the i-th recipient with the sender's public key and the same domain returns the i-th message. Somebody whose keys or domain differ gets nothing. encrypt_for_multiple leaves out recipients with invalid keys if told to ignore them, and otherwise fails if there is one; the entries for the others are the same.", "quantifier": "all messages, recipients, keys, domains, nonces, paddings and random fillers", "why_tests_cant": "Any number of recipients and messages of any length.", "anchors": ["src/multi_encrypt.cpp: encrypt_multi_key, encrypt_for_multiple_simple, decrypt_for_multiple_simple", "include/session/multi_encrypt.hpp: encrypt_for_multiple, decrypt_for_multiple"]}
{"id": "C62", "title": "What multi-recipient decryption returns was encrypted by the named sender for this recipient", "statement": "Whatever decrypt_for_multiple_simple returns is the plaintext of a ciphertext contained in the input, encrypted under the key derived from the secret shared between the caller and the named sender, both public keys and the domain; for arbitrary input bytes. Keys for different senders, recipients, directions or domains (first 64 bytes) are different unless the hash collides.", "quantifier": "all input bytes, keys and domains", "why_tests_cant": "Arbitrary (adversarial) input.", "anchors": ["src/multi_encrypt.cpp: decrypt_for_multiple_simple, encrypt_multi_key, decrypt_multi_impl"]}
{"id": "C63", "title": "Filler entries and default nonce of multi-recipient encryption", "statement": "With pad > 1 the number of entries is a multiple of pad and the filler entries look like real ones (\"the size of each junk entry will be the same as the (encrypted) size of the first message\"); an empty nonce means a random one.", "quantifier": "all messages, recipients, paddings", "why_tests_cant": "Any number of recipients and any message sizes.", "anchors": ["src/multi_encrypt.cpp: encrypt_for_multiple_simple", "include/session/multi_encrypt.hpp: encrypt_for_multiple_simple"]}
{"id": "C64", "title": "The group encryption key is the newest key received, independent of order", "statement": "Whatever key messages a device has loaded, in whatever order, interleaved with dumps and restores: once one of them brought a key, and unless the device has a pending rekey of its own, group_enc_key is the newest key it was ever given (by generation, then timestamp, then key bytes). Two devices given the same keys therefore encrypt with the same key. Assumption: a key of one generation arrives with one timestamp.", "quantifier": "all sequences of load_key_message, rekey, dump and restore, on any number of devices", "why_tests_cant": "Unbounded histories and all delivery orders.", "anchors": ["src/config/groups/keys.cpp: Keys::insert_key, Keys::group_enc_key, Keys::load_key_message, Keys::remove_expired"]}
{"id": "C65", "title": "Which group keys are held", "statement": "Keys held were brought by loaded messages. A key received stays available for decryption unless a key of a later generation is more than 60 days older than some key received; with timestamps in the order of the generations exactly those keys are held, so that devices given the same keys hold the same list. The list is sorted newest first, pending key first, without repetition.", "quantifier": "all sequences of operations and delivery orders", "why_tests_cant": "Unbounded histories and all delivery orders.", "anchors": ["src/config/groups/keys.cpp: Keys::insert_key, Keys::remove_expired, Keys::group_keys", "include/session/config/groups/keys.hpp: KEY_EXPIRY"]}
{"id": "C66", "title": "The key messages to keep on the swarm", "statement": "current_hashes reports hashes of loaded messages only; every key held was brought by a message whose hash is reported (so that the message is not left to expire); a message which had no key for this device is reported after it was loaded exactly if its generation is not older than every key held; none is reported once no key is held.", "quantifier": "all sequences of operations", "why_tests_cant": "Unbounded histories.", "anchors": ["src/config/groups/keys.cpp: Keys::current_hashes, Keys::insert_key, Keys::remove_expired"]}
{"id": "C67", "title": "A restored Keys object behaves as the one that was dumped", "statement": "In every reachable state, constructing a Keys object from a dump gives back the keys, the message hashes and the pending rekey, and hence the same encryption key, key list, needs_rekey, and the same result of a further rekey or supplement; it does not need a dump.", "quantifier": "all reachable states", "why_tests_cant": "Every reachable state, any number of keys and hashes.", "anchors": ["src/config/groups/keys.cpp: Keys::make_dump, Keys::dump, Keys::load_dump"]}
{"id": "C68", "title": "needs_dump of the group keys", "statement": "If needs_dump is false after loading a message, a restore from the previous dump gives the same object.", "quantifier": "all reachable states and messages", "why_tests_cant": "Every reachable state.", "anchors": ["src/config/groups/keys.cpp: Keys::insert_key, Keys::load_key_message, Keys::needs_dump"]}
{"id": "C69", "title": "needs_rekey detects conflicting rekeys", "statement": "needs_rekey is true exactly for an admin that was given two different keys of the latest generation it knows of, in whatever order they arrived.", "quantifier": "all sequences of operations and delivery orders", "why_tests_cant": "All histories.", "anchors": ["src/config/groups/keys.cpp: Keys::needs_rekey"]}
{"id": "C70", "title": "A rekey reaches every member and takes over", "statement": "An admin can rekey for any list of well-formed session ids. The new key is of a later generation than all keys the admin was given and is used at once. Every admin, and every member on the list, finds exactly the new key in the message; loading it makes a device that has been given only earlier generations encrypt with it, and drops the pending rekey of the admin. Two admins that rekey the same members in the same state produce the same key and message; rekeys that differ in the members or the generation hash different texts, so they have different keys unless the hash collides on those two.", "quantifier": "all states, member lists and devices", "why_tests_cant": "Any number of members and keys; arbitrary prior histories.", "anchors": ["src/config/groups/keys.cpp: Keys::rekey, Keys::load_key_message, Keys::pending_config, Keys::group_enc_key"]}
{"id": "C71", "title": "Group key messages are authenticated", "statement": "For arbitrary input bytes: load_key_message accepts a message only if all of it up to the last field is signed by the group key, and every key it brings is the decryption, with a key only this member (or the admins) and the group share, of a ciphertext within the signed part.", "quantifier": "all input bytes", "why_tests_cant": "Arbitrary (adversarial) input.", "anchors": ["src/config/groups/keys.cpp: Keys::load_key_message, try_decrypting"]}
{"id": "C72", "title": "A key supplement gives a new member the keys of the group", "statement": "Any member to whom an admin sends a supplement finds in it exactly the keys the admin holds, with their generations and timestamps; admins find none. A new member that loads it encrypts with the admin's latest loaded key and, with nondecreasing timestamps, holds the same keys.", "quantifier": "all reachable states, member lists and devices", "why_tests_cant": "Any number of keys and members.", "anchors": ["src/config/groups/keys.cpp: Keys::key_supplement, Keys::load_key_message"]}
{"id": "C73", "title": "Group messages reach every holder of the key", "statement": "A message of 1 to 1,000,000 bytes encrypted by encrypt_message, compressed or not, with any padding, is returned unchanged by decrypt_message, together with the session id of the sender, on every device that holds the key the sender encrypts with. A device that was given all keys the sender was given holds that key, unless it also knows a generation later than all of the sender's that was superseded more than 60 days ago. Larger messages, and messages without any key, are refused; with padding > 1 the result is a multiple of it and less than one multiple longer. An empty message is accepted but can be decrypted by nobody.", "quantifier": "all messages, devices, histories, nonces, paddings", "why_tests_cant": "Any message and any pair of key histories.", "anchors": ["src/config/groups/keys.cpp: Keys::encrypt_message, Keys::decrypt_message", "src/config/internal.cpp: zstd_compress, zstd_decompress"]}
{"id": "C74", "title": "Group messages are attributed to their author", "statement": "Whatever decrypt_message returns, for arbitrary input bytes: the input was encrypted with a key held; the content carries a valid signature of the payload by the Ed25519 key whose session id is returned; the message is the payload or its decompression, which is then of at most 1,000,000 bytes however large the expansion would be.", "quantifier": "all input bytes and key states", "why_tests_cant": "Arbitrary (adversarial) input.", "anchors": ["src/config/groups/keys.cpp: Keys::decrypt_message", "src/config/internal.cpp: zstd_decompress"]}
{"id": "C75", "title": "Promotion to admin", "statement": "load_admin_key changes nothing for an admin; for a member it succeeds exactly for the group's 32-byte seed or 64-byte secret key, after which the object is an admin and can rekey for any list of members.", "quantifier": "all objects and secrets", "why_tests_cant": "All inputs and states.", "anchors": ["src/config/groups/keys.cpp: Keys::load_admin_key"]}
{"id": "C76", "title": "XEd25519 signatures verify", "statement": "For every clamped x25519 private key \u2014 in particular that of every account \u2014 message and random bytes, xed25519::verify under the x25519 public key (the session id) accepts what xed25519::sign returns; xed25519::pubkey of the x25519 form of an Ed25519 key is that key with the sign cleared. Shown to fail for private keys that are not clamped, which sign accepts: every signature made with one that is not congruent to its clamped form is rejected.", "quantifier": "all private keys, messages and random bytes", "why_tests_cant": "All keys and messages, both signs of the public key; tests use a few key pairs.", "anchors": ["src/xed25519.cpp: sign, verify, pubkey, xed25519_compute_r, fe25519_montx_to_edy"]}
{"id": "C77", "title": "15-blinded ids", "statement": "For every account and server: blind15_id of the session id (bytes or hex, with or without prefix) and blinded15_id_from_ed of the Ed25519 key agree up to the sign bit, i.e. the id is one of the two of the hex version; blind15_key_pair of seed or secret key gives the key of that id with its private scalar; blind15_sign signatures verify under it; session_id_matches_blinded_id recognises the id as the account's and never as that of an account with another session id.", "quantifier": "all accounts (both signs), servers, messages", "why_tests_cant": "All keys; the sign ambiguity is data-dependent.", "anchors": ["src/blinding.cpp: blind15_factor, blind15_id, blinded15_id_from_ed, blind15_key_pair, blind15_sign, session_id_matches_blinded_id"]}
{"id": "C78", "title": "25-blinded ids", "statement": "For every account and server: blind25_id of the session id (bytes or hex, with or without prefix), blinded25_id_from_ed of the Ed25519 key and the key of blind25_key_pair are all the same; blind25_sign signatures verify under it; session_id_matches_blinded_id recognises it, and accepts nothing but the lower-case hex of a blinded id of the session id. Shown to fail: a blinded id with upper-case digits is never recognised; one shorter than two characters is read out of bounds.", "quantifier": "all accounts (both signs), servers, messages, strings", "why_tests_cant": "All keys and arbitrary strings.", "anchors": ["src/blinding.cpp: blind25_factor, blind25_id, blinded25_id_from_ed, blind25_key_pair, blind25_sign, session_id_matches_blinded_id"]}
{"id": "C79", "title": "Group subaccounts", "statement": "For every group key, member account and permissions, what swarm_make_subaccount returns passes swarm_verify_subaccount of the member for exactly the permissions it was made with; swarm_subaccount_sign then gives, for every message, the token of swarm_subaccount_token, a group signature on it and a message signature valid under the key in the token. Conversely a value that swarm_verify_subaccount accepts contains a group signature on the token, with flags that include the permissions asked for. Shown to fail: the top bit of the factor is not authenticated; flipping it keeps verification true but makes every signature invalid.", "quantifier": "all group keys, members (both signs), permissions, messages, and arbitrary values", "why_tests_cant": "All keys and adversarial values.", "anchors": ["src/config/groups/keys.cpp: swarm_make_subaccount, swarm_subaccount_token, swarm_subaccount_sign, swarm_verify_subaccount, subaccount_blind_factor"]}
{"id": "C80", "title": "Messages to a session id", "statement": "For every sender, recipient and message, what encrypt_for_recipient or encrypt_for_recipient_deterministic returns is decrypted by the recipient's decrypt_incoming to the message and the sender's Ed25519 key, and by decrypt_incoming_session_id to the message and the sender's session id; the ciphertext is exactly 144 bytes longer. Seed or secret key, id with or without prefix make no difference; the deterministic version returns the same ciphertext for all of them. Conversely, for arbitrary ciphertexts, a message is returned only with a valid signature of the returned key over message, key and the recipient's own public key, so a message signed for another recipient, or altered, is not accepted.", "quantifier": "all senders, recipients, messages, ephemeral keys; arbitrary ciphertexts for the converse", "why_tests_cant": "All keys and messages; adversarial ciphertexts.", "anchors": ["src/session_encrypt.cpp: sign_for_recipient, encrypt_for_recipient, encrypt_for_recipient_deterministic, decrypt_incoming, decrypt_incoming_session_id"]}
{"id": "C81", "title": "Messages to a blinded id", "statement": "For every two accounts, server and message, what encrypt_for_blinded_recipient returns for the recipient's 15- or 25-blinded id is decrypted by decrypt_from_blinded_recipient \u2014 of the recipient and of the sender \u2014 to the message and the sender's session id. For arbitrary ciphertexts and a 25-blinded recipient, the session id returned is that of an account whose blinded id is the given sender id. Shown to fail for 15-blinding: the sender id may differ from the account's in one bit (of the wrong byte), so that a message is reported as sent by the session id of another account; a message to the other of the two ids of blind15_id cannot be read by the recipient; and an empty recipient id is undefined behaviour.", "quantifier": "all accounts, servers, messages, nonces; arbitrary ciphertexts and ids for the converse", "why_tests_cant": "All keys; the failing case depends on one bit of a public key.", "anchors": ["src/session_encrypt.cpp: blinded_shared_secret, encrypt_for_blinded_recipient, decrypt_from_blinded_recipient"]}
{"id": "C82", "title": "ONS responses and push notifications", "statement": "decrypt_ons_response returns a session id exactly for the encryptions of 33 bytes under the key of the name, and then these in hex. decrypt_push_notification returns exactly the encrypted message without the NUL padding, for every message not ending in NUL and every amount of padding, and whatever it returns was encrypted under the given key with the nonce in front. Shown to fail: a padded empty message comes back as its padding.", "quantifier": "all names, ids, nonces, messages, paddings; arbitrary inputs", "why_tests_cant": "All inputs.", "anchors": ["src/session_encrypt.cpp: decrypt_ons_response, decrypt_push_notification"]}
{"id": "C83", "title": "A group reads back as it was set, with its admin key only if it is the key of that group", "statement": "After UserGroups::set(group) the group reads back under every spelling of its id with the settings given (name cut to 100 bytes, no negative times), the secret key exactly if it is the genuine key of the group (and the id is asked for in lower case), and the authentication data given unless the record has the admin key; all other groups, unknown fields and everything outside the groups are as before; the size grows by one exactly if the group is new. erase removes exactly that group. A group marked kicked reads back as kicked; one made by create_group reads back as made. A call that throws changes nothing.", "quantifier": "all reachable config objects, all group records within the C++ types, all seeds and ids", "why_tests_cant": "Records, ids, key material and prior contents are unbounded.", "anchors": ["src/config/user_groups.cpp: base_group_info::load, set_base, get_group, get_legacy_group, get_community, get_or_construct_*, set, erase_*, size_*, iterator", "include/session/config/user_groups.hpp"]}
{"id": "C84", "title": "A legacy group reads back as it was set, with its members and admins", "statement": "After UserGroups::set(legacy group) the group reads back under every spelling of its id, as far as it can be stored; a valid group with lower-case ids reads back exactly. Every id is a plain member or an admin exactly as given (an id given as both counts as plain member). Everything else is as before; erase removes exactly that group; a failed call changes nothing. insert/erase of members and counts do what they say.", "quantifier": "all reachable config objects, all legacy groups within the C++ types, all member lists", "why_tests_cant": "Member lists and prior contents are unbounded.", "anchors": ["src/config/user_groups.cpp: base_group_info::load, set_base, get_group, get_legacy_group, get_community, get_or_construct_*, set, erase_*, size_*, iterator", "include/session/config/user_groups.hpp", "src/config/user_groups.cpp: legacy_group_info::insert, erase, counts, load"]}
{"id": "C85", "title": "A community reads back as it was set, under every spelling of its URL", "statement": "After UserGroups::set(community) the community reads back under every spelling of URL and room with the room as spelled in set, the key and the settings; the key given becomes the key of every room of that server; settings of other rooms, other servers, the other groups and everything else are as before. erase_community removes exactly that room. set throws exactly on an invalid URL, room or key (or object not modifiable) and then changes nothing.", "quantifier": "all reachable config objects, all communities, all spellings", "why_tests_cant": "URLs, rooms and contents are unbounded.", "anchors": ["src/config/user_groups.cpp: base_group_info::load, set_base, get_group, get_legacy_group, get_community, get_or_construct_*, set, erase_*, size_*, iterator", "include/session/config/user_groups.hpp", "src/config/community.cpp"]}
{"id": "C86", "title": "Iterating over the groups yields exactly the groups", "statement": "Iteration over groups (legacy groups) yields each group that get finds exactly once, under the lower-case spelling of its id, in order of the binary id, and never more than the size; over communities exactly those that get_community finds with a key, if all were stored by set (which set maintains); over everything: groups, then communities, then legacy groups.", "quantifier": "all reachable config objects", "why_tests_cant": "All table contents, including entries of wrong shape from other versions.", "anchors": ["src/config/user_groups.cpp: base_group_info::load, set_base, get_group, get_legacy_group, get_community, get_or_construct_*, set, erase_*, size_*, iterator", "include/session/config/user_groups.hpp"]}
{"id": "C87", "title": "Whatever is stored, what is read is well-formed", "statement": "Every contact, group and legacy group that get returns is well-formed, whatever other devices or versions stored: a contact never has notify mode mentions_only, has a complete picture or none and an expiry timer exactly with a mode; a group has a secret key only if it is the genuine key of its id, and 100 bytes of authentication data or none, no negative join time; a legacy group has both keys or none, a non-negative timer, and every member is a valid lower-case session id.", "quantifier": "all config objects with arbitrary data, all ids", "why_tests_cant": "Ranges over arbitrary stored data, including what only a foreign or buggy version could have stored.", "anchors": ["src/config/user_groups.cpp: base_group_info::load, set_base, get_group, get_legacy_group, get_community, get_or_construct_*, set, erase_*, size_*, iterator", "include/session/config/user_groups.hpp", "src/config/contacts.cpp: contact_info::load"]}
{"id": "C88", "title": "A group set on one device is the group read on the others", "statement": "After a group, legacy group or community is set and pushed on one device and the message delivered, get on the receiving device returns what get returns on the sending device, for every spelling, members and keys included.", "quantifier": "all pairs of reachable objects as in C34, all records", "why_tests_cant": "Whole chain from the typed API through serialisation, encryption and back, for all contents.", "anchors": ["src/config/user_groups.cpp: base_group_info::load, set_base, get_group, get_legacy_group, get_community, get_or_construct_*, set, erase_*, size_*, iterator", "include/session/config/user_groups.hpp", "src/config/base.cpp: push, _merge"]}
{"id": "C89", "title": "Reading a group and writing it back through the C interface changes nothing", "statement": "The C struct filled by user_groups_get_* and converted back by user_groups_set_* is the same group, and the conversions never access memory out of bounds.", "quantifier": "all group, legacy group and community records", "why_tests_cant": "All string lengths and contents.", "anchors": ["src/config/user_groups.cpp: group_info::into, legacy_group_info::into, community_info::into and the constructors from the C structs", "src/config/internal.hpp: copy_c_str"]}
{"id": "C90", "title": "Members added to a legacy group on different devices all survive", "statement": "Devices holding the same config each store their own version of a legacy group (adding, removing, promoting members); when one of them merges the messages of all others, every member whose status only one device changed is as that device made it, and members nobody touched are still members.", "quantifier": "any number of devices, any legacy groups, any merge order and duplicates", "why_tests_cant": "Arbitrary numbers of devices, members and message orders.", "anchors": ["src/config/user_groups.cpp: base_group_info::load, set_base, get_group, get_legacy_group, get_community, get_or_construct_*, set, erase_*, size_*, iterator", "include/session/config/user_groups.hpp", "src/config.cpp: ConfigMessage merge", "src/config/base.cpp: _merge"]}
{"id": "C91", "title": "A group member reads back as it was set", "statement": "After Members::set(m) the member reads back under every spelling of its id as far as it can be stored (name cut to 100 bytes, a picture only if complete, no pending invitation or promotion of an admin, no negative status, the supplement flag only for somebody invited and not being promoted); a record within the documented limits reads back exactly. Other members, unknown fields and everything else are as before; the size grows by one exactly if the member is new. erase removes exactly that member and reports whether there was one. A call that throws changes nothing, and set throws exactly for an invalid id or an object that cannot be modified. The status calls (set_invited, set_accepted, set_promoted, set_removed, making somebody an admin), once stored, are seen as documented by invite_pending, invite_failed, promotion_pending, promotion_failed, promoted, is_removed and should_remove_messages, and change nothing else.", "quantifier": "all reachable config objects, all member records within the C++ types, all spellings of ids", "why_tests_cant": "Records, ids and prior contents are unbounded.", "anchors": ["src/config/groups/members.cpp: Members::get, get_or_construct, set, erase, size, iterator, member::load, member::into, member(const config_group_member&)", "include/session/config/groups/members.hpp"]}
{"id": "C92", "title": "Iterating over the members yields exactly the members", "statement": "Iteration over Members yields exactly the members get finds, each once, under the lower-case spelling of its id, in order of the binary id; never more than size(), and exactly size() if all entries are well-formed. It throws exactly if there is a record under a 33-byte key that is not a session id, and set never makes such a record.", "quantifier": "all reachable config objects", "why_tests_cant": "All table contents, including entries of wrong shape from other versions.", "anchors": ["src/config/groups/members.cpp: Members::get, get_or_construct, set, erase, size, iterator, member::load, member::into, member(const config_group_member&)", "include/session/config/groups/members.hpp"]}
{"id": "C93", "title": "Whatever is stored, a member read is well-formed, and it is the member the admin stored", "statement": "Every member get returns has a complete picture or none, no pending invitation or promotion while admin, no negative status and the supplement flag only with a pending invitation, whatever other versions stored. After an admin sets a member, pushes, and the message is delivered, get on a device of any member returns what get returns on the admin device.", "quantifier": "all stored data; all pairs of reachable objects as in C34, all member records", "why_tests_cant": "Arbitrary stored data; whole chain from typed API through serialisation, signature, encryption and back.", "anchors": ["src/config/groups/members.cpp: Members::get, get_or_construct, set, erase, size, iterator, member::load, member::into, member(const config_group_member&)", "include/session/config/groups/members.hpp", "src/config/base.cpp: push, _merge"]}
{"id": "C94", "title": "Each setter of the group info changes its own value only, and the members see it", "statement": "Info::set_name, set_description, set_profile_pic, set_expiry_timer, set_created, set_delete_before, set_delete_attach_before and destroy_group change what their getter returns to the value given (cut to 100/2000 bytes; empty or non-positive meaning none) and no other getter; no setter un-destroys a group. Whatever other versions stored, a name or description shown is not empty, the key of the picture has 32 bytes or is missing, and is_destroyed holds exactly if a positive number is stored. After a push and delivery the members see the same values.", "quantifier": "all reachable config objects, all values within the C++ types", "why_tests_cant": "Values and prior contents unbounded.", "anchors": ["src/config/groups/info.cpp: all getters and setters", "include/session/config/groups/info.hpp"]}
{"id": "C95", "title": "Reading a group member and writing it back through the C interface changes nothing", "statement": "The C struct filled by groups_members_get and converted back by groups_members_set is the same member, and the conversions never access memory out of bounds.", "quantifier": "all member records that get can return", "why_tests_cant": "All string lengths and statuses.", "anchors": ["src/config/groups/members.cpp: Members::get, get_or_construct, set, erase, size, iterator, member::load, member::into, member(const config_group_member&)", "include/session/config/groups/members.hpp", "src/config/internal.hpp: copy_c_str"]}
{"id": "C96", "title": "Keys, Info and Members always agree on the encryption keys", "statement": "In every history of the three objects of a group - edits, merges, pushes and dumps of Info and Members, key messages, rekeys, and restarts from dumps of the three objects that need not be of the same time, also across a promotion of the member to admin - Info and Members hold exactly the keys of group_keys(), in that order, and encrypt with group_enc_key(). Loading a key message changes nothing else in them, and nothing at all if it throws.", "quantifier": "all histories of the three objects, all key messages, all crash points between the dumps", "why_tests_cant": "Ranges over all interleavings of calls on three objects and all combinations of old and new dumps.", "anchors": ["src/config/groups/keys.cpp: Keys::Keys, rekey, load_key_message, group_keys, group_enc_key", "src/config/base.cpp: replace_keys", "src/config/groups/members.cpp", "src/config/groups/info.cpp"]}
{"id": "C97", "title": "A rekey reaches the listed members, on all three objects", "statement": "After a successful rekey the new key is newer than every key seen, all three objects encrypt with it, Info and Members show what they showed before and need a push. Any device of an admin, or of a member that Members::get finds on the admin device, that loads the key message and has not seen a later generation, takes the new key over in all three objects, with the rest of its state unchanged.", "quantifier": "all reachable groups on the admin side and on the member side, all member lists, all hashes and timestamps in range", "why_tests_cant": "Arbitrary member lists, histories and states of the receiving device.", "anchors": ["src/config/groups/keys.cpp: Keys::Keys, rekey, load_key_message, group_keys, group_enc_key", "src/config/base.cpp: replace_keys", "src/config/groups/members.cpp", "src/config/groups/info.cpp"]}
{"id": "C98", "title": "What one device of a group publishes, the others see", "statement": "Info or Members pushed from any device of the group is accepted by every other device that holds the key used - the current key or an older one - and had no conflicting change of its own; afterwards it shows the same description, the same members and the same list of members, and has nothing to push.", "quantifier": "all pairs of reachable groups, with any sets of keys in common", "why_tests_cant": "Ranges over all histories of both devices.", "anchors": ["src/config/groups/keys.cpp: Keys::Keys, rekey, load_key_message, group_keys, group_enc_key", "src/config/base.cpp: replace_keys", "src/config/groups/members.cpp", "src/config/groups/info.cpp"]}
{"id": "C99", "title": "Protobuf envelopes carry config messages unchanged", "statement": "For every account key, config message below 1 GiB, sequence number and each of the four user namespaces, wrap_config succeeds, adds at most 400 bytes, and unwrap_config of the same account and namespace returns the message; for any other namespace unwrap_config refuses it. Whatever bytes unwrap_config is given, what it returns was signed by the account itself, as a config message of that namespace. A config object with such envelopes has the property on which delivery (C34) rests.", "quantifier": "all keys (seed or secret key), messages, sequence numbers and namespaces; all byte strings as input of unwrap_config", "why_tests_cant": "Ranges over all messages and all adversarial inputs.", "anchors": ["src/config/protos.cpp: wrap_config, unwrap_config", "proto/SessionProtos.pb.cc", "proto/WebSocketResources.pb.cc", "src/config/base.cpp: merge, push"]}
{"id": "C100", "title": "Onion requests to a service node reach it through the hops in order, and its reply comes back", "statement": "For every payload, cipher and list of hops, and any order of the calls that configure a Builder which was not given a server destination, build succeeds, and (if the request is within the size limit of the parsers, below 4 GiB) each hop\u2019s OnionReqParser decrypts a request naming the next node and carrying the next request, in the order in which the hops were added, and the destination\u2019s parser yields exactly the payload with the empty headers entry. Whatever the destination encrypts with encrypt_reply, the ResponseParser made from the builder decrypts to the same bytes.", "quantifier": "all payloads, hop lists, ciphers, random draws, call histories without a server destination, replies", "why_tests_cant": "The number of layers is unbounded and the sizes and contents are arbitrary.", "anchors": ["src/onionreq/builder.cpp: Builder::build, encode_size, parse_enc_type", "src/onionreq/hop_encryption.cpp: HopEncryption::encrypt, decrypt", "src/onionreq/parser.cpp: OnionReqParser", "src/onionreq/response_parser.cpp: ResponseParser", "include/session/onionreq/builder.hpp", "src/onionreq/key_types.cpp: parse_x25519_pubkey"]}
{"id": "C101", "title": "Onion requests to a server reach it with the payload intact", "statement": "As C100 for a server destination: the last hop is told host, target, protocol, port and method, and the server gets exactly the payload.", "quantifier": "all payloads, URLs, hop lists, ciphers, random draws, call histories", "why_tests_cant": "Ranges over all payloads and paths.", "anchors": ["src/onionreq/builder.cpp: Builder::build, encode_size, parse_enc_type", "src/onionreq/hop_encryption.cpp: HopEncryption::encrypt, decrypt", "src/onionreq/parser.cpp: OnionReqParser", "src/onionreq/response_parser.cpp: ResponseParser", "include/session/onionreq/builder.hpp", "src/onionreq/key_types.cpp: parse_x25519_pubkey"]}
{"id": "C102", "title": "Only the destination can produce a response", "statement": "Whatever bytes ResponseParser::decrypt (or onion_request_decrypt) accepts, they are nonce and sealed message under the key derived from the secret shared by the request\u2019s final key pair and the destination\u2019s key, with the request\u2019s cipher or (for XChaCha20 requests) AES-GCM.", "quantifier": "all byte strings as response", "why_tests_cant": "Ranges over all adversarial inputs.", "anchors": ["src/onionreq/builder.cpp: Builder::build, encode_size, parse_enc_type", "src/onionreq/hop_encryption.cpp: HopEncryption::encrypt, decrypt", "src/onionreq/parser.cpp: OnionReqParser", "src/onionreq/response_parser.cpp: ResponseParser", "include/session/onionreq/builder.hpp", "src/onionreq/key_types.cpp: parse_x25519_pubkey"]}
{"id": "C103", "title": "A node accepts only well-formed, sealed requests within the size limit", "statement": "OnionReqParser, given any bytes, either throws or returns: it never reads outside them. If it returns, the request is no larger than the limit, is a size, a ciphertext of that size and JSON; the JSON names a known cipher (or none, which means AES-GCM) and an ephemeral key which is not the null key that stands for malformed ones; and the payload is what was sealed under the key shared with that ephemeral key.", "quantifier": "all byte strings as request, all keys and limits", "why_tests_cant": "Ranges over all adversarial inputs.", "anchors": ["src/onionreq/builder.cpp: Builder::build, encode_size, parse_enc_type", "src/onionreq/hop_encryption.cpp: HopEncryption::encrypt, decrypt", "src/onionreq/parser.cpp: OnionReqParser", "src/onionreq/response_parser.cpp: ResponseParser", "include/session/onionreq/builder.hpp", "src/onionreq/key_types.cpp: parse_x25519_pubkey"]}
{"id": "C104", "title": "A request goes to the destination set last", "statement": "Whatever calls of set_snode_destination, set_server_destination, set_enc_type and add_hop were made on a Builder, the request goes to the destination (and port, or the default port of the protocol) given last.", "quantifier": "all call histories", "why_tests_cant": "Ranges over all call histories.", "anchors": ["src/onionreq/builder.cpp: Builder::build, encode_size, parse_enc_type", "src/onionreq/hop_encryption.cpp: HopEncryption::encrypt, decrypt", "src/onionreq/parser.cpp: OnionReqParser", "src/onionreq/response_parser.cpp: ResponseParser", "include/session/onionreq/builder.hpp", "src/onionreq/key_types.cpp: parse_x25519_pubkey"]}
{"id": "C105", "title": "Merging bencoded dicts and sorted lists", "statement": "bt::merge of two dicts has exactly the keys of both, in order, and the first dict's value wherever both have one. bt::merge_sorted of two lists sorted by a comparison is sorted; with duplicates it holds exactly the elements of both, and without duplicates it holds exactly the elements of the first list and those of the second that the comparison does not equate with one of the first.", "quantifier": "all dicts, all sorted lists, all strict weak orders", "why_tests_cant": "Ranges over all values and all comparison functions.", "anchors": ["src/bt_merge.cpp: merge", "include/session/bt_merge.hpp: merge_sorted"]}
{"id": "C106", "title": "Key pairs, signatures and conversions agree with each other", "statement": "For every seed: the secret key derived from it gives back the seed; signing with seed or secret key gives the same signature, which verifies under the public key; the converted secret and public keys form an X25519 key pair. Keys, signatures, hash sizes and hash keys of the wrong length are refused. A hash has the requested size and an empty key means no key.", "quantifier": "all seeds, messages, hash sizes and keys", "why_tests_cant": "Ranges over all seeds and messages.", "anchors": ["src/ed25519.cpp: ed25519_key_pair, seed_for_ed_privkey, sign, verify", "src/curve25519.cpp: to_curve25519_pubkey, to_curve25519_seckey", "src/hash.cpp: hash"]}
{"id": "C107", "title": "C functions for keys, signatures and hashes stay within their output buffers", "statement": "Given output buffers of the documented size, the C functions for key pairs, seeds, conversions, signatures, hashes and blinding fill exactly those buffers with the result of the C++ function, or return false and write nothing.", "quantifier": "all arguments and buffer contents", "why_tests_cant": "Memory safety for all inputs; a test cannot see an overflow into padding.", "anchors": ["src/ed25519.cpp", "src/curve25519.cpp: session_curve25519_key_pair", "src/hash.cpp: session_hash", "src/xed25519.cpp", "src/blinding.cpp", "include/session/curve25519.h"]}
{"id": "C108", "title": "Memory blocks handed to C programs hold what they should", "statement": "The single block returned for a list of strings (current hashes, merged hashes), for a push, and for the list of keys has the size computed for it; filling it stays within the block at whatever address it was allocated, and a C program following the pointers in it reads back exactly the strings, the sequence number, the message and the keys.", "quantifier": "all lists of strings, messages, keys, block addresses and previous contents", "why_tests_cant": "Pointer arithmetic must be right for all sizes; a test sees only the ones it uses and not an overflow.", "anchors": ["src/config/base.cpp: make_string_list, config_push, config_get_keys, config_merge, config_current_hashes"]}
{"id": "C109", "title": "C getters report an invalid id in last_error and nothing else", "statement": "The C getters of contacts, conversations, groups, legacy groups and members leave last_error empty and return what the C++ function finds for a valid id, and for an invalid one return false with the message of the exception in last_error; messages longer than the buffer are cut to fit. The C erasers let no exception out: true means that the record was there and is gone under every spelling of its id, with all others as before, false that nothing changed.", "quantifier": "all states and ids", "why_tests_cant": "Ids are unbounded; memory safety cannot be tested exhaustively.", "anchors": ["src/config/contacts.cpp", "src/config/convo_info_volatile.cpp", "src/config/user_groups.cpp", "src/config/groups/members.cpp", "src/config/base.cpp: set_error", "src/config/groups/keys.cpp: set_error"]}
{"id": "C110", "title": "Iterating over the members of a legacy group from C", "statement": "The documented loop over the members of a legacy group from C, erasing any members through the iterator as it goes, terminates without use of an invalid iterator, shows every member exactly once in order and leaves exactly those not erased.", "quantifier": "all groups and all choices of members to erase", "why_tests_cant": "Ranges over all member maps and all sequences of erasures.", "anchors": ["src/config/user_groups.cpp: ugroups_legacy_members_begin, _next, _erase, _free"]}
{"id": "C111", "title": "Buffers for secret keys behave like values", "statement": "Every program that constructs, moves, resets, loads, writes and destroys buffers for secrets within their lifetimes and bounds is free of undefined behaviour, whatever allocations fail; each buffer has the value last given to it, a moved-from buffer is empty, and no allocation is leaked.", "quantifier": "all programs of these operations, all patterns of allocation failure", "why_tests_cant": "Ranges over all sequences of operations.", "anchors": ["include/session/util.hpp: sodium_array", "src/util.cpp"]}
{"id": "C112", "title": "get_or_construct gives what get finds, otherwise an empty record", "statement": "For every kind of record, get_or_construct accepts exactly the ids (URLs, rooms, keys) that are valid, gives what get finds and otherwise a record with nothing but the id; a community can be looked up by its full or partial URL as by its parts, its key may be given in hex in either case, and the full URL of every community in the list gives it back.", "quantifier": "all states, ids, URLs, rooms and keys", "why_tests_cant": "Ids, URLs and states are unbounded.", "anchors": ["src/config/contacts.cpp: get_or_construct", "src/config/convo_info_volatile.cpp: get_or_construct_*", "src/config/user_groups.cpp: get_or_construct_*", "src/config/groups/members.cpp: get_or_construct"]}
{"id": "C113", "title": "Helper functions do what their descriptions say", "statement": "string_iequal compares up to case, end_with and starts_with test for a suffix and a prefix, SessionID::hex gives the session id in hex with the prefix 05.", "quantifier": "all strings and keys", "why_tests_cant": "Ranges over all strings.", "anchors": ["include/session/util.hpp", "src/fields.cpp"]}
{"id": "C114", "title": "C functions for encrypted messages deliver exactly what the C++ functions return", "statement": "The C functions that decrypt (incoming, legacy group, blinded, ONS, group messages, push notifications) and encrypt messages report success exactly if the C++ function returns; then the buffer of 67 bytes holds the NUL-terminated session id and the new allocation exactly the message, with its length; otherwise nothing is written (for group encryption: a null pointer and length 0).", "quantifier": "all keys, ids, messages and ciphertexts of the documented lengths", "why_tests_cant": "Ranges over all ciphertexts, including hostile ones; memory safety cannot be tested exhaustively.", "anchors": ["src/session_encrypt.cpp: session_encrypt_*, session_decrypt_*", "src/config/groups/keys.cpp: groups_keys_encrypt_message, groups_keys_decrypt_message"]}
{"id": "C115", "title": "C functions for subaccounts fill exactly the documented buffers", "statement": "The C functions that make, sign with and verify subaccount values fill buffers of exactly the documented sizes (100, 36, 64 and 64 bytes; 49, 89 and 89 characters of NUL-terminated base64 that decodes to these values), and leave them alone if the C++ function throws.", "quantifier": "all keys, ids, messages and signing values", "why_tests_cant": "Ranges over all inputs; memory safety cannot be tested exhaustively.", "anchors": ["src/config/groups/keys.cpp: groups_keys_swarm_make_subaccount_flags, groups_keys_swarm_subaccount_sign, groups_keys_swarm_subaccount_sign_binary, groups_keys_swarm_subaccount_token_flags, groups_keys_swarm_verify_subaccount_flags"]}
{"id": "C116", "title": "groups_keys_swarm_verify_subaccount requires write permission", "statement": "groups_keys_swarm_verify_subaccount returns true only for values with read and write permission, and false for values that do not validate.", "quantifier": "all group ids, keys and values", "why_tests_cant": "Ranges over all values.", "anchors": ["src/config/groups/keys.cpp: groups_keys_swarm_verify_subaccount", "include/session/config/groups/keys.h"]}
{"id": "C117", "title": "Multi-recipient messages can be read with any of the functions", "statement": "A message encrypted for several recipients with the X25519 keys or the Ed25519 key of the sender is the same; each recipient gets exactly its message from each decryption function, in C++ or C, with X25519 or Ed25519 keys. The C functions return a null pointer and leave the length alone exactly if the C++ function throws or finds nothing (or the message is empty and malloc(0) returns null).", "quantifier": "all senders, recipients, messages, domains, nonces, paddings and encoded inputs", "why_tests_cant": "Ranges over all lists of recipients and messages.", "anchors": ["src/multi_encrypt.cpp: x_keys, decrypt_for_multiple_simple, decrypt_for_multiple_simple_ed25519, session_encrypt_for_multiple_simple, session_encrypt_for_multiple_simple_ed25519, session_decrypt_for_multiple_simple*"]}
{"id": "C118", "title": "A member given the group secret key becomes an admin without losing anything", "statement": "load_admin_key on a member device succeeds exactly for the 32-byte seed or 64-byte secret key of the group. Afterwards the three objects hold exactly what they held, in every state a member device can be in; every modification of Info and Members, all of which threw before, succeeds; what the new admin changes and pushes is accepted and shown by every other device of the group (under the conditions of C98); and dumps the device made as a member load into the admin objects with the same content, seqno and hashes.", "quantifier": "all histories of a member device and of the receiving device, all secrets, all modifications", "why_tests_cant": "Ranges over all states in which the promotion can happen, on both sides.", "anchors": ["src/config/groups/keys.cpp: Keys::load_admin_key", "src/config/base.cpp: ConfigSig::set_sig_keys, set_sig_pubkey, init_sig_keys"]}
{"id": "C119", "title": "What an object signs passes its own verifier", "statement": "After the constructor and any sequence of set_sig_keys, set_sig_pubkey and clear_sig_keys: an object that signs also verifies, it is read-only exactly with a public key alone, a call that throws changes nothing, and signatures made by the object pass its verifier.", "quantifier": "all constructor arguments and all sequences of calls", "why_tests_cant": "Sequences of calls are unbounded.", "anchors": ["src/config/base.cpp: ConfigSig::set_sig_keys, set_sig_pubkey, clear_sig_keys, init_sig_keys"]}
{"id": "C120", "title": "A loop over a config shows every record exactly once and ends", "statement": "For every stored data, including entries this version does not understand, a loop over the conversations, groups, contacts or group members, whether it ends on done() or on == end(), terminates without undefined behaviour and shows exactly the records the config holds, each once and sorted by type; a loop over one type (begin_1to1, begin_communities, begin_groups, begin_legacy_groups) shows exactly those of that type.", "quantifier": "all stored data, both ways to end the loop, all subtypes", "why_tests_cant": "The data may have any number of tables, servers and rooms and unknown entries anywhere; tests iterate a few.", "anchors": ["src/config/convo_info_volatile.cpp: ConvoInfoVolatile::iterator", "src/config/user_groups.cpp: UserGroups::iterator", "src/config/contacts.cpp: Contacts::iterator", "src/config/groups/members.cpp: Members::iterator", "src/config/internal.hpp / include/session/config/community.hpp: comm_iterator_helper"]}
{"id": "C121", "title": "Records set and erased on different devices at the same time all take effect", "statement": "Several devices hold the same config; each sets and erases contacts, groups, group members, conversations or communities (any number of calls), and publishes. After a device merged the versions of all the others, each record about which only one device made calls is as on that device (erased if it erased it), and each record nobody made a call about is as before.", "quantifier": "all configs, all numbers of devices, all sequences of set/erase calls on each, all orders and repetitions of delivery", "why_tests_cant": "The outcome depends on the hashes that order the messages and on every combination of concurrent edits; tests try a handful of two-device merges.", "anchors": ["src/config.cpp: ConfigMessage::ConfigMessage(merge)", "src/config/base.cpp: ConfigBase::merge, DictFieldProxy::erase", "src/config/contacts.cpp: Contacts::set, erase", "src/config/user_groups.cpp: UserGroups::set, erase", "src/config/groups/members.cpp: Members::set, erase", "src/config/convo_info_volatile.cpp: set, erase"]}
{"id": "C122", "title": "A public key means the same in every text form", "statement": "A 32-byte key may be given as hex (letters of either case), base64 with or without padding, or base32z: setting a community key, a community URL with the key in it (C++ or C), looking up communities and conversations by key text, and the onion-request key parsers all read the same key from every form; two different keys have no form in common; any other text is refused, or read as the key of zeros by the onion-request parser; hex and byte constructors of the onion key types accept exactly the right lengths, and snode addresses are 58 characters and distinct for distinct keys.", "quantifier": "all 32-byte keys, all texts, all URLs with canonical servers and valid rooms, all configs", "why_tests_cant": "There are 2^256 keys and more texts; the classification by length and the digit tables have to be right for all of them.", "anchors": ["src/config/internal.cpp: decode_pubkey", "src/config/community.cpp: parse_partial_url, parse_full_url, community_parse_full_url", "src/onionreq/key_types.cpp: parse_pubkey, load_from_hex, load_from_bytes, snode_address"]}
{"id": "C123", "title": "Onion requests through the C interface", "statement": "A C program configures a builder (cipher, hops, destination: keys as 64 hex characters, texts NUL-terminated), builds requests with it and decrypts replies. Each setter does exactly what the C++ call with the decoded arguments does, or throws and leaves the builder alone; build gives the request C++ build gives and the key pair for the reply, does not change the builder, and returns false instead of throwing; the request passes through the hops in order to the destination, which gets the payload; its reply is decrypted by onion_request_decrypt with the keys that build wrote; what onion_request_decrypt accepts is authentic; buffers are not overrun if they have the documented sizes.", "quantifier": "all sequences of setter calls, all payloads, all random choices, all numbers of hops, all replies and ciphertexts", "why_tests_cant": "Composition of the C layer with the nested encryption for every path length and every randomness; tests exercise one fixed request.", "anchors": ["src/onionreq/builder.cpp: onion_request_builder_init, _set_enc_type, _set_snode_destination, _set_server_destination, _add_hop, _build", "src/onionreq/response_parser.cpp: onion_request_decrypt", "include/session/onionreq/builder.h"]}
{"id": "C124", "title": "Communities and conversations through the C interface", "statement": "A C program reads a community (conversation or membership) by URL and room: if either is not valid it gets no record and, in last_error, a text about the one that is wrong; otherwise no error and the record, if there is one, copied completely into the struct without undefined behaviour. Setting a struct and reading it back, under any spelling of URL and room, gives the key and the settings that were set; a struct that was read, when set again, sets exactly that record; erasing never throws, and what was erased is gone while the other communities are as before. The documented loop with the it_is functions fills, for every stored data, the struct of the right type with each conversation (or group) once. The C functions for the members of a legacy group do what they say.", "quantifier": "all reachable objects, all byte strings as URL, room, key and id, all stored data", "why_tests_cant": "Quantifies over everything another device may have stored and every spelling; the interesting inputs are those no test author thought of.", "anchors": ["src/config/convo_info_volatile.cpp: convo_info_volatile_get_community, _get_or_construct_community, _set_*, _erase_community, convo_info_volatile_it_is_*, convo::*::into", "src/config/user_groups.cpp: user_groups_get_community, _get_or_construct_community, _set_community, _erase_community, user_groups_it_is_*, ugroups_legacy_member_add, ugroups_legacy_members_count, ugroups_group_set_kicked", "src/config/community.cpp: canonical_url, canonical_room"]}
{"id": "C125", "title": "community objects stay well-formed under all setters", "statement": "However a community object is made and whatever setters are called on it afterwards, also when some throw and the program carries on, its server URL and room are canonical and room() is a spelling of the room. Each setter does what it says and changes nothing else, or throws and changes nothing (not so: set_full_url with a bad room has already changed the server). full_url() of an object given to set_full_url of another makes them equal, and each of the three texts of the key gives the key back. An object with a 32-byte key that is set is read back under every spelling of server and room. The C function for partial URLs agrees with the one for full URLs, and stays inside the buffers unless the room is longer than 64 characters. An object whose key is given as the text of 31 bytes, which the setters accept, can be set too and then hides every room of that server from iteration.", "quantifier": "all byte strings as URL, room and key, all sequences of setter calls, all reachable UserGroups objects", "why_tests_cant": "Quantifies over all sequences of calls with all arguments, including those that throw half-way.", "anchors": ["include/session/config/community.hpp: community", "src/config/community.cpp: community::community, set_full_url, set_base_url, set_pubkey, set_room, full_url, pubkey_hex, pubkey_b32z, pubkey_b64, community_parse_partial_url", "src/config/user_groups.cpp: UserGroups::set(const community_info&)", "src/config/convo_info_volatile.cpp: ConvoInfoVolatile::set(const convo::community&)"]}
{"id": "C126", "title": "Config encryption, padding sizes and random bytes through the C interface", "statement": "A C program that encrypts any message with config_encrypt gets a buffer 40 bytes longer and, with the same 32 bytes of key and domain of 1 to 24 characters, gets exactly the message back from config_decrypt; when config_decrypt returns a pointer, the ciphertext is an encryption of what is there under that key and domain; on failure a null pointer is returned and the size is not touched; nothing outside the given buffers is read. config_padded_size is not below the size, less than one step above it, a multiple of the step together with the overhead, and stable under a second call, as long as nothing overflows. session_random gives a buffer of exactly the size asked for.", "quantifier": "all messages, ciphertexts, keys, domains, sizes and overheads, for all primitives with the functional properties of authenticated encryption", "why_tests_cant": "Quantifies over all byte strings and all sizes up to the word size; tests use a few lengths.", "anchors": ["src/config/encrypt.cpp: config_encrypt, config_decrypt, config_padded_size", "include/session/config/encrypt.hpp: padded_size", "src/random.cpp: random, session_random"]}
{"id": "C127", "title": "Group keys through the C interface", "statement": "A group keys object used through the C interface only, by any program of calls (load_message, rekey, load_admin_key, key_supplement, dump) with any arguments: a call that returns false leaves the group \u2014 keys, Info and Members \u2014 exactly as it was, with the first 255 characters of the reason in last_error; one that returns true leaves last_error alone. At every moment the index interface gives 32 bytes for every index below size and null from there on; these are the keys Info and Members decrypt with, index 0 the one they encrypt with. An admin's rekey returns the message that pending_config then returns, and a member (or another admin) who passes it to load_message has the same key at index 0 as the admin. current_hashes can be read as a C string list and holds exactly the hashes to keep, complete. After a dump and groups_keys_init with it the new object has the same keys at the same indices, pending message, hashes and generation. The generation returned is that of the newest key given, as long as it fits an int.", "quantifier": "all histories of the object and of Info and Members used with it, all messages, hashes, timestamps, secrets and error texts", "why_tests_cant": "Quantifies over all histories of all three objects and all message contents.", "anchors": ["src/config/groups/keys.cpp: groups_keys_init, groups_keys_size, group_keys_get_key, groups_keys_load_admin_key, groups_keys_rekey, groups_keys_pending_config, groups_keys_load_message, groups_keys_current_hashes, groups_keys_needs_rekey, groups_keys_needs_dump, groups_keys_dump, groups_keys_key_supplement, groups_keys_current_generation", "include/session/config/groups/keys.h", "include/session/config/groups/keys.hpp: current_generation"]}
{"id": "C128", "title": "Config objects through the C interface", "statement": "A config object made and used through the C interface only (its init function, config_merge, config_push, config_confirm_pushed, config_dump, config_current_hashes, the key functions and any setters), by any program with any arguments. Init without a dump makes an empty object with nothing to push whose only key is the first half of the secret key; an init that fails leaves a C string in the caller's 256 bytes. Unless malloc fails: the list config_merge returns can be read as C strings and is exactly the hashes, complete, of the messages accepted, in order; the struct of config_push can be read and holds the sequence number, the message and the hashes to delete; config_current_hashes gives the current hash, complete; config_get_keys gives all keys, 32 bytes each, in order. config_key, config_has_key, add, remove and clear agree with that list. config_dump followed by init with it (whatever follows it in memory) gives an object with the same contents, need for a push and hashes. And end to end: what one C program gets from config_push, another gives to config_merge from a larger buffer: it then shows what the first showed, has nothing to push, and reads back the hash; the first, after config_confirm_pushed, has nothing to push either, and both have the same current hash.", "quantifier": "all histories of such objects, all messages, hashes, keys, dumps and contents, all behaviours of malloc", "why_tests_cant": "Quantifies over all histories, including restarts, and all message sets; a hash with a NUL, a short buffer or an offset wrong by one would only show for some.", "anchors": ["src/config/base.cpp: config_merge, config_push, config_confirm_pushed, config_dump, config_current_hashes, config_get_keys, config_add_key, config_add_key_low_prio, config_clear_keys, config_remove_key, config_key_count, config_has_key, config_key", "src/config/internal.hpp: c_wrapper_init, make_string_list", "include/session/config/base.h"]}
{"id": "C129", "title": "User profile and group description through the C interface", "statement": "The user profile and the description of a group, set and read through the C interface only, with any arguments C can express (any C strings, any struct with a picture, any int or int64). A setter that returns success changes what the C getters show exactly as asked (a name or picture is the C string given, an empty one clears it; a group name keeps its first 100 bytes and a description its first 2000; a timer or time below 0 clears it; any positive answer for message requests reads back as 1, a negative one as -1) and nothing else; one that fails changes nothing; on an object that can be changed every call succeeds, so after any program of calls the getters show what the calls said, in order. On a member's object of a group no call changes anything. Objects with the same contents show the same. groups_info_init and groups_members_init without secret key make an object that verifies with the group key and cannot sign, with the secret key that belongs to the public key one that signs with it, with any other secret key an error; with a dump, whatever follows it, the object holds what the dumped one did.", "quantifier": "all histories of such objects, all programs of setters, all arguments and buffers", "why_tests_cant": "Quantifies over all argument values and programs of calls; boundaries (a name of 101 bytes, a string with no NUL in the struct, a negative timer) show only for some.", "anchors": ["src/config/user_profile.cpp: user_profile_get_name ... user_profile_set_blinded_msgreqs", "src/config/groups/info.cpp: groups_info_init ... groups_info_destroy_group", "src/config/internal.hpp: c_group_wrapper_init", "include/session/config/user_profile.h", "include/session/config/groups/info.h"]}
{"id": "C130", "title": "Recovery from an old dump", "statement": "A device writes a dump at a moment when nothing is unpublished, goes on - any calls, any merges with messages of the devices of the account, any restarts -, publishes, and dies before it writes another dump. An object made from the old dump and given the encryption key, that merges the message published last, is exactly where the device was: the same content and seqno, the message reported as accepted, and, if anything had changed since the dump, nothing to push and the storage hash of that message as the current one. If nothing had changed, the merge changes nothing. What a device holds always is what it held at any earlier moment, or lists it in its history, or is lag or more ahead of it.", "quantifier": "all histories of the device before and after the dump, all crash points after a push, all contents", "why_tests_cant": "Quantifies over all histories between the dump and the crash; a test fixes one.", "anchors": ["src/config/base.cpp: dump, load_dump, merge, push", "src/config.cpp: MutableConfigMessage increment, merge of ConfigMessage, lagged diffs", "include/session/config/base.hpp: dump"]}
{"id": "C131", "title": "The history listed by messages is complete", "statement": "Among the devices of an account (whose configs do not collide under the hash), with any calls, any merges of each other's messages in any order, and any restarts: a message that lists another one in its history lists everything that one lists, as far as it is less than lag behind. What a device publishes lists every config it ever held without unpublished modifications, or is lag or more ahead of it. So a device that still holds an earlier config of another device takes over what that one publishes later exactly, without a conflict, whatever happened in between; and recovery from an old dump (C130) needs no further condition.", "quantifier": "all sets of devices, all interleavings of calls, merges and restarts, all batches", "why_tests_cant": "Quantifies over all histories of any number of devices.", "anchors": ["src/config.cpp: increment_impl, merge constructor of ConfigMessage (lagged_diffs_), parse of lagged diffs", "src/config/base.cpp: merge, dirty, load_dump"]}
{"id": "C132", "title": "A rekey shuts out everyone it does not list", "statement": "A rekey message contains the new key sealed for the admins, sealed once for each member listed at that moment, and fillers, and nothing else that depends on the new key; a key supplement contains the keys held sealed for the session ids given and nobody else. So after an admin erases a member from the list and rekeys, the device of that member - provided its own key opens neither what is sealed with the key of another member nor a filler of this message - accepts the message but gets no key from it: it decrypts with the keys it had, encrypts with the key it had, and its Info and Members are untouched. And a device none of whose keys opens a config message merged or a group message given to it reads nothing from it: the merge reports nothing accepted and changes neither content nor seqno, and decrypt_message throws.", "quantifier": "all groups in any reachable state, all members not listed, all supplements, all later messages", "why_tests_cant": "Exclusion is about every device not listed and every message made afterwards; a test checks one removed member.", "anchors": ["src/config/groups/keys.cpp: rekey, key_supplement, load_key_message, decrypt_message", "include/session/config/groups/members.hpp: erase, set_removed", "src/config/base.cpp: merge"]}
{"id": "C133", "title": "Merging what one's own devices published never fails", "statement": "Let any number of devices of an account produce messages in any way: edits, pushes, merges of each other's messages, dumps and restarts, in any order. Then merge() on any of them, given any selection of these messages in any order and any number of times, mixed with bytes that do not decrypt or are not config messages, does not throw: it returns the hashes of exactly the messages that are config messages. (In particular no history the library itself produces contains a diff that aborts a merge, C22.)", "quantifier": "all histories of all devices, all batches", "why_tests_cant": "Whether a merge can throw depends on the diffs collected by every device on the way; a test merges a few messages.", "anchors": ["src/config/base.cpp: merge, _merge", "src/config.cpp: ConfigMessage(vector), apply_diff"]}
{"id": "C134", "title": "What a device has merged or published changes nothing when it arrives again", "statement": "Let a device merge a message of a device of the account, or hold it itself as its published config, and then go on in any way: edits, pushes, merges, restarts. When that message, or any number of such messages, arrives again - alone or mixed with junk - merge() reports it accepted and changes nothing: content, seqno, the bytes that would be pushed, needs_push and the current hashes are as before, also when modifications are pending.", "quantifier": "all histories of the device and of the account, all such messages, all later points", "why_tests_cant": "Redelivery may happen at any later point after any further activity; a test replays one message at one point.", "anchors": ["src/config/base.cpp: _merge", "src/config.cpp: ConfigMessage(vector) (redundancy by lagged diffs), MutableConfigMessage"]}
{"id": "C135", "title": "Devices that stop editing agree after one exchange, and then stay silent", "statement": "Let any number of devices of an account, after any histories, have published their modifications, and let each merge a batch that contains what each of the others published (in any order, with repetitions, its own message and undecryptable bytes mixed in). Then no merge fails; all devices have the same content and seqno, and the bytes they would publish are the same; if a conflict had to be resolved all of them must push and they push the same bytes. After that - whether they pushed, had it confirmed or restarted - merging any of the messages of the exchange or what the devices push then changes nothing on any of them.", "quantifier": "all sets of devices, all histories, all orders of delivery", "why_tests_cant": "Agreement and termination of the conflict resolution are about every set of histories and every delivery order; a test has two devices and one order.", "anchors": ["src/config/base.cpp: merge, push, confirm_pushed", "src/config.cpp: ConfigMessage(vector)"]}
{"id": "C136", "title": "Contacts, members, groups and legacy groups behave as maps, whatever happens in between", "statement": "Start with a new config object and make any sequence of get, set, erase, iteration and size calls on the contacts, the group members, the groups or the legacy groups. Between the calls anything else may happen: pushes, confirmations, dumps, key changes, merges that bring nothing new, edits elsewhere in the config, restarts from the dump at any point, and another device that has nothing newer merging what is pushed and carrying on from there. Then every call returns what a map from (lower case) ids to records with the same history of set and erase returns: get finds the record set last in the form the specification describes, erase says whether there was one, iteration lists exactly the records present in the order of the ids, size counts them, and an exception is thrown for ids that are not valid and only for these.", "quantifier": "all sequences of calls and of events in between, all records, all ids", "why_tests_cant": "The guarantee is about every interleaving of calls with publishing, restarts and changes of device; a unit test plays a few fixed scripts.", "anchors": ["src/config/contacts.cpp: get, set, erase, size, begin", "src/config/groups/members.cpp: get, set, erase, size, begin", "src/config/user_groups.cpp: get_group, get_legacy_group, set, erase_group, erase_legacy_group, size_groups, size_legacy_groups, begin_groups, begin_legacy_groups", "src/config/base.cpp: push, merge, dump, ConfigBase(dump)"]}
{"id": "C137", "title": "Contacts, members, groups and legacy groups through the C interface behave as maps", "statement": "A C program makes any sequence of get, get_or_construct, set, erase, size calls and iterator loops on the contacts, the group members, the groups or the legacy groups of a new config object, with structs in its own memory whatever bytes they hold before, and with pushes, confirmations, dumps, restarts, merges that bring nothing new, key changes and edits elsewhere in between. As long as it passes ids of fewer than 191 bytes to the functions that report errors and NUL-terminated strings in the structs it sets, no function reads or writes outside an array of a struct, and every call returns, and leaves in the struct, what a map with the same history of set and erase would: the id, the strings with their terminating NUL, the picture, the keys, the members and the flags of the record; false and an error message for an id that is not valid; false alone if there is no record. A struct that was read can be set again without changing anything for any reader. The kicked functions say and change exactly whether the group in the struct has a key.", "quantifier": "all sequences of calls and events in between, all memory contents of the structs, all ids and records", "why_tests_cant": "The structs are fixed-size arrays overwritten in part, so what a call leaves in them depends on every earlier call and on the lengths of the strings; a test reads a few fresh structs.", "anchors": ["src/config/contacts.cpp: contact_info::into, contact_info(const contacts_contact&), contacts_get, contacts_get_or_construct, contacts_set, contacts_erase, contacts_size, contacts_iterator_*", "src/config/groups/members.cpp: member::into, groups_members_get, groups_members_get_or_construct, groups_members_set, groups_members_erase, groups_members_iterator_*", "src/config/user_groups.cpp: group_info::into, legacy_group_info::into, user_groups_get_group, user_groups_get_legacy_group, user_groups_set_group, user_groups_set_legacy_group, user_groups_set_free_legacy_group, user_groups_it_is_group, user_groups_it_is_legacy_group, ugroups_group_set_kicked, ugroups_group_is_kicked", "src/config/internal.hpp: copy_c_str, wrap_exceptions"]}
{"id": "C138", "title": "Conversations behave as one book with pruning, whatever is done in between", "statement": "Whatever sequence of get, get_or_construct, set, erase, iteration, size, prune_stale and push is made on the volatile conversation info of a new writable object, for one-to-one conversations, groups, legacy groups and communities together, with confirmations, dumps, restarts, key changes, merges that bring nothing new, edits elsewhere and other devices taking over in between, every call returns what a book with the same history would return, and throws exactly for ids, server URLs, room names and server keys that are not valid. set keeps the flag given and the time given, except that a time more than 30 days ago never moves the stored one forward; a conversation that is new, was read more than 30 days ago and is not marked unread is not stored. prune_stale and push remove exactly what was last read more than 45 days ago and is not marked unread, except groups. Setting a room gives its key to every room of the server; erasing the last room forgets the server. Nothing else ever changes or goes, except that a conversation that says nothing (never read, not marked unread) may disappear when the object is published, saved or edited.", "quantifier": "all sequences of calls and events in between, all ids, URLs, rooms, keys and times from 1970 to 2262, all clocks", "why_tests_cant": "What a call returns depends on the whole history, on the clock at every earlier set, prune and push, and on which empty containers publishing has dropped; a test runs a few calls with one clock.", "anchors": ["src/config/convo_info_volatile.cpp: get_1to1, get_group, get_legacy_group, get_community, get_or_construct_*, set_base, set, erase_impl, erase, prune_stale, push, size_*, iterator", "include/session/config/community.hpp: comm_iterator_helper", "include/session/config/base.hpp: assign_if_changed, erase"]}
{"id": "C139", "title": "The list of groups behaves as one object, whatever is done in between", "statement": "Whatever sequence of get, get_or_construct, set, erase, iteration and size is made on the UserGroups of a new writable object, for groups, legacy groups, communities and all of them together, with publishing, confirmations, dumps, restarts, key changes, merges that bring nothing new, edits elsewhere and other devices taking over in between, every call returns what three maps with the same history of set and erase would return, and throws exactly for ids, server URLs, room names and server keys that are not valid. A community reads back with the room name as it was last spelled and the settings as set, under any spelling of its URL and room; setting a room gives its key to every room of the server; the kinds do not disturb each other; begin() lists the groups, then the communities in the order of server and room, then the legacy groups, each once, and size() is the length of that list.", "quantifier": "all sequences of calls and events in between, all groups, legacy groups, communities, ids, URLs, rooms and keys", "why_tests_cant": "What a call returns depends on the whole history and on calls of other kinds; a test runs a few calls.", "anchors": ["src/config/user_groups.cpp: get_group, get_or_construct_group, get_legacy_group, get_or_construct_legacy_group, get_community, get_or_construct_community, set, erase_*, size, size_*, iterator", "include/session/config/community.hpp: comm_iterator_helper"]}
{"id": "C140", "title": "The kinds of configuration are kept apart", "statement": "Every kind of configuration has a namespace and an encryption domain of its own, as the C and C++ interfaces report them. The key a message is encrypted with is derived from an input that determines the 32-byte key, the size and the kind. A message pushed by an object of one kind is not taken up by an object of any other kind, even if both hold the same keys, as all objects of one account and Info and Members of one group do: merging a batch with such a message does exactly what merging the batch without it does. Dumps, in contrast, carry no mark of their kind: any dump loads into an object of any kind as into one of its own.", "quantifier": "all pairs of kinds, all reachable objects, keys, contents and batches in which the message appears", "why_tests_cant": "Tests merge messages of the same kind; that no message of another kind is ever taken up ranges over all contents, keys and batches.", "anchors": ["include/session/config/namespaces.hpp", "include/session/config/*.hpp: storage_namespace, encryption_domain, accepts_protobuf", "src/config/encrypt.cpp: make_encrypt_key", "src/config/protos.cpp: unwrap_config", "src/config/base.cpp: merge, config_storage_namespace, config_encryption_domain"]}
{"id": "C141", "title": "The messages accepted are exactly those in the documented format", "statement": "A bencoded dict is accepted as a config message if and only if it follows the format of docs/config-merge-logic.md: keys ascending, \"#\" first (a key before it is a version break and the message is refused), application data canonical at every depth, earlier changes in order and in the window, diffs of the four documented kinds, a valid 64-byte signature last where one is required; unknown keys are kept. What is read is what the message says, and everything a client publishes is in this format.", "quantifier": "all bencoded dicts, however nested; all lags, verifiers and published messages", "why_tests_cant": "An equivalence over all inputs: no test can show that nothing else is accepted, or that nothing documented is refused.", "anchors": ["docs/config-merge-logic.md", "src/config.cpp: ConfigMessage::ConfigMessage, parse_data, load_diff, parse_lagged_diffs, verify_config_sig", "src/config/internal.cpp: load_unknowns"]}
{"id": "C142", "title": "Updates and merges follow the documented procedure", "statement": "A plain update has the next seqno, the differences as diff, and as history that of its predecessor with the predecessor itself, less what is too old. A merge has one more than the highest seqno; its data are those of the highest current message with the replay set applied in order of rank: the own diff of every current message and the past diffs within the cutoff, each taken from the highest message that records it; its history is the replay set, its diff the further changes. This leaves nothing open: the messages determine the result.", "quantifier": "all accepted batches of messages, in any order and number; all lags at least 1", "why_tests_cant": "The result is specified for every batch by a document; tests compare a few batches.", "anchors": ["docs/config-merge-logic.md: Non-conflicting updates, Conflict resolution", "src/config.cpp: ConfigMessage::ConfigMessage (merging), apply_diff, MutableConfigMessage::increment, serialize_impl"]}
{"id": "C143", "title": "The group key messages accepted are exactly those in the documented format", "statement": "A bencoded dict is accepted as a group key message if and only if it has the entries that keys.hpp documents: a nonce, either \"+\" (a list of ciphertexts of at least 68 bytes) with a generation, or a non-negative generation, the admin copy of 48 bytes and \"k\", a list of a multiple of 75 ciphertexts of 48 bytes, and as its last entry a valid signature of all bytes before it by the group. What a device takes from it is exactly what is in it for that device: the admin copy for admins, the first ciphertext that opens with the member key for members, the generation otherwise. Every rekey and supplement that is published has this form.", "quantifier": "all bencoded dicts with any further entries; all devices, admin or not; all timestamps; all rekeys and supplements published", "why_tests_cant": "An equivalence over all inputs: tests cannot show that nothing else is accepted, nor that nothing documented is refused.", "anchors": ["include/session/config/groups/keys.hpp: Keys (format description)", "src/config/groups/keys.cpp: Keys::load_key_message, Keys::rekey, Keys::key_supplement", "src/config.cpp: verify_config_sig"]}
{"id": "C144", "title": "Exactly which configs can be pushed", "statement": "push succeeds exactly if the object has an encryption key and its serialised config or, if shorter, the compressed form plus one byte has at most 76760 bytes (groups::Info, groups::Members) or 71640 bytes (the four user configs, whose messages are wrapped in protobuf). Sizes of messages are multiples of the padding bucket (plus 1 to 400 bytes of wrapper). A push that fails leaves content, seqno, needs_push, needs_dump, hashes and keys as they were.", "quantifier": "every reachable config object of each kind, every content", "why_tests_cant": "The limit applies after compression, padding, encryption and wrapping of arbitrary content.", "anchors": ["src/config/base.cpp: push", "include/session/config.hpp: MAX_MESSAGE_SIZE", "include/session/config/encrypt.hpp: padded_size", "src/config/protos.cpp: wrap_config"]}
{"id": "C145", "title": "Conversations through the C interface behave as a book, with the structs in memory", "statement": "A C program makes any sequence of get, get_or_construct, set, erase, size calls, documented iterator loops (over all conversations or one type) and pushes on the conversations of a new config object, with structs in its own memory whatever bytes they hold before, and with pushes, confirmations, dumps, restarts, merges that bring nothing new, key changes and edits elsewhere in between. As long as it passes ids of fewer than 191 bytes, NUL-terminated strings, 32-byte keys and times between 1970 and 2262, no function reads or writes outside an array of a struct, and every call returns, and leaves in the struct of the right type, what a book of conversations with the same history would (C138): the id or server, room and key, the time last read and the unread mark; an error message about the id, the room (if it is invalid) or the URL otherwise; false alone if there is none. Loops show every conversation of the type asked for once, in order. Setting a struct with an invalid id, URL or room lets the exception out of the C function. A struct that was read can be set again at any time without changing any answer.", "quantifier": "all sequences of calls and events in between, all memory contents of the structs, all ids, servers, rooms, keys and times", "why_tests_cant": "The structs are fixed-size arrays overwritten in part, whether a set keeps or drops a conversation depends on the clock and on what is held, and answers depend on the whole history; a test sees one history with fresh structs.", "anchors": ["src/config/convo_info_volatile.cpp: convo::one_to_one::into, convo::community::into, convo::group::into, convo::legacy_group::into, convo_info_volatile_get_*, convo_info_volatile_get_or_construct_*, convo_info_volatile_set_*, convo_info_volatile_erase_*, convo_info_volatile_size*, convo_info_volatile_iterator_*, convo_info_volatile_it_is_*", "include/session/config/convo_info_volatile.h", "src/config/internal.hpp: copy_c_str, wrap_exceptions"]}
{"id": "C146", "title": "The user's group list through the C interface behaves as one roll, with the structs in memory", "statement": "A C program makes any sequence of get, get_or_construct, set, set_free, erase and size calls and documented iterator loops (over everything or one type) on the groups, communities and legacy groups of a new config object, with structs in its own memory whatever bytes they hold before, and with pushes, confirmations, dumps, restarts, merges that bring nothing new, key changes and edits elsewhere in between. As long as structs it passes have terminated strings where the library reads them, keys have 32 bytes and ids of legacy groups fewer than 191 bytes, no function reads or writes outside an array of a struct, and every call returns, and leaves in the struct of the right type, what a roll of groups with the same history would (C139): each community with its server, the room as it was spelled, the key last given for the server and the settings; each group and legacy group with all its fields; an error message about the URL (if it is invalid) or the room otherwise, or about the id; false alone if there is none. Calls about one type never change what calls about another type return. Loops show every group of the type asked for once, in order. Setting a struct with an invalid id, URL or room lets the exception out of the C function. A struct that was read can be set again at any time without changing any answer.", "quantifier": "all sequences of calls and events in between, all memory contents of the structs, all ids, servers, rooms, keys and settings", "why_tests_cant": "The structs are fixed-size arrays overwritten in part, all three types share one config object and one iterator, and answers depend on the whole history; a test sees one history with fresh structs.", "anchors": ["src/config/user_groups.cpp: community_info::into, group_info::into, legacy_group_info::into, base_into, base_from, user_groups_get_*, user_groups_get_or_construct_*, user_groups_set_*, user_groups_erase_*, user_groups_size*, user_groups_iterator_*, user_groups_it_is_*", "include/session/config/user_groups.h", "src/config/internal.hpp: copy_c_str"]}
{"id": "C147", "title": "Saving what is already saved does nothing, and default values take no space", "statement": "After a successful call that saves or erases a contact, group, legacy group, community, member or conversation, or that sets a field of the profile or of the group information, and after the change has been published, the same call made again - at the same or a later time, on the same object or on any object that has received the change - succeeds and leaves the object exactly as it was, so that the call causes no push and no dump. Clearing a field that is not set does nothing, and after a field is cleared nothing is stored for it. A saved record stores exactly the key that keeps it alive, the settings that differ from their default and keys this library does not know that were stored before.", "quantifier": "all reachable objects, all records, ids, fields and values in the range of the types of the API, all times of the second call not before the first, and all receivers to which the change is delivered", "why_tests_cant": "A test repeats a few calls with a few values; here every combination of settings, earlier content and receiver counts, and a setter that stores its default, or that compares with something other than what it stores, makes devices push to each other forever only for some of them.", "anchors": ["src/config/internal.cpp: set_flag, set_positive_int, set_nonzero_int, set_nonempty_str", "include/session/config/base.hpp: DictFieldProxy::assign_if_changed, erase", "src/config/contacts.cpp: Contacts::set", "src/config/user_groups.cpp: UserGroups::set", "src/config/groups/members.cpp: Members::set", "src/config/convo_info_volatile.cpp: set", "src/config/user_profile.cpp", "src/config/groups/info.cpp"]}
{"id": "C148", "title": "A dump or message that was cut off is never taken for a whole one", "statement": "If the end of a saved dump of a config object is missing, whatever was cut off, then constructing an object from what is left throws, whoever reads it, and never gives an object with less in it; the same holds for a config message. For a dump of the group keys, what is left is refused or gives exactly the object that the whole dump gives (the last byte is not looked at when a rekey is pending). Bytes that follow a dump do not change what is read. Whatever bytes are given as a dump of group keys: they are refused, or the object has keys of 32 bytes in strictly ascending order, needs no dump, and dumping and loading it again gives the same keys, hashes, pending rekey and encryption key.", "quantifier": "all objects and all group keys objects that can be reached, all places at which the dump or message is cut, all bytes that follow it, and all byte strings given to the group keys as a dump", "why_tests_cant": "A test cuts a few dumps at a few places; a crash while saving can leave any prefix of any dump, and a reader that stops early on one of them silently loses the newest part of the config.", "anchors": ["src/config/base.cpp: ConfigBase::init_from_dump", "src/config/groups/keys.cpp: Keys::load_dump, make_dump", "src/config.cpp: ConfigMessage::ConfigMessage, parse_unknown", "oxenc bt_dict_consumer (external)"]}
{"id": "C149", "title": "Every encoding of an envelope is read alike", "statement": "unwrap_config returns data exactly if its input is a protobuf WebSocketMessage of type REQUEST whose request carries an Envelope with a known type and a timestamp, whose content decrypts to a message of the account to itself consisting of a Content with a SharedConfigMessage of that namespace with that data, a byte 0x80 and any number of zeros. The order of fields, further fields, repeated fields (the last counts), a request that comes in parts and the length of the padding do not matter, so envelopes made by other programs are read as well.", "quantifier": "all keys, namespaces and byte strings; all field lists of the five messages", "why_tests_cant": "All encodings of unboundedly long messages.", "anchors": ["src/config/protos.cpp: unwrap_config", "proto/SessionProtos.proto", "proto/WebSocketResources.proto"]}
{"id": "C150", "title": "A member that cannot sign holds the newest version it was given", "statement": "Make any calls on a config object that has a verifier but no signing key - attempted edits, pushes, confirmations, dumps, key changes, restarts from a dump, merges of any messages in any order, some of which throw. Then its seqno is at least that of every valid message it was given, and its content and seqno are those of one of these messages (or it is still the initial empty config). So two members agree as soon as both were given the newest version, provided no other version has the same seqno, whatever else they were given and in which order; and a member never goes back to an older version.", "quantifier": "all histories of all read-only config objects; all messages", "why_tests_cant": "Unboundedly many calls, messages and orders of delivery.", "anchors": ["src/config/base.cpp: ConfigBase::merge, ConfigBase::dirty, ConfigBase::push, ConfigBase::dump", "src/config.cpp: ConfigMessage::ConfigMessage"]}
{"id": "C151", "title": "Keys may be named by views of the object's own keys", "statement": "key(i), get_keys() and config_key give views of the keys inside the object, and add_key, remove_key and replace_keys take views. So remove_key(key(i)) removes key i, add_key(key(i)) moves key i to the front (as documented for a key already present), add_key with low priority changes nothing, and replace_keys(get_keys()) changes nothing - just as with copies of the keys.", "quantifier": "all lists of distinct keys, all positions, all capacities of the vector", "why_tests_cant": "The list may have any length; what matters is how elements move in memory while the argument is being read.", "anchors": ["src/config/base.cpp: ConfigBase::add_key, ConfigBase::remove_key, ConfigBase::replace_keys, ConfigBase::get_keys, config_key, config_add_key", "include/session/config/base.hpp: ConfigBase::key", "include/session/util.hpp: sodium_vector"]}
{"id": "C152", "title": "A device that takes over a version is at that version", "statement": "After a merge that leaves nothing to push, the object either is as before, or holds the content of the highest valid version it was given and is at exactly that seqno; so when the next version of that device arrives it is taken over in turn and nothing needs to be pushed.", "quantifier": "all reachable objects, with and without edits not yet pushed, all batches of messages", "why_tests_cant": "The histories, batches and seqnos are unbounded, and the case that fails needs a device that lags behind by config_lags() versions while it has edits.", "anchors": ["src/config/base.cpp: ConfigBase::_merge", "src/config.cpp: MutableConfigMessage::MutableConfigMessage (vector), increment_impl"]}
{"id": "C153", "title": "A version made by merging claims only what the merge changed", "statement": "The version an object makes by merging concurrent versions carries, as what it changed itself, nothing beyond their changes and its own edits. So a concurrent edit that reaches the devices later, of an entry that none of the merged versions touched, is not undone by it.", "quantifier": "all reachable objects, all batches that lead to a new version, all versions that arrive later, all paths", "why_tests_cant": "It is about every content, every batch and every later version; and about what a third device does with a version that a second one made.", "anchors": ["src/config/base.cpp: ConfigBase::_merge", "src/config.cpp: MutableConfigMessage::MutableConfigMessage (retain_seqno), MutableConfigMessage::diff", "include/session/config.hpp: MutableConfigMessage::orig_data_"]}
{"id": "C154", "title": "If only one device edits, nobody else ever has to push", "statement": "Among the devices of an account let one device do anything (edits, pushes, merges, restarts), and let the others only be given what it published, in any order and in any batches, with repetitions, missing versions and junk mixed in, and make calls that leave nothing to push. Then no conflict ever arises: the others never have anything to push, hold exactly the highest version they were given, and agree as soon as they were given the same versions.", "quantifier": "all lives of the publishing device, all sequences of calls, merges and restarts of the others, all batches", "why_tests_cant": "Whether a late or missing version looks like a conflict depends on the whole history of the publisher and on the order of delivery.", "anchors": ["src/config/base.cpp: ConfigBase::_merge, ConfigBase::needs_push", "src/config.cpp: ConfigMessage::ConfigMessage (vector), increment_impl"]}
{"id": "C155", "title": "Devices that take turns never conflict", "statement": "Let any number of devices edit and publish, but each only after it was given the newest version published so far (by any device, in any order and batches, with repetitions, gaps and junk). Then every version published is newer than all before it or the same, no device has anything to push except what it edited itself, a device that is given the newest version has exactly its content, and devices that were given the same versions agree.", "quantifier": "all numbers of devices, all sequences of turns, all calls, merges and restarts in between, all batches", "why_tests_cant": "Whether two versions conflict is decided by the histories they carry, which depend on every earlier turn; the history is cut off after some versions.", "anchors": ["src/config/base.cpp: ConfigBase::_merge, ConfigBase::needs_push", "src/config.cpp: ConfigMessage::ConfigMessage (vector), increment_impl"]}
{"id": "C156", "title": "An account whose devices take turns behaves as one device", "statement": "Let any number of devices make edits of fields (assign, erase, insert into a set, remove from a set, at any path), each device only after it was given the newest version published so far, publishing at the end of its turn. Then the newest version has exactly the content that a single device would have that made all these edits itself, one after the other; and so has every device that was given the newest version, whatever else it was given; none of them has anything to push.", "quantifier": "all numbers of devices, all sequences of turns and edits, all pushes, confirmations, dumps, merges and restarts in between, all orders of delivery", "why_tests_cant": "It takes the whole history: one turn whose edits are lost, doubled or taken for a conflict shows only in the content many turns later.", "anchors": ["src/config/base.cpp: ConfigBase::_merge", "include/session/config/base.hpp: DictFieldProxy", "src/config.cpp: ConfigMessage::ConfigMessage (vector), MutableConfigMessage::prune"]}
{"id": "C157", "title": "The calls of an account whose devices take turns read back as those of one device", "statement": "Let any number of devices take turns as in C156, each turn a sequence of successful calls: storing, erasing and changing contacts (all ten setters), the profile (name, picture, note-to-self priority and expiry, message requests), groups and legacy groups, communities (from their parts or as an object whatever calls made it), conversations, the members and the information of a group, or plain edits of fields. Then one single device could have made all these calls itself, one after the other, and all of them would have succeeded there; every device given the newest version has the content of that one device, so it shows the same contact, profile and conversation for every id, and, once the one device has published too, the same lists and sizes. Removing a community is the exception: what that does is not a matter of the content only.", "quantifier": "all numbers of devices, all sequences of turns and calls with all arguments, all pushes, confirmations, dumps, merges and restarts in between, all orders of delivery", "why_tests_cant": "The setters read before they write; that what they read is what one device would have read holds only by induction over the whole history.", "anchors": ["src/config/contacts.cpp: Contacts::set", "src/config/user_profile.cpp: UserProfile::set_profile_pic", "src/config/user_groups.cpp: UserGroups::set", "src/config/convo_info_volatile.cpp: ConvoInfoVolatile::set_base, erase_impl", "src/config/base.cpp: ConfigBase::_merge"]}
