# Formal model of libsession-util — design

All Lean sources are under `lean/Verif/`. Model files (`Basic`, `OMap`, `Bt`, `Data`, `Msg`, …) contain
definitions with citations to `/repo`; `*Lemmas` files contain helper lemmas; `Props/*.lean` contain the
property theorems, each stated beside a concrete non-vacuity `example`.

## Conventions

* Bytes are `List UInt8`; integers are Lean `Int` with explicit 64-bit range checks where the code does
  64-bit arithmetic; `std::map`/`std::set` are strictly sorted association lists (`OMap.lean`).
* Outcome type `Out`: `ok v`, `err e` (an exception, with its class where the code distinguishes), `hang`
  (the code loops forever) and `ub` (undefined behaviour: signed overflow, `front()` of an empty vector,
  dereferencing an empty optional). Nothing is totalised silently.
* Cryptographic primitives (BLAKE2b, XChaCha20-Poly1305, Ed25519, X25519), zstd and (in the config objects) protobuf
  encoding are parameters of the model; assumptions on them are hypotheses of the theorems that need them.

## Properties

Generated from `tools/p_*.py` by `tools/props.py`.

<!-- BEGIN PROPERTY TABLE -->
- **C01 Config messages survive a serialise/parse round trip** — Byte-level bencode encoder/decoder and message parser; induction over the nested value. *Status: proved* (`Verif.config_roundtrip`, `Verif.config_roundtrip_signed`).
- **C02 Accepted messages are canonical** — Soundness of the parser model by induction on the decoded value. *Status: proved* (`Verif.accepted_canonical`).
- **C03 Serialisation is injective** — Corollary of the round trip. *Status: proved* (`Verif.serialize_injective`).
- **C04 Unknown top-level keys are carried forward** — Model of append_unknown/load_unknowns; composition with increment. *Status: proved* (`Verif.unknown_keys_survive`).
- **C05 No message is accepted without a valid signature over exactly its preceding bytes** — Top-level entries carry their byte offset; case analysis of the parser. *Status: proved* (`Verif.accepted_signed`, `Verif.signed_bytes_determine_content`, `Verif.rejecting_verifier_rejects`).
- **C06 Lagged diffs of an accepted message lie inside the lag window** — Induction over the rows of the lagged list. *Status: proved* (`Verif.accepted_lag_window`).
- **C07 Parsing always terminates** — Diffs with an integer value are an explicit `hang` outcome of the model. The claim is false of the code (integer diff values loop forever); a concrete message witnesses it, and termination is proved whenever no such value occurs; for bencoded dicts it is proved exactly which ones hang the parser. *Status: partial* (`Verif.parse_terminates_partial`, `Verif.parse_hangs_iff`, `Verif.hang_ignores_signature`, `Verif.key_holder_hangs_merge`, `Verif.parse_may_hang`).
- **C08 Merging skips invalid messages** — Induction over the batch. Data that is not a bencoded dict throws outside the try block and aborts the whole merge: witness for the negation. *Status: partial* (`Verif.merge_skips_invalid_partial`, `Verif.merge_stops`, `Verif.parse_foreign_iff`, `Verif.junk_aborts_merge`, `Verif.huge_int_aborts_merge`).
- **C09 Applying the diff between two states to the old one gives the new one** — Mutual structural induction over nested dicts. *Status: proved* (`Verif.diff_then_apply`, `Verif.published_diff_replays`).
- **C10 The published diff is empty exactly when nothing changed** — From C09 (if) and reflexivity of the diff (only if). *Status: proved* (`Verif.diff_empty_iff`, `Verif.published_diff_empty_iff`).
- **C11 Diffs published by a client are accepted by other clients** — Structural induction. *Status: proved* (`Verif.diff_accepted`).
- **C12 Merging does not depend on the order of the messages** — The kept set, the maximum and the replay map are characterised independently of order. *Status: proved* (`Verif.merge_order_irrelevant`, `Verif.merge_depends_on_set`).
- **C13 Duplicate messages do not matter** — As C12. *Status: proved* (`Verif.merge_duplicates_irrelevant`, `Verif.merge_depends_on_set`).
- **C14 A merge result absorbs the messages it was made from** — The inputs are in the lagged diffs of the result or too old. *Status: proved* (`Verif.merge_absorbs_inputs`).
- **C15 A merge result has the highest seqno of its inputs, or one more** — Characterisation of the kept configs. *Status: proved* (`Verif.merge_seqno`).
- **C16 Merging never discards every message** — Maximum argument; for lag <= 0 the claim is false (witness). *Status: proved* (`Verif.merge_safe`, `Verif.highest_is_current`, `Verif.merge_lag_zero_ub`).
- **C17 Concurrent changes to different entries all survive a merge** — Pointwise semantics of apply over the replay list. *Status: proved* (`Verif.concurrent_updates`).
- **C18 In a conflict the message with the higher (seqno, hash) wins** — Last applied diff wins, replay is ascending. *Status: proved* (`Verif.highest_change_wins`, `Verif.concurrent_updates`).
- **C19 A client that cannot sign never fabricates a config** — Case analysis. *Status: proved* (`Verif.readonly_never_fabricates`, `Verif.readonly_takes_highest`).
- **C20 Messages too far behind are ignored** — It is redundant; the other messages do not change status. *Status: proved* (`Verif.too_old_ignored`).
- **C21 A message supersedes the message it was derived from** — The original appears in the lagged diffs of the derived message. *Status: proved* (`Verif.descendant_supersedes`).
- **C22 Merging is not aborted by a well-formed but inconsistent diff** — False of the code: set diffs with one list are accepted by the parser but rejected when applied; witness. Partial: batches of diffs that all come from honest clients never fail. *Status: partial* (`Verif.merge_succeeds_partial`, `Verif.merge_fails_iff`, `Verif.inconsistent_diff_aborts_merge`).
- **C23 A diff mentions only what changed, and all of it** — Leafwise effect of applying a diff to arbitrary data. *Status: proved* (`Verif.diff_touches_only_changes`, `Verif.diff_carries_changes`).
- **C24 Unknown top-level keys survive a merge** — False of the code for real merges (the result is built without unknown_); witness. Partial: kept when the result is one of the inputs. *Status: partial* (`Verif.unmerged_keeps_unknown_partial`, `Verif.merge_drops_unknown`, `Verif.real_merge_has_no_unknown`).
- **C25 Concurrent changes several steps apart all survive a merge** — False of the code: a record replayed with a content that has since lost the enclosing dict erases the whole dict; witnesses (a lost change, and a lost set element that later returns). Partial: the highest message is never overruled. *Status: partial* (`Verif.top_change_survives_partial`, `Verif.removed_dict_swallows_change`, `Verif.lost_element_returns`).
- **C26 A history lists only earlier versions** — Invariant of all constructors. *Status: proved* (`Verif.history_precedes`).
- **C27 Config encryption round-trips and rejects everything else** — AEAD and BLAKE2b as parameters with functional laws; the size-dependent key and the nonce suffix are explicit. *Status: proved* (`Verif.decrypt_encrypt`, `Verif.decrypt_sound`, `Verif.decrypt_short`, `Verif.decrypt_errors`, `Verif.encrypt_refuses`).
- **C28 Padding hides the length and is removed exactly** — Arithmetic on the bucket function; dropWhile. *Status: proved* (`Verif.padded_total`, `Verif.pad_buckets`, `Verif.paddedSize_mono`, `Verif.paddedSize_idem`, `Verif.unpad_pad`, `Verif.unpad_id`).
- **C29 The sequence number never goes back** — Inductive execution relation, invariant, and a case analysis of each call. *Status: proved* (`Verif.seqno_never_decreases`, `Verif.seqno_restored`, `Verif.negative_seqno_lowers`, `Verif.noncanonical_goes_back`).
- **C30 A sequence number identifies the content that was published** — Same invariant as C29. *Status: proved* (`Verif.seqno_identifies_content`, `Verif.pushes_agree`).
- **C31 Pending changes stay pending until they are known elsewhere** — Case analysis of each call; merge outcome lemma. *Status: proved* (`Verif.pending_until_confirmed`).
- **C32 A confirmation applies only to what was pushed** — Corollary of C29 and C30. *Status: proved* (`Verif.confirm_after_push`, `Verif.stale_confirm_ignored`, `Verif.edit_outlives_old_confirm`).
- **C33 A client without signing key never tries to publish** — Invariant. *Status: proved* (`Verif.readonly_never_pending`).
- **C34 A pushed config is delivered exactly** — Envelope inverse lemmas, then the message merge outcome for two messages. *Status: proved* (`Verif.delivery`, `Verif.receive_head`, `Verif.receive_any`, `Verif.receive_unwrapped`, `Verif.receive_unwrapped_sent`).
- **C35 Clients converge** — Set dependence of the message merge (C05) lifted to objects. False for objects that cannot sign: witness readonly_diverges. *Status: proved* (`Verif.convergence`, `Verif.readonly_diverges`).
- **C36 merge returns exactly the accepted messages, and junk is harmless** — Index bookkeeping of all_confs / bad_confs. *Status: proved* (`Verif.merge_returns_accepted`, `Verif.junk_ignored`, `Verif.receive_iff`, `Verif.accepts_iff`, `Verif.nothing_usable_throws`).
- **C37 The hash of the live config is never reported as obsolete** — False of the code (two witnesses): the index of the message used counts only valid messages but is applied to all of them; a copy of the own message read before its confirmation is obsolete. Partial: batches without invalid messages and with fresh hashes. *Status: partial* (`Verif.merge_obsolete`, `Verif.adopted_hash_partial`, `Verif.live_hash_made_obsolete`, `Verif.own_copy_made_obsolete`).
- **C38 dump and load preserve the object** — Round trip of the bencoded dump and of the message in it. *Status: proved* (`Verif.dump_roundtrip`, `Verif.seqno_restored`).
- **C39 needs_dump is true whenever a crash would lose something** — False of the code: a second edit while dirty, and new obsolete hashes, do not set the flag (witnesses). Partial: everything else is preserved. *Status: partial* (`Verif.needs_dump_partial`, `Verif.needs_dump_misses_only`, `Verif.needs_dump_misses_edit`, `Verif.needs_dump_misses_obsolete`).
- **C40 The next update supersedes the previous push** — False of the code for signed configs after a reload (the dump lacks the signature, so the hash differs; witness). Proved without reload, and with reload for unsigned configs. *Status: partial* (`Verif.next_lists_pushed`, `Verif.next_lists_reloaded_partial`, `Verif.next_lists_reloaded_iff`, `Verif.reload_pending_lists`, `Verif.reload_forgets_signed_push`).
- **C41 The list of encryption keys stays well-formed and ordered** — List lemmas, invariant. *Status: partial* (`Verif.keys_wellformed`, `Verif.add_key_front`, `Verif.add_key_back`, `Verif.add_key_refuses`, `Verif.remove_key_removes`, `Verif.replace_keys_sets`, `Verif.new_front_key_dirties`, `Verif.push_follows_front`, `Verif.remove_from_marks`, `Verif.remove_from_marks_case`).
- **C42 No incoming message can fail an assertion in merge** — False of the code for new objects and for read-only objects (witnesses). Partial: objects that hold a config and can sign; for the others, exactly which messages do it. *Status: partial* (`Verif.asserts_hold_partial`, `Verif.asserts_new_iff`, `Verif.asserts_readonly_iff`, `Verif.assert_fails_on_new_object`, `Verif.assert_fails_readonly`).
- **C43 A field reads back what was written to it** — Verif/Proxy.lean models the proxy on values; the lemmas about putAt/delAt are by induction on the path. Verif/Neat.lean: an object without unpublished edits has canonical data, so going dirty does not change it. *Status: proved* (`Verif.assign_get`, `Verif.erase_get`, `Verif.assign_empty`, `Verif.set_insert_get`, `Verif.set_erase_get`, `Verif.field_error`, `Verif.field_succeeds`).
- **C44 A push becomes necessary exactly when something changed** — Case analysis of the shortcuts plus the read-back theorems of C43. set_erase on a missing field violates the last part: witness set_erase_missing_dirties. *Status: partial* (`Verif.rewrite_is_noop`, `Verif.change_is_pending`, `Verif.pending_is_change`, `Verif.set_erase_missing_dirties`).
- **C45 What is written on one device is read on the others** — Composition of delivery (C34) with the interplay of pruning and lookups (valAt_pruneD). *Status: proved* (`Verif.fields_delivered`).
- **C46 A contact reads back as it was set, and setting one changes only that one** — Verif/Contacts.lean models the load/set functions field by field on top of the proxies of C43 (Verif/Records.lean: a sequence of writes to non-nested paths; Verif/Table.lean: tables of records; Verif/Hex.lean: ids). The normal form that is stored is spelled out in Contact.norm; Contact.Valid.norm_eq says it is the identity on valid records. *Status: proved* (`Verif.contact_set_get`, `Verif.Contact.Valid.norm_eq`, `Verif.contact_set_error`, `Verif.contact_rewrite_noop`, `Verif.contact_update`, `Verif.contact_setters`, `Verif.contact_setters_succeed`, `Verif.contact_erase`, `Verif.sameId_iff`, `Verif.valid_id_iff`, `Verif.id_spells`).
- **C47 Iterating over the contacts yields exactly the contacts** — Induction over the sorted dict; hex encoding is injective (fromHex_toHex). *Status: proved* (`Verif.contact_iter`).
- **C48 A contact set on one device is the contact read on the others** — Composition of C46 with delivery_full (C34); records survive pruning because the name is always present (getContact_pruned). *Status: proved* (`Verif.contact_delivered`).
- **C49 Reading a contact and writing it back through the C interface changes nothing** — Contact.viaC composes the two conversions. False of the code in two ways (mute_until lost; copy_c_str overflows for strings that do not fit); the part that holds is contact_via_c_partial. *Status: partial* (`Verif.contact_via_c_partial`, `Verif.contact_via_c_sound`, `Verif.contact_via_c_fails`).
- **C50 The profile reads back as it was set, here and on other devices** — Verif/Profile.lean; each setter is a write to top-level fields, fields_delivered (C45) for the other device. *Status: proved* (`Verif.profile_set`, `Verif.profile_delivered`).
- **C51 Community server URLs and rooms have one normal form** — Verif/Community.lean models the scanners; soundness and completeness against a declarative grammar (Spells), by induction. *Status: proved* (`Verif.canonical_url_iff`, `Verif.canonical_url_case`, `Verif.canonical_url_idem`, `Verif.canonical_room_iff`, `Verif.canonical_room_case`).
- **C52 A full community URL parses back to its parts** — Lemmas on first/last occurrences of a pattern; no /r/ can occur inside a normal-form base. *Status: proved* (`Verif.full_url_roundtrip`).
- **C53 Parsing a community URL through the C interface never writes outside the buffers** — False of the code: the room is not validated when parsing (witness c_parse_overflows). c_parse_in_bounds_partial: a room that is too long is the only way to overflow. *Status: partial* (`Verif.c_parse_in_bounds_partial`, `Verif.c_parse_oxenc_partial`, `Verif.c_parse_overflows`).
- **C54 Conversation read states read back as set** — Verif/Convo.lean models the class on top of the proxies (C43-C45); the clock is a parameter. *Status: proved* (`Verif.convo_set_get`, `Verif.convo_set_error`, `Verif.convo_erase`).
- **C55 Setting a last-read time never causes undefined behaviour** — False of the code: milliseconds are converted to nanoseconds, which overflows after the year 2262 (witness convo_set_overflows). convo_set_error: every earlier time is accepted. *Status: partial* (`Verif.convo_set_error`, `Verif.convo_set_overflows`).
- **C56 Pruning removes exactly the stale conversations** — Induction over the collected ids. False of the code for groups: they are never pruned (prune_ignores_groups). *Status: partial* (`Verif.prune_stale_partial`, `Verif.push_prunes_partial`, `Verif.prune_exact`, `Verif.push_prunes_convos`, `Verif.push_prunes_comms`, `Verif.prune_succeeds`, `Verif.prune_ignores_groups`, `Verif.prune_takes_namesake`).
- **C57 Iterating over conversations yields what get finds** — Iteration as filterMap/flatMap over the sorted tables. *Status: proved* (`Verif.convo_iter`, `Verif.comm_iter`).
- **C58 Community read states read back as set; the key is per server** — Path disjointness lemmas over the nested records. *Status: proved* (`Verif.comm_set_get`, `Verif.comm_erase`).
- **C59 Edits made concurrently on any number of devices are combined** — Verif/Props/Network.lean: devices as an inductive set of client states; an invariant (PInv) that every device config is an honest history, carries the hash of its own serialisation and re-serialises to the same bytes; so updates made on different devices are children of one config, and the merge of children of one config is C17 and C18. *Status: proved* (`Verif.edits_combine`, `Verif.edits_combine_line`, `Verif.edit_survives`, `Verif.team_peer`).
- **C60 Contacts set concurrently on several devices all survive** — Corollary of C59 and C46: sets are edits; a device leaves the records alone that it does not set; the contact read is a function of the scalars of its record. *Status: proved* (`Verif.contacts_combine`).
- **C61 Multi-recipient encryption delivers to each recipient its own message** — Verif/Multi.lean, Verif/Props/Multi.lean: X25519, BLAKE2b and the AEAD are parameters with laws (commutativity of the key exchange, decryption inverts encryption and accepts nothing else); that an entry for somebody else does not open under ones key by accident is a hypothesis about those two keys. *Status: proved* (`Verif.multi_roundtrip`, `Verif.multi_outsider`, `Verif.multi_vector_roundtrip`, `Verif.multi_invalid_recipients`).
- **C62 What multi-recipient decryption returns was encrypted by the named sender for this recipient** — Soundness of the lazy bt reader (what it returns occurs in the input) and of the first-match loop. *Status: proved* (`Verif.multi_authentic`, `Verif.multi_vector_authentic`, `Verif.multi_key_separation`).
- **C63 Filler entries and default nonce of multi-recipient encryption** — The count is proved; the size claim and the empty nonce are refuted for all inputs: the filler is 16 bytes shorter than every real entry, and the Ed25519 overload with the default (empty) nonce always throws. *Status: partial* (`Verif.multi_filler_partial`, `Verif.multi_filler_size_differs`, `Verif.multi_ed_default_nonce_throws`).
- **C64 The group encryption key is the newest key received, independent of order** — Verif/GroupKeys.lean models the Keys object; an invariant over all reachable states (GroupKeysInv) relates it to the log of messages loaded. The assumption is shown necessary. *Status: proved* (`Verif.enc_key_newest`, `Verif.enc_key_agree`, `Verif.enc_key_needs_same_times`).
- **C65 Which group keys are held** — Invariant over reachable states; that the order of timestamps is needed is shown by a counterexample. *Status: proved* (`Verif.keys_held`, `Verif.keys_listed`, `Verif.keys_held_exactly`, `Verif.keys_held_agree`, `Verif.held_needs_times_in_order`).
- **C66 The key messages to keep on the swarm** — Part of the same invariant. *Status: proved* (`Verif.current_hashes_cover`, `Verif.other_message_kept`).
- **C67 A restored Keys object behaves as the one that was dumped** — The dump is encoded with the bt model and read with the lazy consumer model; the round trip uses the invariant (sortedness, value ranges). *Status: proved* (`Verif.keys_restore`).
- **C68 needs_dump of the group keys** — Proved for keys and pending rekey; refuted for message hashes (a known key arriving under a new hash). *Status: partial* (`Verif.keys_needs_dump_partial`, `Verif.keys_reload_loses_only`, `Verif.needs_dump_misses_hash`).
- **C69 needs_rekey detects conflicting rekeys** — From the invariant. *Status: proved* (`Verif.needs_rekey_iff`).
- **C70 A rekey reaches every member and takes over** — Construction and parsing of the signed message over the bt model; primitives with functional laws; no accidental opening of somebody elses entry is an explicit hypothesis. *Status: proved* (`Verif.rekey_succeeds`, `Verif.rekey_reaches`, `Verif.rekey_newer`, `Verif.rekey_deterministic`, `Verif.new_key_takes_over`, `Verif.toy_rekey`, `Verif.rekey_fresh`).
- **C71 Group key messages are authenticated** — Soundness of the lazy bt reader and of the two decryption loops. *Status: proved* (`Verif.keymsg_authentic`).
- **C72 A key supplement gives a new member the keys of the group** — As C70. *Status: proved* (`Verif.supplement_reaches`, `Verif.supplement_fresh`).
- **C73 Group messages reach every holder of the key** — Verif/GroupMsg.lean, Verif/Props/GroupMsg.lean: bt model for the dict, the Keys state machine for the keys; zstd and ciphers are parameters with laws; that no other key of the receiver opens the ciphertext is an explicit hypothesis. *Status: proved* (`Verif.message_roundtrip`, `Verif.receiver_holds_key`, `Verif.message_refused`, `Verif.message_padded`, `Verif.empty_message_lost`).
- **C74 Group messages are attributed to their author** — Soundness of reading; the decompression loop is modelled chunk by chunk. *Status: proved* (`Verif.message_authentic`, `Verif.unzip_iff`).
- **C75 Promotion to admin** — Direct, with C70. *Status: proved* (`Verif.promotion`).
- **C76 XEd25519 signatures verify** — Abstract group of prime order with y-coordinates over a prime field, signs and the Ed25519 encoding; scalar arithmetic on 32 bytes is concrete; the map between Edwards y and Montgomery u is computed in the field. *Status: proved* (`Verif.xed_roundtrip`, `Verif.xed_account`, `Verif.xed_pubkey`, `Verif.xed_unclamped_fails`).
- **C77 15-blinded ids** — Over the abstract curve; kA = ±k|A|. *Status: proved* (`Verif.blind15_ids`, `Verif.blind15_keypair`, `Verif.blind15_signs`, `Verif.matches15_own`, `Verif.matches15_sound`).
- **C78 25-blinded ids** — Over the abstract curve; k'A = k|A|. *Status: proved* (`Verif.blind25_ids`, `Verif.blind25_keypair`, `Verif.blind25_signs`, `Verif.matches25_own`, `Verif.matches_sound`, `Verif.matches_uppercase_fails`, `Verif.matches_short_ub`).
- **C79 Group subaccounts** — Over the abstract curve; binary output of swarm_subaccount_sign. *Status: proved* (`Verif.subaccount_roundtrip`, `Verif.subaccount_sound`, `Verif.subaccount_topbit`).
- **C80 Messages to a session id** — Over the abstract curve with X25519 as commuting Diffie-Hellman and an ideal box; sealed boxes are built from them as in libsodium. *Status: proved* (`Verif.recipient_roundtrip`, `Verif.recipient_deterministic`, `Verif.incoming_signed`, `Verif.incoming_authentic`).
- **C81 Messages to a blinded id** — Over the abstract curve with an ideal AEAD; the forged message is exhibited on a small group with coordinates modulo a 253-bit prime. *Status: proved* (`Verif.blinded15_roundtrip`, `Verif.blinded25_roundtrip`, `Verif.blinded25_sender`, `Verif.blinded15_sender`, `Verif.blinded15_forged`, `Verif.blinded15_alternative_unreadable`, `Verif.blinded_empty_recipient_ub`).
- **C82 ONS responses and push notifications** — The AEAD is ideal. *Status: proved* (`Verif.ons_response`, `Verif.push_notification`, `Verif.push_notification_sound`, `Verif.push_notification_empty`).
- **C83 A group reads back as it was set, with its admin key only if it is the key of that group** — Verif/UserGroups.lean models the functions on top of a generic table of records (Verif/RecTable.lean); crypto_sign_seed_keypair is a parameter pub. group_admin_lost shows two surprising behaviours of the code: an upper-case id loses the admin key, and stale authentication data is kept. *Status: proved* (`Verif.group_set_get`, `Verif.group_set_error`, `Verif.group_erase`, `Verif.group_kicked`, `Verif.group_created`, `Verif.group_admin_lost`).
- **C84 A legacy group reads back as it was set, with its members and admins** — Same generic layer; the two stored sets are characterised by membership (memberSet_spec, loadSet_spec). *Status: proved* (`Verif.legacy_set_get`, `Verif.legacy_set_error`, `Verif.legacy_erase`, `Verif.legacy_members`, `Verif.Legacy.Valid.norm_eq`, `Verif.legacy_member_spellings`).
- **C85 A community reads back as it was set, under every spelling of its URL** — Writes to non-nested paths (writeAll_get), URL normal forms from C51. *Status: proved* (`Verif.ucomm_set_get`, `Verif.ucomm_set_error`, `Verif.ucomm_erase`).
- **C86 Iterating over the groups yields exactly the groups** — recs_spec over the sorted table; mem_ucomms for the nested table of servers and rooms. *Status: proved* (`Verif.group_iter`, `Verif.legacy_iter`, `Verif.ucomm_iter`, `Verif.ucomm_set_canon`, `Verif.all_groups_iter`, `Verif.all_groups_size`).
- **C87 Whatever is stored, what is read is well-formed** — Case analysis of the load functions; no hypothesis on the data. *Status: proved* (`Verif.read_sound`).
- **C88 A group set on one device is the group read on the others** — Composition with delivery_full (C34); records survive pruning because "K" / "n" is always written. *Status: proved* (`Verif.group_delivered`, `Verif.legacy_delivered`, `Verif.ucomm_delivered`).
- **C89 Reading a group and writing it back through the C interface changes nothing** — viaC composes the two conversions. False of the code for over-long names stored by other devices (buffer overflow) and for communities of servers without a key (over-read of 32 bytes). *Status: partial* (`Verif.group_via_c_partial`, `Verif.legacy_via_c_partial`, `Verif.ucomm_via_c`, `Verif.ugroups_via_c_sound`, `Verif.ugroups_via_c_fails`).
- **C90 Members added to a legacy group on different devices all survive** — Composition of edits_combine (C59) with the stored shape of the group. Needs that no device removes the last plain member or admin: otherwise false (legacy_member_lost), since an emptied set is published as the removal of the field. *Status: partial* (`Verif.legacy_members_combine`, `Verif.legacy_members_line`, `Verif.legacy_member_lost`).
- **C91 A group member reads back as it was set** — Verif/GroupMembers.lean on top of the generic record table (Verif/RecTable.lean). *Status: proved* (`Verif.gmember_set_get`, `Verif.gmember_set_error`, `Verif.gmember_erase`, `Verif.gmember_or`, `Verif.gmember_status`, `Verif.gmember_status_now`, `Verif.GMember.Valid.norm_eq`).
- **C92 Iterating over the members yields exactly the members** — Recursion over the table as the iterator does; recs_spec. *Status: proved* (`Verif.gmember_iter`).
- **C93 Whatever is stored, a member read is well-formed, and it is the member the admin stored** — Case analysis of load; composition with delivery_full (C34). *Status: proved* (`Verif.gmember_read_sound`, `Verif.gmember_delivered`).
- **C94 Each setter of the group info changes its own value only, and the members see it** — Fields layer (C43) applied to each key; fields_delivered (C34/C43) for the other device. *Status: proved* (`Verif.ginfo_set`, `Verif.ginfo_read`, `Verif.ginfo_delivered`).
- **C95 Reading a group member and writing it back through the C interface changes nothing** — viaC composes the two conversions. False of the code for over-long names or URLs stored by other devices and for statuses this version does not know. *Status: partial* (`Verif.gmember_via_c_partial`, `Verif.gmember_via_c_sound`, `Verif.gmember_via_c_fails`).
- **C96 Keys, Info and Members always agree on the encryption keys** — Verif/GroupState.lean composes the models of Keys, Info and Members; inductive invariant over GReach. *Status: proved* (`Verif.group_keys_in_step`, `Verif.group_load_only_keys`).
- **C97 A rekey reaches the listed members, on all three objects** — Composition of rekey_reaches, new_key_takes_over (C70, C64) with iteration over Members (C92) and C96. *Status: proved* (`Verif.group_rekey_effects`, `Verif.group_rekey_reaches`, `Verif.member_no_pending`).
- **C98 What one device of a group publishes, the others see** — delivery_received (C34 generalised to any position of the key) with C96; equality of the member lists from sortedness. *Status: proved* (`Verif.group_info_delivered`, `Verif.group_members_delivered`, `Verif.members_named`).
- **C99 Protobuf envelopes carry config messages unchanged** — Verif/Protos.lean models the protobuf wire format and the five message types; round trip by induction over field lists, composed with C80. *Status: proved* (`Verif.unwrap_wrap`, `Verif.unwrap_other_namespace`, `Verif.wrap_ok`, `Verif.unwrap_signed`, `Verif.proto_good`).
- **C100 Onion requests to a service node reach it through the hops in order, and its reply comes back** — Verif/Onion.lean models builder, hop encryption and parsers over abstract primitives; induction over the hops with the invariant that a blob passes through the rest of the path whatever metadata precedes it. *Status: proved* (`Verif.onion_to_snode`).
- **C101 Onion requests to a server reach it with the payload intact** — As C100. False for payloads with a NUL byte (the payload is passed as a C string) and for ports left out after an earlier destination gave one. *Status: partial* (`Verif.onion_to_server_partial`, `Verif.onion_server_payload_cut`, `Verif.onion_port_sticky`).
- **C102 Only the destination can produce a response** — Inversion of decrypt, with AEAD decryption accepting only what was sealed. *Status: proved* (`Verif.response_authentic`).
- **C103 A node accepts only well-formed, sealed requests within the size limit** — Inversion of the parser. *Status: proved* (`Verif.onionParse_sound`, `Verif.onionParse_safe`).
- **C104 A request goes to the destination set last** — Proved for server destinations with a port, and for service nodes if no server was ever set; refuted otherwise. *Status: partial* (`Verif.onion_to_server_partial`, `Verif.onion_to_snode`, `Verif.onion_snode_after_server`, `Verif.onion_port_sticky`).
- **C105 Merging bencoded dicts and sorted lists** — Verif/BtMerge.lean models both loops; induction over the two inputs. *Status: proved* (`Verif.btMerge_spec`, `Verif.mergeSorted_spec`).
- **C106 Key pairs, signatures and conversions agree with each other** — Verif/KeyApi.lean over the abstract curve of C76; the algebra of Curve.Good. *Status: proved* (`Verif.ed_api`, `Verif.key_api_lengths`, `Verif.hash_api`, `Verif.curve_pair`).
- **C107 C functions for keys, signatures and hashes stay within their output buffers** — Buffers are byte lists of the documented length, a copy beyond the end is undefined behaviour. False of session_curve25519_key_pair, which copies a 64-byte array into a 32-byte buffer. *Status: partial* (`Verif.c_crypto_in_bounds_partial`, `Verif.curve25519_key_pair_overflows`).
- **C108 Memory blocks handed to C programs hold what they should** — Verif/CMem.lean: a block is an address and its bytes, pointers are 8 little-endian bytes, a store outside is undefined behaviour; induction over the list. *Status: proved* (`Verif.make_string_list_ok`, `Verif.config_push_ok`, `Verif.config_get_keys_ok`).
- **C109 C getters report an invalid id in last_error and nothing else** — Verif/CErr.lean models the buffer of 256 bytes and strcpy. False of ids of 191 bytes or more: the message overflows the buffer. *Status: partial* (`Verif.c_get_reports_partial`, `Verif.c_group_get_reports`, `Verif.c_error_fits`, `Verif.c_get_overflows`, `Verif.c_set_throws`, `Verif.c_erase`).
- **C110 Iterating over the members of a legacy group from C** — Verif/CIter.lean models iterators into an ordered map; induction over the members not yet shown. *Status: proved* (`Verif.member_iteration`, `Verif.keptFrom_eq`).
- **C111 Buffers for secret keys behave like values** — Verif/Sodium.lean: a heap of blocks, use of a freed block is undefined behaviour; an invariant (each block is owned by exactly one variable). False of move assignment, which has no return statement. *Status: partial* (`Verif.sodium_array_values_partial`, `Verif.sodium_move_assign_ub`).
- **C112 get_or_construct gives what get finds, otherwise an empty record** — Case analysis; the URL round trip of C52 for rooms in any spelling. *Status: proved* (`Verif.or_construct`, `Verif.ucomm_or`, `Verif.comm_convo_or`, `Verif.comm_by_url`, `Verif.comm_by_hex`, `Verif.ucomm_found_by_url`).
- **C113 Helper functions do what their descriptions say** — Verif/Helpers.lean. False of starts_with, which compares the wrong part, and of SessionID::hex, which writes the byte 5 instead of the digits 05. *Status: partial* (`Verif.string_iequal_spec`, `Verif.end_with_spec`, `Verif.starts_with_wrong`, `Verif.session_id_hex_wrong`).
- **C114 C functions for encrypted messages deliver exactly what the C++ functions return** — Verif/CEnc.lean: copies outside the destination are undefined behaviour; the C++ functions are shown free of it and the lengths of their results computed. *Status: proved* (`Verif.c_encryption`, `Verif.c_group_messages`).
- **C115 C functions for subaccounts fill exactly the documented buffers** — Lengths of the results; base64 decoding undoes encoding. *Status: proved* (`Verif.c_subaccounts`, `Verif.readB64_toB64`).
- **C116 groups_keys_swarm_verify_subaccount requires write permission** — False: the C++ defaults require neither permission, and nothing catches the exception for an invalid group id. *Status: partial* (`Verif.c_verify_subaccount_partial`, `Verif.c_verify_subaccount_wrong`).
- **C117 Multi-recipient messages can be read with any of the functions** — Verif/CMulti.lean, on top of C61. *Status: proved* (`Verif.multi_any_api`, `Verif.multi_ed_form`, `Verif.multi_c_failure`).
- **C118 A member given the group secret key becomes an admin without losing anything** — Reach and GReach are families indexed by the device keys, with a promotion step, so every theorem about reachable objects covers promoted ones; Verif/Promotion.lean. *Status: proved* (`Verif.load_admin_key`, `Verif.promoted_can_edit`, `Verif.promoted_loads_old_dumps`, `Verif.promoted_publishes`).
- **C119 What an object signs passes its own verifier** — State machine SigKeys; induction over the calls. *Status: partial* (`Verif.sig_keys_partial`, `Verif.sig_calls`, `Verif.sig_init`, `Verif.sig_pubkey_keeps_signer`).
- **C120 A loop over a config shows every record exactly once and ends** — Iterators as the state machines of the code (Verif/Iter.lean); invariant: what is still to come equals the rest of the list. *Status: proved* (`Verif.convo_loop`, `Verif.ugroup_loop`, `Verif.contacts_loop`, `Verif.gmembers_loop`).
- **C121 Records set and erased on different devices at the same time all take effect** — Frame lemma for each call (other records are left alone) composed with the exchange theorem of C59; KeepsWay says the device did not remove the table. Counterexample erase_last_loses proved for the real code. *Status: partial* (`Verif.contact_combines_partial`, `Verif.group_combines_partial`, `Verif.member_combines_partial`, `Verif.convo_combines_partial`, `Verif.community_combines_partial`, `Verif.community_get_combines_partial`, `Verif.keeps_untouched`, `Verif.keeps_nonempty`, `Verif.erase_last_loses`).
- **C122 A public key means the same in every text form** — Encoders and decoders of oxen-encoding written out digit by digit; round trips by structural induction on the bytes, lengths of decoded values by induction on the digits; then case analysis on the accepted lengths. *Status: partial* (`Verif.key_form_read`, `Verif.text_forms`, `Verif.full_url_any_form`, `Verif.comm_any_form`, `Verif.key_form_inj`, `Verif.key_length_partial`, `Verif.onion_key_types`, `Verif.oxenc_fits`, `Verif.short_key_accepted`).
- **C123 Onion requests through the C interface** — C calls are decoded by a relation Says to the calls of C100/C101; induction over the calls shows that the builder is the C++ one, then the theorems C100-C102 are composed with characterisations of the C build and decrypt functions. *Status: partial* (`Verif.c_call_iff`, `Verif.c_call_in_bounds`, `Verif.c_build_iff`, `Verif.c_decrypt_iff`, `Verif.c_onion_to_snode`, `Verif.c_onion_to_server_partial`, `Verif.c_decrypt_authentic`, `Verif.c_setters_throw`).
- **C124 Communities and conversations through the C interface** — C functions as frames around the C++ getters of C58 and C85, structs with explicit copies (too long or too short: undefined behaviour); the loops are composed with C120 by induction over the rounds. A server stored without a 32-byte key makes the getter read out of bounds: shown by c_comm_overread. *Status: partial* (`Verif.c_comm_get_partial`, `Verif.c_ucomm_get_partial`, `Verif.c_comm_overread`, `Verif.c_convo_back`, `Verif.c_comm_set_get`, `Verif.c_comm_erase`, `Verif.c_convo_loop`, `Verif.c_ugroup_loop_partial`, `Verif.c_legacy_members`, `Verif.c_group_kicked`).
- **C125 community objects stay well-formed under all setters** — The object as a record, setters as functions that return the new object and the outcome; the invariant by induction over the calls; set composes with C85 (ucomm_set_get). The two cases that do not hold are shown by set_full_url_half and comm_obj_short_key with concrete instances. *Status: partial* (`Verif.comm_obj_always`, `Verif.comm_setters`, `Verif.set_full_url_half`, `Verif.comm_obj_url`, `Verif.comm_obj_set`, `Verif.comm_obj_set_get`, `Verif.comm_obj_short_key`, `Verif.c_parse_partial_url_partial`).
- **C126 Config encryption, padding sizes and random bytes through the C interface** — C frames around encrypt and decrypt of C27 with explicit reads of buffers; padded_size with arithmetic modulo 2^64, proved equal to the one of C28 below the overflow; the overflow and the documented "always >= s + overhead" are refuted by c_padded_size_limits. *Status: proved* (`Verif.c_config_roundtrip`, `Verif.c_config_decrypt_sound`, `Verif.c_config_encrypt_fails`, `Verif.c_padded_size`, `Verif.c_padded_size_limits`, `Verif.c_random`).
- **C127 Group keys through the C interface** — The C frames over the three-object model of C96, with the error buffer, C strings and buffer reads explicit; the invariant (a history all of whose hashes are C strings, a buffer of 256 bytes) is kept by every call. Generations beyond int are the missing part: current_generation converts int64_t to int (c_keys_generation_wraps). The header declares groups_keys_get_key while the source defines group_keys_get_key, and documents a groups_keys_free that does not exist: neither can be expressed here. *Status: partial* (`Verif.c_keys_call`, `Verif.c_keys_run`, `Verif.c_keys_between`, `Verif.c_keys_by_index`, `Verif.c_keys_hashes`, `Verif.c_keys_restart`, `Verif.c_rekey_reaches`, `Verif.c_load_admin`, `Verif.c_keys_generation_partial`, `Verif.c_keys_generation_wraps`).
- **C128 Config objects through the C interface** — The C frames of CBase over the object of C29-C41, with the blocks of C108. CReach: all histories of C calls; every such object is a reachable object of the C++ model whose hashes contain no NUL (CReach.inv), which is what makes them readable. What the model shows beside: config_merge and config_push have no exception handler, so an exception of merge or push leaves through the C interface; config_key out of range is undefined; malloc is unchecked everywhere; config_free does not free the internals (a leak, not expressible here). *Status: proved* (`Verif.c_init`, `Verif.c_merge_reads`, `Verif.c_push_reads`, `Verif.c_hashes_reads`, `Verif.c_keys_read`, `Verif.c_keys_count`, `Verif.c_restart`, `Verif.c_sync`).
- **C129 User profile and group description through the C interface** — The C frames of CProfile over the setters of C50 and C94; each call is a list of writes (IsWrites), so its effect follows from the generic write lemmas. What fails, and is proved to fail: the picture getters write beyond the struct if and only if a stored URL has 224 bytes or more, which the C++ setters of the base and other clients can store (c_pic_overflow, c_profile_fails); timers beyond int are shown wrapped (c_profile_fails); on a member's object the void setters let the exception out through the C interface (c_info_member). *Status: partial* (`Verif.c_profile_call`, `Verif.c_profile_run`, `Verif.c_info_call`, `Verif.c_info_run`, `Verif.c_info_member`, `Verif.c_shown_by_content`, `Verif.c_pic_overflow`, `Verif.c_profile_fails`, `Verif.c_group_init`, `Verif.c_group_restart`).
- **C130 Recovery from an old dump** — An invariant over the life of the device after the dump (Life.after): the messages it would publish list the dumped config or are lag ahead; through a merge it follows from follows_current (of a batch whose listed histories are transitive one of the current messages follows what any follows). Then delivery (C34). What fails, and is proved to fail: a dump taken while modifications are unpublished is turned into a config of its own on loading, and may win over the newer values pushed later (dirty_dump_revives_old_value). *Status: proved* (`Verif.crash_recovery`, `Verif.Life.after`, `Verif.merge_own_again`, `Verif.merge_after`, `Verif.crash_recovery_world`, `Verif.dirty_dump_revives_old_value`).
- **C131 The history listed by messages is complete** — Trans: by induction over the states of the devices (Node), for each way a config comes about (increment, merge of conflicting messages, adoption, loading of a dump) the list of ancestors contains with a config also what that one lists; a config is identified by seqno and hash (Node.same, from the absence of collisions in the set W of configs that occur). Then HistoryClosed (the hypothesis of C14) holds for every batch, and Life.after (C130) applies. *Status: proved* (`Verif.histories_closed`, `Verif.history_kept`, `Verif.catches_up`, `Verif.crash_recovery_world`, `Verif.Node.trans`).
- **C132 A rekey shuts out everyone it does not list** — IsRekey/SealedFor say exactly what a rekey message is made of (rekey_contents, both directions); the assumption Shut is about the ciphertexts of that one message, not about the cipher for all messages. The member branch of load_key_message is evaluated on it: no ciphertext opens, so no key is stored and only the active hash is recorded. A member merely flagged with set_removed is still listed and still gets the new key (C97): erase is what excludes. *Status: proved* (`Verif.rekey_contents`, `Verif.supplement_contents`, `Verif.rekey_excludes`, `Verif.supplement_excludes`, `Verif.removed_member_shut_out`, `Verif.without_the_key`, `Verif.merge_unreadable`).
- **C133 Merging what one's own devices published never fails** — DiffsOk is an invariant of the reachable devices (Peer.diffsOk): every diff a config lists, and its own, changes sets only by strings and integers - diffs are computed by diff_impl from typed data, and lists of diffs are only passed on. With merge_succeeds_partial (C22) the merge succeeds. Assumes no hash collisions in the batch and seqnos below 2^63 - lag. *Status: proved* (`Verif.merge_never_fails`).
- **C134 What a device has merged or published changes nothing when it arrives again** — merge_after_any: after a merge the config follows (is, lists, or is lag ahead of) every message that took part; Onward.after: it goes on following; merge_known: merging what is followed changes nothing. Uses that listed histories are transitive (C131). False in one corner: the message was merged while the unpublished config of the device was identical to it, and the device modified that further (twin_edit_revived). *Status: partial* (`Verif.redelivery_changes_nothing_partial`, `Verif.merge_after_any`, `Verif.merge_known`, `Verif.twin_edit_revived`).
- **C135 Devices that stop editing agree after one exchange, and then stay silent** — Round/Settled describe the exchange; one_round_agrees combines C133, C35 (convergence) and Round.after (each device follows what every other held) with the absence of hash collisions; then_silence is merge_known for the common config; push_same: the pushed bytes are a function of config and key. Same front encryption key on all devices (round_of_pushes). *Status: proved* (`Verif.one_round_agrees`, `Verif.then_silence`, `Verif.push_same`, `Verif.round_of_pushes`).
- **C136 Contacts, members, groups and legacy groups behave as maps, whatever happens in between** — The specification is an abstract map (RecMap) with a relation Says between a call, its result and the map afterwards, shown deterministic by says_unique; MapRun are the histories. Proved by a forward simulation: Holds (the stored table is clean and its view is the map) is preserved by every call (call_says) and by every event in between (between_holds). Conversations are not included: their set may drop a record when it is pushed (C56). *Status: proved* (`Verif.collections_are_maps`, `Verif.says_unique`).
- **C137 Contacts, members, groups and legacy groups through the C interface behave as maps** — CStructs models the structs as memory (arrays of bytes with their previous contents) and the C functions over them. CSays is the specification: a map, with predicates ContactShown/ContactMeant etc. saying which bytes of a struct hold a record and what the library takes a struct for. c_collections_are_maps is a simulation on top of that of C136 with the extra invariant that every stored record fits the struct (CClean); c_get_set_keeps follows from the fact that a shown record is meant again; c_struct_roundtrip connects the memory model with the conversions of C49, C89 and C95. *Status: proved* (`Verif.c_collections_are_maps`, `Verif.c_get_set_keeps`, `Verif.c_struct_roundtrip`, `Verif.c_struct_kicked`, `Verif.c_set_free`).
- **C138 Conversations behave as one book with pruning, whatever is done in between** — Book is the specification: optional conversations by kind and lower-case id and by canonical server and room, and the key of every server; BookSays says what it answers, deterministically (book_unique). BookHolds relates the data of the object to a book: every entry is a dict under a valid key or canonical name, reads as the book says, and every server with a room has its key. call_book shows that every call preserves it (setBase_exact computes set_base exactly, including when it stores nothing; prune_book lifts C56; rooms_lists and ids_lists give the iteration order and size), between_book that what happens in between drops at most empty conversations, and conversations_are_a_book is the induction over the history. *Status: proved* (`Verif.conversations_are_a_book`, `Verif.book_behaves`, `Verif.book_unique`).
- **C139 The list of groups behaves as one object, whatever is done in between** — Roll is the specification: maps of groups and legacy groups as in C136, rooms by canonical server and room with their spelling and settings, and the key of every server; RollSays says what it answers, deterministically (roll_unique). RollHolds relates the data of the object to a roll. call_says (C136) covers the records and call_other shows that they touch nothing else; setUComm_roll, eraseUComm_roll and urooms_lists cover the communities; between_roll what happens in between; group_list_is_a_roll is the induction over the history. *Status: proved* (`Verif.group_list_is_a_roll`, `Verif.roll_behaves`, `Verif.roll_unique`).
- **C140 The kinds of configuration are kept apart** — CfgKind lists the six classes with their virtual functions and CfgKind.sys builds the model object of each; kind_good shows that the conditions of the other theorems hold for all six. derivation_unique is injectivity of the derivation input. other_kind_ignored follows from it, from the namespace check of the protobuf envelope (C99) and from junk_ignored (C36), under cryptographic assumptions about the one message (Apart): no hash collision with the derivation inputs of the receiver, the ciphertext opens under one key only, an envelope is not by accident a ciphertext. *Status: proved* (`Verif.kinds_differ`, `Verif.derivation_unique`, `Verif.kind_good`, `Verif.other_kind_ignored`, `Verif.dumps_not_kept_apart`).
- **C141 The messages accepted are exactly those in the documented format** — Verif/Props/Format.lean: a specification written from the document (Documented, DataIs, ChangeOk, EarlierAre), equivalence with the parser part by part. Found on the way: the document says sets in diffs are checked, but lists of one element are not looked at; "&" or "<" must not be the last key; the documented limits on key and string lengths are not enforced. *Status: proved* (`Verif.accepted_iff_documented`, `Verif.version_break_ignored`, `Verif.published_documented`).
- **C142 Updates and merges follow the documented procedure** — Verif/Props/Procedure.lean: a specification written from the document (ReplaySet, Replayed, Procedure) on leaves, shown to determine the result (procedure_unique). The code is shown to follow it with no cutoff in general and with the documented cutoff when no current message records an older change, in particular when all have one seqno. It does not apply the cutoff otherwise: a device five updates ahead has its value set back by a change of a slower device that is older than the window (old_changes_replayed). *Status: partial* (`Verif.merge_follows_procedure_partial`, `Verif.merge_documented_partial`, `Verif.merge_same_seqno_documented`, `Verif.merge_published`, `Verif.update_follows_procedure`, `Verif.procedure_unique`, `Verif.old_changes_replayed`).
- **C143 The group key messages accepted are exactly those in the documented format** — Verif/Props/KeyFormat.lean: a specification from the header comment (KeyFrame, SuppFields, FullFields, KeyMessage), lemmas that the dict consumer on sorted dicts is a lookup, equivalence with the parser. Found on the way: the header says "k" is a packed byte string and the nonce has 24 bytes; the code wants a list and takes longer nonces; an admin reading a supplement never looks into it. *Status: proved* (`Verif.keymsg_accepted_iff`, `Verif.load_accepts_iff`, `Verif.packed_keys_refused`, `Verif.rekeys_in_format`, `Verif.supplements_in_format`).
- **C144 Exactly which configs can be pushed** — Verif/Props/PushSize.lean: sizes of the padding buckets (arithmetic), of the encryption and of the wrapper (upper bound of C99 and a lower bound), composed for the six kinds. *Status: proved* (`Verif.push_plain_iff`, `Verif.push_wrapped_iff`, `Verif.push_limit_iff`, `Verif.push_failed`).
- **C145 Conversations through the C interface behave as a book, with the structs in memory** — CConvo models the structs as memory and the C functions over them. CBookSays is the specification: a Book (C138) with predicates saying what a struct holds and that it can be handed back (whole). c_conversations_are_a_book is a simulation on top of call_book of C138; the loop is related to the iterator loop of C120. c_convo_put_back: a struct that was read, set again, leaves the same book, and a book has one answer (book_unique). *Status: proved* (`Verif.c_conversations_are_a_book`, `Verif.c_convo_put_back`).
- **C146 The user's group list through the C interface behaves as one roll, with the structs in memory** — CRoll models the struct of communities as memory, the C functions over it and the documented loop with one struct of each type (groups and legacy groups: CStructs). CRollSays is the specification: a Roll (C139) with predicates saying what a struct holds and that it can be handed back; for groups and legacy groups it is CSays of C137. c_group_list_is_a_roll is a simulation on top of call_roll of C139 and c_call_says of C137, with c_call_other saying what a call does not touch. c_group_put_back: a struct that was read, set again, leaves the same roll, and a roll has one answer (roll_unique). *Status: proved* (`Verif.c_group_list_is_a_roll`, `Verif.c_group_put_back`).
- **C147 Saving what is already saved does nothing, and default values take no space** — Props/Again: every call of RecOp (Combine) and SetCall is a list of writes at paths of which none is inside another; after the first run every path holds what was written (writeAll_get), pruning keeps it (valAt_pruneD: what is written is never empty), so the second run compares equal everywhere (writeAll_noop). For conversations the last-read time is written only if it is new enough and newer than what is stored: the second run is shown to take a branch that writes the same or nothing. The space of a record follows from the list of its writes; the specification lists the documented keys with the condition under which each is stored. Times after the year 2262 overflow in the comparison (C55) and are excluded. *Status: proved* (`Verif.again_does_nothing`, `Verif.again_after_push`, `Verif.again_after_delivery`, `Verif.field_again`, `Verif.clear_does_nothing`, `Verif.clear_stores_nothing`, `Verif.contact_space`, `Verif.member_space`, `Verif.legacy_space`, `Verif.group_space`, `Verif.ucomm_space`).
- **C148 A dump or message that was cut off is never taken for a whole one** — Props/Torn: reading a value, a list, a dict or the rest of a dict from bs gives the same result on bs followed by anything (decV_more, decTop_more, seekKey_more); so if a prefix were accepted then the whole would be read with bytes left over, but the whole is an encoded dict with nothing after it. For the group keys the prefix gives the object of the whole in the same way, and the whole gives the original (C67). For arbitrary bytes the checks of load_dump give the invariant that the round trip of C67 needs. *Status: proved* (`Verif.torn_dump_refused`, `Verif.dump_tail_ignored`, `Verif.torn_message_refused`, `Verif.torn_keys_dump`, `Verif.keys_dump_tail`, `Verif.any_keys_dump`, `Verif.keys_dump_last_byte`).
- **C149 Every encoding of an envelope is read alike** — Props/Envelope.lean: the field readers are characterised by the last occurrence of a field; unwrap_iff from that, unwrap_any_encoding from the round trip of field lists. *Status: proved* (`Verif.unwrap_iff`, `Verif.unwrap_any_encoding`, `Verif.request_in_parts`).
- **C150 A member that cannot sign holds the newest version it was given** — Props/ReadOnly.lean: induction over the history of the object with the list of what it was given (Told); no call but merge changes the config of a read-only object. *Status: proved* (`Verif.readonly_newest`, `Verif.readonly_agree`, `Verif.readonly_forward`, `Verif.noncanonical_goes_back`).
- **C151 Keys may be named by views of the object's own keys** — KeySlots.lean models the vector of keys as a block of memory and the arguments as bytes elsewhere or a slot of the block; Props/KeySlots.lean: the removal loop by induction over the elements still to be moved, with and without a view; refinement to the list of Client.lean for copies. *Status: partial* (`Verif.remove_own`, `Verif.add_own`, `Verif.replace_own`, `Verif.add_copy`, `Verif.remove_copy_eq`).
- **C152 A device that takes over a version is at that version** — Props/Takeover.lean: from the outcome analysis of merges (ClientMerge.lean); two different versions of one seqno always conflict (same_seqno_pushes). *Status: partial* (`Verif.takeover_version`, `Verif.same_seqno_pushes`, `Verif.takeover_version_dirty`).
- **C153 A version made by merging claims only what the merge changed** — Props/Claims.lean: the diff of the version made is computed from the constructor used (retain_seqno, or the merging constructor), in terms of what a diff says at a path (Spec.lean); its effect on later merges from highest_change_wins (C18). *Status: partial* (`Verif.merged_version_claims`, `Verif.merged_then_edited`, `Verif.late_edits_kept`, `Verif.late_edits_overruled`, `Verif.third_edit_lost`, `Verif.third_edit_kept`).
- **C154 If only one device edits, nobody else ever has to push** — Props/Follow.lean: the versions a device publishes in its life are linearly ordered by "follows" (C131), so a batch has one current message; invariant of the followers by induction over their executions. *Status: proved* (`Verif.follower_follows`, `Verif.follower_content`, `Verif.followers_agree`, `Verif.follower_needs_one_writer`).
- **C155 Devices that take turns never conflict** — Props/Turns.lean: "follows" is transitive among the versions of an account (the histories are closed, C131), so versions made in turn are linearly ordered and a batch has one current message; invariant by induction over the turns and over the executions of each device. *Status: proved* (`Verif.turns_in_turn`, `Verif.turn_taken`, `Verif.turn_newest`, `Verif.turns_settle`, `Verif.turn_follows`, `Verif.turn_content`, `Verif.turns_agree`, `Verif.follower_needs_one_writer`).
- **C156 An account whose devices take turns behaves as one device** — Props/OneDevice.lean: each field edit commutes with pruning, so its effect on the content depends on the content only; induction over the turns with C155. *Status: proved* (`Verif.turns_as_one`, `Verif.turns_as_one_everywhere`, `Verif.turns_have_newest`, `Verif.PathOp.run_content`, `Verif.one_device`).
- **C157 The calls of an account whose devices take turns read back as those of one device** — Props/OneAccount.lean: each call is a sequence of field edits chosen by the content (Planned); a shadow device follows the turns of C155; removal of a community has a witness that it is no such call. *Status: proved* (`Verif.calls_as_one`, `Verif.Alone.unique`, `Verif.same_content_reads`, `Verif.same_content_shows`, `Verif.community_removal_depends`, `Verif.AccountCall.planned`).
<!-- END PROPERTY TABLE -->

## Trusted base

* Lean 4.33.0's kernel; axioms at most `propext`, `Classical.choice`, `Quot.sound` (no theorem uses any
  other; `vcheck` reports the axioms).
* The reading of `/repo` recorded in the definition comments. The code is not executed.
* oxenc (bencode library, not in the repo tree) is modelled from its documented behaviour: see `Bt.lean`.
* Cryptographic primitives, zstd and (in `Client`; see `Protos`, C99) protobuf are parameters of the theorems, constrained
  only by functional laws stated as hypotheses (`Env.Sane`, `Prims.Good`, `Sys.Good`): hash lengths,
  decryption inverts encryption, decompression inverts compression, own signatures verify. No secrecy or
  unforgeability claim is made. Hash collisions are excluded by explicit hypotheses (`NoCollision`).
* Allocation failure, exceptions from the logger, and the C API wrappers are not modelled unless a module
  says so. 64-bit integers are mathematical integers with explicit range checks; an operation that would
  overflow has the outcome `.ub`.

### What is modelled

| module | code |
| --- | --- |
| `Basic`, `OMap`, `Bt` | `std::map`, oxenc encoding and decoding, outcomes of C++ code |
| `Data` | include/session/config.hpp types, src/config.cpp prune, diff, apply_diff, load |
| `Msg` | src/config.cpp ConfigMessage / MutableConfigMessage: serialise, parse, sign, merge, increment |
| `Encrypt` | src/config/encrypt.cpp, padding |
| `Client` | src/config/base.cpp ConfigBase: state machine, merge, push, confirm, dump, load, keys |
| `Proxy` | include/session/config/base.hpp DictFieldProxy, src/config/internal.cpp setters |
| `Hex` | oxenc hex (external), src/config/internal.cpp check_session_id, session_id_to_bytes, make_lc |
| `Records`, `Table` | src/config/internal.cpp maybe_*, set_*; sequences of field writes; tables of records |
| `Contacts` | src/config/contacts.cpp |
| `Profile` | src/config/user_profile.cpp (not the C wrappers) |
| `Community` | src/config/community.cpp, src/config/internal.cpp decode_pubkey (base64 and base32z are parameters) |
| `Convo` | src/config/convo_info_volatile.cpp (C++ interface; the clock is a parameter), include/session/config/community.hpp comm_iterator_helper |
| `Consume` | oxenc bt_dict_consumer as used outside config messages: skip_until, require, consume_* (external library, lazy reading) |
| `Multi` | src/multi_encrypt.cpp, include/session/multi_encrypt.hpp (C++ interface with X25519 keys; primitives are parameters, random bytes are arguments) |
| `GroupKeys` | src/config/groups/keys.cpp: rekey, key_supplement, load_key_message, insert_key, remove_expired, current_hashes, group_keys, group_enc_key, needs_rekey, needs_dump, dump, load_dump (C++ interface; primitives are parameters; the replacement of info and members keys is left to `Client`) |
| `GroupMsg` | src/config/groups/keys.cpp: encrypt_message, decrypt_message, load_admin_key; src/config/internal.cpp: zstd_compress, zstd_decompress (the loop; zstd itself is a parameter) |
| `Curve`, `CurveLemmas` | the libsodium functions on Ed25519 points and scalars used by the files below: scalars and encodings concrete, the group of points abstract (assumptions: `Curve.Good`; satisfied by a toy instance, not proved of Ed25519) |
| `Blinding` | src/xed25519.cpp; src/blinding.cpp (C++ functions) |
| `Subaccount` | src/config/groups/keys.cpp: swarm_* functions, subaccount_blind_factor; src/config/internal.cpp: session_id_pk |
| `SessionEncrypt` | src/session_encrypt.cpp: everything except the C API; X25519, secretbox, XChaCha20-Poly1305 are parameters |
| `UserGroups`, `RecTable` | src/config/user_groups.cpp: load, get, get_or_construct, set, erase, size, iteration, create_group, members of legacy groups, the C structs; `crypto_sign_seed_keypair` is the parameter `pub`. The C functions are in `CComm`, `CStructs` and `CIter` |
| `GroupMembers` | src/config/groups/members.cpp and info.cpp: member load, get, get_or_construct, set, erase, size, iteration, status setters, the C struct; all getters and setters of Info. The C functions are in `CStructs` and `CProfile` |
| `GroupState` | src/config/groups/keys.cpp: the constructor with a dump, `rekey` and `load_key_message` acting on Keys, Info and Members together; histories across a promotion |
| `Protos` | src/config/protos.cpp with the protobuf wire format for the messages it uses. Other kinds of `Content` are a parameter (whether they parse); not modelled: the parser's nesting limit, messages of 1 GiB or more (an error in the model) |
| `Onion` | src/onionreq/{builder,hop_encryption,parser,response_parser,key_types}.cpp. JSON, base64/base32z and the ciphers are parameters; not modelled: the C wrappers' memory management (`onion_request_decrypt` does what `ResponseParser::decrypt` does) |
| `BtMerge` | src/bt_merge.cpp, include/session/bt_merge.hpp (`merge`, `merge_sorted`) |
| `KeyApi` | src/ed25519.cpp, src/curve25519.cpp, src/hash.cpp; the C functions of these and of src/xed25519.cpp, src/blinding.cpp (output buffers as byte lists). Input pointers are taken to have the documented length |
| `CMem` | the blocks returned by config_push, config_current_hashes, config_merge (string lists) and config_get_keys in src/config/base.cpp. malloc gives a block at an arbitrary address; freeing is not modelled |
| `CErr` | last_error (256 bytes) in the C getters and setters of records; src/config/base.cpp, src/config/groups/keys.cpp: set_error |
| `CIter` | the C iterator over legacy group members (src/config/user_groups.cpp) |
| `Sodium` | sodium_array<unsigned char> (include/session/util.hpp), src/util.cpp. sodium_array of other element types and sodium_ptr, which the library does not use, are not modelled |
| `Promotion` | src/config/groups/keys.cpp:212-233 (`load_admin_key` on all three objects), src/config/base.cpp:352-376, 536-576 (signing keys) |
| `CMulti` | x_keys, the Ed25519 functions and the C functions of src/multi_encrypt.cpp:88-101, 213-387 |
| `Iter` | the iterators: src/config/convo_info_volatile.cpp (iterator), src/config/user_groups.cpp (iterator), src/config/contacts.cpp:335-373, src/config/groups/members.cpp:77-115, comm_iterator_helper |
| `Props/Combine` | no new code: sequences of set/erase calls of all record types on several devices, over the models above |
| `Encodings` | base64 and base32z of the oxen-encoding library (from its documentation), `decode_pubkey` with them, `key_types.cpp`: `from_hex`, `from_bytes`, `snode_address`, `parse_*_pubkey` |
| `COnion` | the C interface of the onion-request builder and `onion_request_decrypt` (null pointers and failing `malloc` are not modelled) |
| `CComm` | the C functions for communities of `convo_info_volatile.cpp` and `user_groups.cpp`, the structs of conversations, the C loops over conversations and groups, `ugroups_legacy_member_add`, `_members_count`, `ugroups_group_set_kicked` (structs that were never initialised are not modelled) |
| `CommObj` | the class `community` with its constructors, setters (also what they leave behind when they throw), texts of the key, `full_url`; `set` of such an object in `UserGroups` and `ConvoInfoVolatile`; `community_parse_partial_url` (null pointers for its results are not modelled) |
| `CCrypt` | `config_encrypt`, `config_decrypt`, `config_padded_size` (64-bit `size_t`), `session_random`; allocations succeed |
| `CKeys` | `groups_keys_init` … `groups_keys_current_generation` (src/config/groups/keys.cpp 1372-1541, 1590-1612): error buffer, C strings, reads of buffers; allocations succeed; the pointers' lifetimes are not modelled |
| `CBase` | `c_wrapper_init` (src/config/internal.hpp 15-55) for configs with a key of their own; `config_merge` … `config_key` (src/config/base.cpp 611-741): C strings, reads of buffers, `malloc` that may fail, blocks as in `CMem`. `config_free` and pointer lifetimes are not modelled |
| `CProfile` | the C functions of src/config/user_profile.cpp (35-155) and src/config/groups/info.cpp (148-386), `c_group_wrapper_init` (src/config/internal.hpp 56-75): C strings, the struct `user_profile_pic`, conversions to `int` |
| `CStructs` | the structs `contacts_contact`, `config_group_member`, `ugroups_group_info`, `ugroups_legacy_group_info` as memory (arrays with their previous contents) and the C functions that fill, read, set, erase and loop over them (src/config/contacts.cpp 119-206, 248-250, 314-320, 384-404; src/config/groups/members.cpp 134-258; src/config/user_groups.cpp 36-127, 207-228, 656-765, 866-914) |
| `CConvo` | the structs `convo_info_volatile_1to1`, `_community`, `_group`, `_legacy_group` as memory and the C functions that fill, read, set, erase, count and loop over them (src/config/convo_info_volatile.cpp 33-83, 369-371, 497-762) |
| `CRoll` | the struct `ugroups_community_info` as memory, the C functions for communities of the user's groups, and the documented loop over groups, communities and legacy groups with one struct of each (src/config/user_groups.cpp 62-74, 624-655, 720-723, 865-914) |
| `KeySlots` | the vector of encryption keys as a block of memory, with arguments that are views of it (src/config/base.cpp 434-529, include/session/config/base.hpp 155-156, 1223-1226, include/session/util.hpp 294-315); the order of element moves in `std::vector` and `std::remove_if` is that of the usual implementation |
| `Kinds` | `storage_namespace`, `encryption_domain`, `accepts_protobuf` of the six config classes, `config_storage_namespace`, `config_encryption_domain` (src/config/base.cpp 617-619, 737-739) |
| `Construct` | the variants of get_community and get_or_construct_community that take a URL or an encoded key |
| `Helpers` | string_iequal, starts_with, end_with (include/session/util.hpp), src/fields.cpp |
| `CEnc` | the C functions of src/session_encrypt.cpp:597-761; groups_keys_encrypt_message, _decrypt_message, _swarm_* (src/config/groups/keys.cpp:1544-1737) |

`Spec` holds the vocabulary of the property statements (leaves of a config). The other modules outside
`Props/` are lemmas; `Props/` holds the property theorems, their examples and counterexamples.

Not modelled: networking, storage server, the C wrappers (except where listed), logging, `extra_data` of dumps (which no class of the library overrides).
