{
 "claims": [
  {
   "property": "C01",
   "status": "proved",
   "theorems": [
    "Verif.config_roundtrip",
    "Verif.config_roundtrip_signed"
   ],
   "note": "For every message object reachable through the API (Made); hypotheses: seqno-lag does not overflow int64 and, if a verifier is set, it accepts the signature written."
  },
  {
   "property": "C02",
   "status": "proved",
   "theorems": [
    "Verif.accepted_canonical"
   ],
   "note": ""
  },
  {
   "property": "C03",
   "status": "proved",
   "theorems": [
    "Verif.serialize_injective"
   ],
   "note": ""
  },
  {
   "property": "C04",
   "status": "proved",
   "theorems": [
    "Verif.unknown_keys_survive"
   ],
   "note": "Values up to the sorting of nested dict keys done by std::map (norm). A real merge drops unknown keys (see C24)."
  },
  {
   "property": "C05",
   "status": "proved",
   "theorems": [
    "Verif.accepted_signed",
    "Verif.signed_bytes_determine_content",
    "Verif.rejecting_verifier_rejects"
   ],
   "note": ""
  },
  {
   "property": "C06",
   "status": "proved",
   "theorems": [
    "Verif.accepted_lag_window"
   ],
   "note": ""
  },
  {
   "property": "C07",
   "status": "partial",
   "theorems": [
    "Verif.parse_terminates_partial",
    "Verif.parse_hangs_iff",
    "Verif.hang_ignores_signature",
    "Verif.key_holder_hangs_merge",
    "Verif.parse_may_hang"
   ],
   "note": "The claim is false of the code: parse_may_hang is a 24-byte witness. The partial theorem covers all inputs whose diffs have no integer values. parse_hangs_iff says exactly which bencoded dicts hang the parser (TrapMsg, a specification on bencoded values); hang_ignores_signature: signatures play no role, for all bytes; key_holder_hangs_merge: whoever holds an encryption key can hang merge in every object that uses it."
  },
  {
   "property": "C08",
   "status": "partial",
   "theorems": [
    "Verif.merge_skips_invalid_partial",
    "Verif.merge_stops",
    "Verif.parse_foreign_iff",
    "Verif.junk_aborts_merge",
    "Verif.huge_int_aborts_merge"
   ],
   "note": "False of the code for inputs that are not a bencoded dict, and for messages with an integer of 2^63 or more in a set change (witnesses junk_aborts_merge, huge_int_aborts_merge); proved for all batches of valid or config_error inputs. merge_stops and parse_foreign_iff say what happens otherwise: the first other input decides the outcome of the whole batch, and apart from inputs that hang (C07) these two kinds are all."
  },
  {
   "property": "C09",
   "status": "proved",
   "theorems": [
    "Verif.diff_then_apply",
    "Verif.published_diff_replays"
   ],
   "note": ""
  },
  {
   "property": "C10",
   "status": "proved",
   "theorems": [
    "Verif.diff_empty_iff",
    "Verif.published_diff_empty_iff"
   ],
   "note": ""
  },
  {
   "property": "C11",
   "status": "proved",
   "theorems": [
    "Verif.diff_accepted"
   ],
   "note": ""
  },
  {
   "property": "C12",
   "status": "proved",
   "theorems": [
    "Verif.merge_order_irrelevant",
    "Verif.merge_depends_on_set"
   ],
   "note": "Up to the index of the unmerged message; no two different inputs with equal hash; lag >= 1."
  },
  {
   "property": "C13",
   "status": "proved",
   "theorems": [
    "Verif.merge_duplicates_irrelevant",
    "Verif.merge_depends_on_set"
   ],
   "note": "Same hypotheses as C12."
  },
  {
   "property": "C14",
   "status": "proved",
   "theorems": [
    "Verif.merge_absorbs_inputs"
   ],
   "note": "For sub-batches the listed histories must be transitive inside the lag window (HistoryClosed), which holds of histories produced by increment."
  },
  {
   "property": "C15",
   "status": "proved",
   "theorems": [
    "Verif.merge_seqno"
   ],
   "note": ""
  },
  {
   "property": "C16",
   "status": "proved",
   "theorems": [
    "Verif.merge_safe",
    "Verif.highest_is_current",
    "Verif.merge_lag_zero_ub"
   ],
   "note": "For lag >= 1; for lag 0 the claim is false (merge_lag_zero_ub)."
  },
  {
   "property": "C17",
   "status": "proved",
   "theorems": [
    "Verif.concurrent_updates"
   ],
   "note": "Honest base (Honest inductive), children published from one increment each, client able to merge, lag >= 1, no hash collision among the inputs. lost_element_returns shows that the restriction to merge-free histories is needed for elements absent from a set."
  },
  {
   "property": "C18",
   "status": "proved",
   "theorems": [
    "Verif.highest_change_wins",
    "Verif.concurrent_updates"
   ],
   "note": ""
  },
  {
   "property": "C19",
   "status": "proved",
   "theorems": [
    "Verif.readonly_never_fabricates",
    "Verif.readonly_takes_highest"
   ],
   "note": ""
  },
  {
   "property": "C20",
   "status": "proved",
   "theorems": [
    "Verif.too_old_ignored"
   ],
   "note": ""
  },
  {
   "property": "C21",
   "status": "proved",
   "theorems": [
    "Verif.descendant_supersedes"
   ],
   "note": "Any number of increments, edits and publish/load steps; lag >= 1."
  },
  {
   "property": "C22",
   "status": "partial",
   "theorems": [
    "Verif.merge_succeeds_partial",
    "Verif.merge_fails_iff",
    "Verif.inconsistent_diff_aborts_merge"
   ],
   "note": "False of the code: one accepted message with a malformed set diff aborts the whole merge (witness). Proved when all set changes list only strings and integers; merge_fails_iff says exactly when a merge fails."
  },
  {
   "property": "C23",
   "status": "proved",
   "theorems": [
    "Verif.diff_touches_only_changes",
    "Verif.diff_carries_changes"
   ],
   "note": "Of the diff against any previous content. That a version made by merging without edits of its own takes the empty content as the previous one is C153."
  },
  {
   "property": "C24",
   "status": "partial",
   "theorems": [
    "Verif.unmerged_keeps_unknown_partial",
    "Verif.merge_drops_unknown",
    "Verif.real_merge_has_no_unknown"
   ],
   "note": "False of the code for real merges: they never keep an unknown key (witness)."
  },
  {
   "property": "C25",
   "status": "partial",
   "theorems": [
    "Verif.top_change_survives_partial",
    "Verif.removed_dict_swallows_change",
    "Verif.lost_element_returns"
   ],
   "note": "False of the code (two witnesses)."
  },
  {
   "property": "C26",
   "status": "proved",
   "theorems": [
    "Verif.history_precedes"
   ],
   "note": ""
  },
  {
   "property": "C27",
   "status": "proved",
   "theorems": [
    "Verif.decrypt_encrypt",
    "Verif.decrypt_sound",
    "Verif.decrypt_short",
    "Verif.decrypt_errors",
    "Verif.encrypt_refuses"
   ],
   "note": "Secrecy and unforgeability of the AEAD are not modelled."
  },
  {
   "property": "C28",
   "status": "proved",
   "theorems": [
    "Verif.padded_total",
    "Verif.pad_buckets",
    "Verif.paddedSize_mono",
    "Verif.paddedSize_idem",
    "Verif.unpad_pad",
    "Verif.unpad_id"
   ],
   "note": ""
  },
  {
   "property": "C29",
   "status": "proved",
   "theorems": [
    "Verif.seqno_never_decreases",
    "Verif.seqno_restored",
    "Verif.negative_seqno_lowers",
    "Verif.noncanonical_goes_back"
   ],
   "note": "For fair messages (non-negative seqno, canonical signature form - published_fair shows the library publishes only such); negative_seqno_lowers shows that an accepted message with a negative seqno breaks the claim, noncanonical_goes_back that one signed in another form does."
  },
  {
   "property": "C30",
   "status": "proved",
   "theorems": [
    "Verif.seqno_identifies_content",
    "Verif.pushes_agree"
   ],
   "note": ""
  },
  {
   "property": "C31",
   "status": "proved",
   "theorems": [
    "Verif.pending_until_confirmed"
   ],
   "note": ""
  },
  {
   "property": "C32",
   "status": "proved",
   "theorems": [
    "Verif.confirm_after_push",
    "Verif.stale_confirm_ignored",
    "Verif.edit_outlives_old_confirm"
   ],
   "note": ""
  },
  {
   "property": "C33",
   "status": "proved",
   "theorems": [
    "Verif.readonly_never_pending"
   ],
   "note": ""
  },
  {
   "property": "C34",
   "status": "proved",
   "theorems": [
    "Verif.delivery",
    "Verif.receive_head",
    "Verif.receive_any",
    "Verif.receive_unwrapped",
    "Verif.receive_unwrapped_sent"
   ],
   "note": "Receiver key in front, or anywhere if the config is not protobuf-wrapped and no earlier key opens the message. zstd and the protobuf wrapper are parameters with inverse laws."
  },
  {
   "property": "C35",
   "status": "proved",
   "theorems": [
    "Verif.convergence",
    "Verif.readonly_diverges"
   ],
   "note": "For objects able to sign (or unsigned configs), fair messages, no hash collision; readonly_diverges shows that read-only objects need not converge."
  },
  {
   "property": "C36",
   "status": "proved",
   "theorems": [
    "Verif.merge_returns_accepted",
    "Verif.junk_ignored",
    "Verif.receive_iff",
    "Verif.accepts_iff",
    "Verif.nothing_usable_throws"
   ],
   "note": ""
  },
  {
   "property": "C37",
   "status": "partial",
   "theorems": [
    "Verif.merge_obsolete",
    "Verif.adopted_hash_partial",
    "Verif.live_hash_made_obsolete",
    "Verif.own_copy_made_obsolete"
   ],
   "note": "False of the code (two witnesses). Proved: obsolete hashes come only from accepted messages and the former current hash; and the full claim for batches of valid messages with fresh distinct hashes."
  },
  {
   "property": "C38",
   "status": "proved",
   "theorems": [
    "Verif.dump_roundtrip",
    "Verif.seqno_restored"
   ],
   "note": "Configs without extra_data; seqno at least lag below 2^63."
  },
  {
   "property": "C39",
   "status": "partial",
   "theorems": [
    "Verif.needs_dump_partial",
    "Verif.needs_dump_misses_only",
    "Verif.needs_dump_misses_edit",
    "Verif.needs_dump_misses_obsolete"
   ],
   "note": "False of the code in two cases (witnesses): further edits on top of pending ones, and obsolete hashes. needs_dump_misses_only: those two are all; in any other history a reload of the last dump loses nothing."
  },
  {
   "property": "C40",
   "status": "partial",
   "theorems": [
    "Verif.next_lists_pushed",
    "Verif.next_lists_reloaded_partial",
    "Verif.next_lists_reloaded_iff",
    "Verif.reload_pending_lists",
    "Verif.reload_forgets_signed_push"
   ],
   "note": "False of the code for signed configs after a reload (witness). next_lists_reloaded_iff says when exactly: the signed and the unsigned form of the config must have the same hash. reload_pending_lists: a dump made while the edit is pending loses nothing, signed or not."
  },
  {
   "property": "C41",
   "status": "partial",
   "theorems": [
    "Verif.keys_wellformed",
    "Verif.add_key_front",
    "Verif.add_key_back",
    "Verif.add_key_refuses",
    "Verif.remove_key_removes",
    "Verif.replace_keys_sets",
    "Verif.new_front_key_dirties",
    "Verif.push_follows_front",
    "Verif.remove_from_marks",
    "Verif.remove_from_marks_case"
   ],
   "note": "All of it proved for add_key, clear_keys, replace_keys and remove_key with its default position. False of the code for remove_key with a position of 1 or more and the first key: nothing is removed and the config is marked for pushing all the same (remove_from_marks, for every reachable object; remove_from_marks_case, a concrete one)."
  },
  {
   "property": "C42",
   "status": "partial",
   "theorems": [
    "Verif.asserts_hold_partial",
    "Verif.asserts_new_iff",
    "Verif.asserts_readonly_iff",
    "Verif.assert_fails_on_new_object",
    "Verif.assert_fails_readonly"
   ],
   "note": "False of the code (witnesses) for new and read-only objects; asserts_new_iff and asserts_readonly_iff say for which messages exactly."
  },
  {
   "property": "C43",
   "status": "proved",
   "theorems": [
    "Verif.assign_get",
    "Verif.erase_get",
    "Verif.assign_empty",
    "Verif.set_insert_get",
    "Verif.set_erase_get",
    "Verif.field_error",
    "Verif.field_succeeds"
   ],
   "note": ""
  },
  {
   "property": "C44",
   "status": "partial",
   "theorems": [
    "Verif.rewrite_is_noop",
    "Verif.change_is_pending",
    "Verif.pending_is_change",
    "Verif.set_erase_missing_dirties"
   ],
   "note": "pending_is_change excludes set_erase on a field that holds no set; there the property is false: set_erase_missing_dirties."
  },
  {
   "property": "C45",
   "status": "proved",
   "theorems": [
    "Verif.fields_delivered"
   ],
   "note": "Hypotheses as in C34 (delivery)."
  },
  {
   "property": "C46",
   "status": "proved",
   "theorems": [
    "Verif.contact_set_get",
    "Verif.Contact.Valid.norm_eq",
    "Verif.contact_set_error",
    "Verif.contact_rewrite_noop",
    "Verif.contact_update",
    "Verif.contact_setters",
    "Verif.contact_setters_succeed",
    "Verif.contact_erase",
    "Verif.sameId_iff",
    "Verif.valid_id_iff",
    "Verif.id_spells"
   ],
   "note": ""
  },
  {
   "property": "C47",
   "status": "proved",
   "theorems": [
    "Verif.contact_iter"
   ],
   "note": ""
  },
  {
   "property": "C48",
   "status": "proved",
   "theorems": [
    "Verif.contact_delivered"
   ],
   "note": "Hypotheses as in C34 (delivery). The second part needs, for the other contacts, that their record has a name field (which set always writes)."
  },
  {
   "property": "C49",
   "status": "partial",
   "theorems": [
    "Verif.contact_via_c_partial",
    "Verif.contact_via_c_sound",
    "Verif.contact_via_c_fails"
   ],
   "note": "False of the code: mute_until is not carried by the conversions and copy_c_str overflows. Proved: everything else is preserved for valid records without NUL bytes."
  },
  {
   "property": "C50",
   "status": "proved",
   "theorems": [
    "Verif.profile_set",
    "Verif.profile_delivered"
   ],
   "note": ""
  },
  {
   "property": "C51",
   "status": "proved",
   "theorems": [
    "Verif.canonical_url_iff",
    "Verif.canonical_url_case",
    "Verif.canonical_url_idem",
    "Verif.canonical_room_iff",
    "Verif.canonical_room_case"
   ],
   "note": ""
  },
  {
   "property": "C52",
   "status": "proved",
   "theorems": [
    "Verif.full_url_roundtrip"
   ],
   "note": ""
  },
  {
   "property": "C53",
   "status": "partial",
   "theorems": [
    "Verif.c_parse_in_bounds_partial",
    "Verif.c_parse_oxenc_partial",
    "Verif.c_parse_overflows"
   ],
   "note": "False of the code: parse_partial_url does not check the room, so a room longer than 64 characters overflows the room buffer. Proved: that is the only way."
  },
  {
   "property": "C54",
   "status": "proved",
   "theorems": [
    "Verif.convo_set_get",
    "Verif.convo_set_error",
    "Verif.convo_erase"
   ],
   "note": ""
  },
  {
   "property": "C55",
   "status": "partial",
   "theorems": [
    "Verif.convo_set_error",
    "Verif.convo_set_overflows"
   ],
   "note": "False of the code for times beyond 9223372036854 ms (year 2262): signed overflow in the conversion to nanoseconds. Proved: below that everything is defined."
  },
  {
   "property": "C56",
   "status": "partial",
   "theorems": [
    "Verif.prune_stale_partial",
    "Verif.push_prunes_partial",
    "Verif.prune_exact",
    "Verif.push_prunes_convos",
    "Verif.push_prunes_comms",
    "Verif.prune_succeeds",
    "Verif.prune_ignores_groups",
    "Verif.prune_takes_namesake"
   ],
   "note": "False of the code for groups, which are never pruned (prune_ignores_groups), and for a community of which a stale copy is stored under another spelling (prune_takes_namesake). prune_exact says exactly what pruning removes, in every reachable object; the push theorems what receiving devices see."
  },
  {
   "property": "C57",
   "status": "proved",
   "theorems": [
    "Verif.convo_iter",
    "Verif.comm_iter"
   ],
   "note": ""
  },
  {
   "property": "C58",
   "status": "proved",
   "theorems": [
    "Verif.comm_set_get",
    "Verif.comm_erase"
   ],
   "note": ""
  },
  {
   "property": "C59",
   "status": "proved",
   "theorems": [
    "Verif.edits_combine",
    "Verif.edits_combine_line",
    "Verif.edit_survives",
    "Verif.team_peer"
   ],
   "note": "Devices that can sign (or unsigned configs); restores only for unsigned configs (dumps of signed configs drop signatures: C36). edits_combine_line is the same for devices that never went through an earlier real merge."
  },
  {
   "property": "C60",
   "status": "proved",
   "theorems": [
    "Verif.contacts_combine"
   ],
   "note": ""
  },
  {
   "property": "C61",
   "status": "proved",
   "theorems": [
    "Verif.multi_roundtrip",
    "Verif.multi_outsider",
    "Verif.multi_vector_roundtrip",
    "Verif.multi_invalid_recipients"
   ],
   "note": "Idealised primitives; no accidental opening is an explicit hypothesis."
  },
  {
   "property": "C62",
   "status": "proved",
   "theorems": [
    "Verif.multi_authentic",
    "Verif.multi_vector_authentic",
    "Verif.multi_key_separation"
   ],
   "note": ""
  },
  {
   "property": "C63",
   "status": "partial",
   "theorems": [
    "Verif.multi_filler_partial",
    "Verif.multi_filler_size_differs",
    "Verif.multi_ed_default_nonce_throws"
   ],
   "note": "The documented size of filler entries and the meaning of an empty nonce are false of the code (proved)."
  },
  {
   "property": "C64",
   "status": "proved",
   "theorems": [
    "Verif.enc_key_newest",
    "Verif.enc_key_agree",
    "Verif.enc_key_needs_same_times"
   ],
   "note": "Assumes that a key of one generation arrives with one timestamp (shown necessary by enc_key_needs_same_times)."
  },
  {
   "property": "C65",
   "status": "proved",
   "theorems": [
    "Verif.keys_held",
    "Verif.keys_listed",
    "Verif.keys_held_exactly",
    "Verif.keys_held_agree",
    "Verif.held_needs_times_in_order"
   ],
   "note": "keys_held needs no assumption; exactness assumes timestamps in the order of generations (shown necessary)."
  },
  {
   "property": "C66",
   "status": "proved",
   "theorems": [
    "Verif.current_hashes_cover",
    "Verif.other_message_kept"
   ],
   "note": "other_message_kept: messages with no key for this device are kept too, unless older than all keys held."
  },
  {
   "property": "C67",
   "status": "proved",
   "theorems": [
    "Verif.keys_restore"
   ],
   "note": ""
  },
  {
   "property": "C68",
   "status": "partial",
   "theorems": [
    "Verif.keys_needs_dump_partial",
    "Verif.keys_reload_loses_only",
    "Verif.needs_dump_misses_hash"
   ],
   "note": "False of the code for message hashes: loading a known key under a new hash changes the dump without setting needs_dump (proved). keys_reload_loses_only: over any history since the last dump nothing else is lost, and exactly those hashes."
  },
  {
   "property": "C69",
   "status": "proved",
   "theorems": [
    "Verif.needs_rekey_iff"
   ],
   "note": ""
  },
  {
   "property": "C70",
   "status": "proved",
   "theorems": [
    "Verif.rekey_succeeds",
    "Verif.rekey_reaches",
    "Verif.rekey_newer",
    "Verif.rekey_deterministic",
    "Verif.new_key_takes_over",
    "Verif.toy_rekey",
    "Verif.rekey_fresh"
   ],
   "note": "Idealised primitives; no accidental opening is an explicit hypothesis."
  },
  {
   "property": "C71",
   "status": "proved",
   "theorems": [
    "Verif.keymsg_authentic"
   ],
   "note": ""
  },
  {
   "property": "C72",
   "status": "proved",
   "theorems": [
    "Verif.supplement_reaches",
    "Verif.supplement_fresh"
   ],
   "note": ""
  },
  {
   "property": "C73",
   "status": "proved",
   "theorems": [
    "Verif.message_roundtrip",
    "Verif.receiver_holds_key",
    "Verif.message_refused",
    "Verif.message_padded",
    "Verif.empty_message_lost"
   ],
   "note": "Idealised primitives; no accidental opening under another key is an explicit hypothesis."
  },
  {
   "property": "C74",
   "status": "proved",
   "theorems": [
    "Verif.message_authentic",
    "Verif.unzip_iff"
   ],
   "note": ""
  },
  {
   "property": "C75",
   "status": "proved",
   "theorems": [
    "Verif.promotion"
   ],
   "note": ""
  },
  {
   "property": "C76",
   "status": "proved",
   "theorems": [
    "Verif.xed_roundtrip",
    "Verif.xed_account",
    "Verif.xed_pubkey",
    "Verif.xed_unclamped_fails"
   ],
   "note": "The nonce being 0 modulo the order (probability 2^-252) is excluded by hypothesis. The expected behaviour for unclamped keys is false of the code (proved)."
  },
  {
   "property": "C77",
   "status": "proved",
   "theorems": [
    "Verif.blind15_ids",
    "Verif.blind15_keypair",
    "Verif.blind15_signs",
    "Verif.matches15_own",
    "Verif.matches15_sound"
   ],
   "note": "A blinding factor or nonce of 0 modulo the order is excluded by hypothesis."
  },
  {
   "property": "C78",
   "status": "proved",
   "theorems": [
    "Verif.blind25_ids",
    "Verif.blind25_keypair",
    "Verif.blind25_signs",
    "Verif.matches25_own",
    "Verif.matches_sound",
    "Verif.matches_uppercase_fails",
    "Verif.matches_short_ub"
   ],
   "note": "A blinding factor or nonce of 0 modulo the order is excluded by hypothesis."
  },
  {
   "property": "C79",
   "status": "proved",
   "theorems": [
    "Verif.subaccount_roundtrip",
    "Verif.subaccount_sound",
    "Verif.subaccount_topbit"
   ],
   "note": "A factor or nonce of 0 modulo the order is excluded by hypothesis. Base64 output is not modelled."
  },
  {
   "property": "C80",
   "status": "proved",
   "theorems": [
    "Verif.recipient_roundtrip",
    "Verif.recipient_deterministic",
    "Verif.incoming_signed",
    "Verif.incoming_authentic"
   ],
   "note": "A signature nonce or ephemeral key of 0 modulo the order is excluded by hypothesis; unforgeability in incoming_authentic is a hypothesis."
  },
  {
   "property": "C81",
   "status": "proved",
   "theorems": [
    "Verif.blinded15_roundtrip",
    "Verif.blinded25_roundtrip",
    "Verif.blinded25_sender",
    "Verif.blinded15_sender",
    "Verif.blinded15_forged",
    "Verif.blinded15_alternative_unreadable",
    "Verif.blinded_empty_recipient_ub"
   ],
   "note": "The expected behaviour is false of the code in three cases (proved)."
  },
  {
   "property": "C82",
   "status": "proved",
   "theorems": [
    "Verif.ons_response",
    "Verif.push_notification",
    "Verif.push_notification_sound",
    "Verif.push_notification_empty"
   ],
   "note": ""
  },
  {
   "property": "C83",
   "status": "proved",
   "theorems": [
    "Verif.group_set_get",
    "Verif.group_set_error",
    "Verif.group_erase",
    "Verif.group_kicked",
    "Verif.group_created",
    "Verif.group_admin_lost"
   ],
   "note": "pub (crypto_sign_seed_keypair) is a parameter with 32-byte outputs. group_admin_lost: with an upper-case id the admin key is not read, and writing the record back erases it; stale auth data kept beside a secret key."
  },
  {
   "property": "C84",
   "status": "proved",
   "theorems": [
    "Verif.legacy_set_get",
    "Verif.legacy_set_error",
    "Verif.legacy_erase",
    "Verif.legacy_members",
    "Verif.Legacy.Valid.norm_eq",
    "Verif.legacy_member_spellings"
   ],
   "note": "legacy_member_spellings: insert treats two spellings of an id as two members; stored they become one non-admin."
  },
  {
   "property": "C85",
   "status": "proved",
   "theorems": [
    "Verif.ucomm_set_get",
    "Verif.ucomm_set_error",
    "Verif.ucomm_erase"
   ],
   "note": ""
  },
  {
   "property": "C86",
   "status": "proved",
   "theorems": [
    "Verif.group_iter",
    "Verif.legacy_iter",
    "Verif.ucomm_iter",
    "Verif.ucomm_set_canon",
    "Verif.all_groups_iter",
    "Verif.all_groups_size"
   ],
   "note": "Communities: under the hypothesis that all are stored as set stores them (CanonRooms)."
  },
  {
   "property": "C87",
   "status": "proved",
   "theorems": [
    "Verif.read_sound"
   ],
   "note": ""
  },
  {
   "property": "C88",
   "status": "proved",
   "theorems": [
    "Verif.group_delivered",
    "Verif.legacy_delivered",
    "Verif.ucomm_delivered"
   ],
   "note": "Hypotheses as in C34 (delivery). Other records need the field that set always writes."
  },
  {
   "property": "C89",
   "status": "partial",
   "theorems": [
    "Verif.group_via_c_partial",
    "Verif.legacy_via_c_partial",
    "Verif.ucomm_via_c",
    "Verif.ugroups_via_c_sound",
    "Verif.ugroups_via_c_fails"
   ],
   "note": "False of the code for names over 100 bytes (overflow) and communities without a key (over-read). Proved: everything else is preserved for names without NUL."
  },
  {
   "property": "C90",
   "status": "partial",
   "theorems": [
    "Verif.legacy_members_combine",
    "Verif.legacy_members_line",
    "Verif.legacy_member_lost"
   ],
   "note": "Proved if no device removes the last plain member or the last admin (otherwise false, legacy_member_lost). For histories with earlier merges an id newly made admin is shown to be a member, not necessarily admin, since elements removed earlier can come back (lost_element_returns of C25); for devices without an earlier real merge the status is exactly what the one device made of it (legacy_members_line)."
  },
  {
   "property": "C91",
   "status": "proved",
   "theorems": [
    "Verif.gmember_set_get",
    "Verif.gmember_set_error",
    "Verif.gmember_erase",
    "Verif.gmember_or",
    "Verif.gmember_status",
    "Verif.gmember_status_now",
    "Verif.GMember.Valid.norm_eq"
   ],
   "note": ""
  },
  {
   "property": "C92",
   "status": "proved",
   "theorems": [
    "Verif.gmember_iter"
   ],
   "note": ""
  },
  {
   "property": "C93",
   "status": "proved",
   "theorems": [
    "Verif.gmember_read_sound",
    "Verif.gmember_delivered"
   ],
   "note": "Hypotheses of delivery as in C34."
  },
  {
   "property": "C94",
   "status": "proved",
   "theorems": [
    "Verif.ginfo_set",
    "Verif.ginfo_read",
    "Verif.ginfo_delivered"
   ],
   "note": ""
  },
  {
   "property": "C95",
   "status": "partial",
   "theorems": [
    "Verif.gmember_via_c_partial",
    "Verif.gmember_via_c_sound",
    "Verif.gmember_via_c_fails"
   ],
   "note": "False of the code: names over 100 bytes and URLs over 223 bytes from other devices are written out of bounds, unknown statuses are lost (gmember_via_c_fails). Proved: everything else is preserved."
  },
  {
   "property": "C96",
   "status": "proved",
   "theorems": [
    "Verif.group_keys_in_step",
    "Verif.group_load_only_keys"
   ],
   "note": "Direct calls of add_key/replace_keys on Info or Members by the application are not part of the histories."
  },
  {
   "property": "C97",
   "status": "proved",
   "theorems": [
    "Verif.group_rekey_effects",
    "Verif.group_rekey_reaches",
    "Verif.member_no_pending"
   ],
   "note": "As in C70: entries for other members must not open with the member key (NoConfusion), shown for a concrete case. That others find no key is a secrecy property outside the model."
  },
  {
   "property": "C98",
   "status": "proved",
   "theorems": [
    "Verif.group_info_delivered",
    "Verif.group_members_delivered",
    "Verif.members_named"
   ],
   "note": "Hypotheses as in C34; no other key of the receiver opens the message."
  },
  {
   "property": "C99",
   "status": "proved",
   "theorems": [
    "Verif.unwrap_wrap",
    "Verif.unwrap_other_namespace",
    "Verif.wrap_ok",
    "Verif.unwrap_signed",
    "Verif.proto_good"
   ],
   "note": "Excluded by hypothesis: the (for SHA-512 unknown) messages whose signature nonce or ephemeral key is 0. The nesting limit of the protobuf parser and messages of 1 GiB or more are not modelled."
  },
  {
   "property": "C100",
   "status": "proved",
   "theorems": [
    "Verif.onion_to_snode"
   ],
   "note": "Relays is the specification of passing a request along; primitives as in OPrims.Good (JSON: what was dumped parses to the same members; ASCII strings can be dumped)."
  },
  {
   "property": "C101",
   "status": "partial",
   "theorems": [
    "Verif.onion_to_server_partial",
    "Verif.onion_server_payload_cut",
    "Verif.onion_port_sticky"
   ],
   "note": "Proved for payloads without NUL bytes, ASCII URLs and, if no port is given, none given to an earlier destination (onion_port_sticky: else that port is used). onion_server_payload_cut: with a NUL the payload is cut there (builder.cpp:108 passes payload.data() where a string is expected)."
  },
  {
   "property": "C102",
   "status": "proved",
   "theorems": [
    "Verif.response_authentic"
   ],
   "note": ""
  },
  {
   "property": "C103",
   "status": "proved",
   "theorems": [
    "Verif.onionParse_sound",
    "Verif.onionParse_safe"
   ],
   "note": "base64 and base32z decoding of the ephemeral key are parameters."
  },
  {
   "property": "C104",
   "status": "partial",
   "theorems": [
    "Verif.onion_to_server_partial",
    "Verif.onion_to_snode",
    "Verif.onion_snode_after_server",
    "Verif.onion_port_sticky"
   ],
   "note": "False in general: a service node set after a server is ignored (onion_snode_after_server), and a port is kept for later destinations without one (onion_port_sticky)."
  },
  {
   "property": "C105",
   "status": "proved",
   "theorems": [
    "Verif.btMerge_spec",
    "Verif.mergeSorted_spec"
   ],
   "note": ""
  },
  {
   "property": "C106",
   "status": "proved",
   "theorems": [
    "Verif.ed_api",
    "Verif.key_api_lengths",
    "Verif.hash_api",
    "Verif.curve_pair"
   ],
   "note": "For seeds whose public key is not the neutral element and messages whose nonce is not zero (both have negligible probability and are conditions of the library functions themselves)."
  },
  {
   "property": "C107",
   "status": "partial",
   "theorems": [
    "Verif.c_crypto_in_bounds_partial",
    "Verif.curve25519_key_pair_overflows"
   ],
   "note": "False of session_curve25519_key_pair, which always writes 64 bytes into the documented 32 (curve25519_key_pair_overflows); proved for the twelve others."
  },
  {
   "property": "C108",
   "status": "proved",
   "theorems": [
    "Verif.make_string_list_ok",
    "Verif.config_push_ok",
    "Verif.config_get_keys_ok"
   ],
   "note": "The contents handed to these functions are those of C08, C27 and C38. A NUL within a string ends it for C programs, as the statement says."
  },
  {
   "property": "C109",
   "status": "partial",
   "theorems": [
    "Verif.c_get_reports_partial",
    "Verif.c_group_get_reports",
    "Verif.c_error_fits",
    "Verif.c_get_overflows",
    "Verif.c_set_throws",
    "Verif.c_erase"
   ],
   "note": "False of the code for ids of 191 bytes or more, for which the getters overflow the error buffer (c_get_overflows), and of the setters, which let the exception out (c_set_throws)."
  },
  {
   "property": "C110",
   "status": "proved",
   "theorems": [
    "Verif.member_iteration",
    "Verif.keptFrom_eq"
   ],
   "note": ""
  },
  {
   "property": "C111",
   "status": "partial",
   "theorems": [
    "Verif.sodium_array_values_partial",
    "Verif.sodium_move_assign_ub"
   ],
   "note": "False of move assignment, which is always undefined behaviour (sodium_move_assign_ub); proved for programs of all other operations. Elements are bytes, the only instance in the library."
  },
  {
   "property": "C112",
   "status": "proved",
   "theorems": [
    "Verif.or_construct",
    "Verif.ucomm_or",
    "Verif.comm_convo_or",
    "Verif.comm_by_url",
    "Verif.comm_by_hex",
    "Verif.ucomm_found_by_url"
   ],
   "note": "For the last, communities stored as set stores them (CanonRooms), which set maintains."
  },
  {
   "property": "C113",
   "status": "partial",
   "theorems": [
    "Verif.string_iequal_spec",
    "Verif.end_with_spec",
    "Verif.starts_with_wrong",
    "Verif.session_id_hex_wrong"
   ],
   "note": "False of starts_with and SessionID::hex (neither is used in the library)."
  },
  {
   "property": "C114",
   "status": "proved",
   "theorems": [
    "Verif.c_encryption",
    "Verif.c_group_messages"
   ],
   "note": "malloc is taken to succeed (the code does not check it)."
  },
  {
   "property": "C115",
   "status": "proved",
   "theorems": [
    "Verif.c_subaccounts",
    "Verif.readB64_toB64"
   ],
   "note": ""
  },
  {
   "property": "C116",
   "status": "partial",
   "theorems": [
    "Verif.c_verify_subaccount_partial",
    "Verif.c_verify_subaccount_wrong"
   ],
   "note": "False of the code: values made with read permission only are accepted, and an invalid group id makes the exception leave the C function (c_verify_subaccount_wrong). Proved: it accepts exactly the valid values with read permission."
  },
  {
   "property": "C117",
   "status": "proved",
   "theorems": [
    "Verif.multi_any_api",
    "Verif.multi_ed_form",
    "Verif.multi_c_failure"
   ],
   "note": "With the hypotheses of C61 about accidental decryption under a key of someone else. The Ed25519 C++ encryption function with its default nonce is the subject of C63."
  },
  {
   "property": "C118",
   "status": "proved",
   "theorems": [
    "Verif.load_admin_key",
    "Verif.promoted_can_edit",
    "Verif.promoted_loads_old_dumps",
    "Verif.promoted_publishes"
   ],
   "note": "promoted_loads_old_dumps is stated for Info; Members is the same class of object."
  },
  {
   "property": "C119",
   "status": "partial",
   "theorems": [
    "Verif.sig_keys_partial",
    "Verif.sig_calls",
    "Verif.sig_init",
    "Verif.sig_pubkey_keeps_signer"
   ],
   "note": "False of the code: set_sig_pubkey with another key after set_sig_keys keeps the old signer, so the object signs with a key its verifier rejects. Proved for all sequences without that."
  },
  {
   "property": "C120",
   "status": "proved",
   "theorems": [
    "Verif.convo_loop",
    "Verif.ugroup_loop",
    "Verif.contacts_loop",
    "Verif.gmembers_loop"
   ],
   "note": "The loops over contacts and members throw where the listing throws: at a 33-byte key that is not a session id (C47, C92 say when that cannot happen)."
  },
  {
   "property": "C121",
   "status": "partial",
   "theorems": [
    "Verif.contact_combines_partial",
    "Verif.group_combines_partial",
    "Verif.member_combines_partial",
    "Verif.convo_combines_partial",
    "Verif.community_combines_partial",
    "Verif.community_get_combines_partial",
    "Verif.keeps_untouched",
    "Verif.keeps_nonempty",
    "Verif.erase_last_loses"
   ],
   "note": "Partial because the property is false of the code: erasing the last record of a table (or the last room of a server) removes the table, and a merge with that version loses records other devices added to the table at the same time (erase_last_loses). Proved for every device that did not remove the table (keeps_untouched and keeps_nonempty say when that is so). Legacy group members: C90."
  },
  {
   "property": "C122",
   "status": "partial",
   "theorems": [
    "Verif.key_form_read",
    "Verif.text_forms",
    "Verif.full_url_any_form",
    "Verif.comm_any_form",
    "Verif.key_form_inj",
    "Verif.key_length_partial",
    "Verif.onion_key_types",
    "Verif.oxenc_fits",
    "Verif.short_key_accepted"
   ],
   "note": "Partial because one case is false of the code: 44 characters of base64 ending in == are accepted and give a key of 31 bytes (short_key_accepted); key_length_partial says that it is the only case. The oxen-encoding library is modelled from its documentation."
  },
  {
   "property": "C123",
   "status": "partial",
   "theorems": [
    "Verif.c_call_iff",
    "Verif.c_call_in_bounds",
    "Verif.c_build_iff",
    "Verif.c_decrypt_iff",
    "Verif.c_onion_to_snode",
    "Verif.c_onion_to_server_partial",
    "Verif.c_decrypt_authentic",
    "Verif.c_setters_throw"
   ],
   "note": "Partial only for server destinations, as C101: payloads without NUL and ASCII URLs. Setters throw C++ exceptions for bad arguments (c_setters_throw). The documented onion_request_builder_free does not exist."
  },
  {
   "property": "C124",
   "status": "partial",
   "theorems": [
    "Verif.c_comm_get_partial",
    "Verif.c_ucomm_get_partial",
    "Verif.c_comm_overread",
    "Verif.c_convo_back",
    "Verif.c_comm_set_get",
    "Verif.c_comm_erase",
    "Verif.c_convo_loop",
    "Verif.c_ugroup_loop_partial",
    "Verif.c_legacy_members",
    "Verif.c_group_kicked"
   ],
   "note": "False when the server is stored without a key of 32 bytes: the C getters then read beyond an empty string (c_comm_overread, with a reachable instance). The loop over groups needs stored names of at most 100 bytes (see C89)."
  },
  {
   "property": "C125",
   "status": "partial",
   "theorems": [
    "Verif.comm_obj_always",
    "Verif.comm_setters",
    "Verif.set_full_url_half",
    "Verif.comm_obj_url",
    "Verif.comm_obj_set",
    "Verif.comm_obj_set_get",
    "Verif.comm_obj_short_key",
    "Verif.c_parse_partial_url_partial"
   ],
   "note": "False in two cases, both shown: set_full_url is not all-or-nothing (set_full_url_half), and a key of 31 bytes is accepted and hides the server (comm_obj_short_key). The C parser for partial URLs overruns its buffer exactly for rooms of more than 64 characters."
  },
  {
   "property": "C126",
   "status": "proved",
   "theorems": [
    "Verif.c_config_roundtrip",
    "Verif.c_config_decrypt_sound",
    "Verif.c_config_encrypt_fails",
    "Verif.c_padded_size",
    "Verif.c_padded_size_limits",
    "Verif.c_random"
   ],
   "note": "Where malloc(0) returns null an empty message decrypts to a null pointer with size 0 (in the statement). Near the top of size_t the padded size wraps (c_padded_size_limits)."
  },
  {
   "property": "C127",
   "status": "partial",
   "theorems": [
    "Verif.c_keys_call",
    "Verif.c_keys_run",
    "Verif.c_keys_between",
    "Verif.c_keys_by_index",
    "Verif.c_keys_hashes",
    "Verif.c_keys_restart",
    "Verif.c_rekey_reaches",
    "Verif.c_load_admin",
    "Verif.c_keys_generation_partial",
    "Verif.c_keys_generation_wraps"
   ],
   "note": "All but the generation is proved in full; the generation is right below 2^31 only, and wrong beyond (c_keys_generation_wraps), because current_generation returns int. That a rekey reaches a member has the same assumptions as C97."
  },
  {
   "property": "C128",
   "status": "proved",
   "theorems": [
    "Verif.c_init",
    "Verif.c_merge_reads",
    "Verif.c_push_reads",
    "Verif.c_hashes_reads",
    "Verif.c_keys_read",
    "Verif.c_keys_count",
    "Verif.c_restart",
    "Verif.c_sync"
   ],
   "note": "The hypotheses of c_sync are those of C34 (delivery)."
  },
  {
   "property": "C129",
   "status": "partial",
   "theorems": [
    "Verif.c_profile_call",
    "Verif.c_profile_run",
    "Verif.c_info_call",
    "Verif.c_info_run",
    "Verif.c_info_member",
    "Verif.c_shown_by_content",
    "Verif.c_pic_overflow",
    "Verif.c_profile_fails",
    "Verif.c_group_init",
    "Verif.c_group_restart"
   ],
   "note": "Everything stated is proved. Partial because reading is not always safe or exact: a stored picture URL of 224 bytes or more overflows the struct, timers beyond int wrap, and void setters throw through C on a member's object (all three proved)."
  },
  {
   "property": "C130",
   "status": "proved",
   "theorems": [
    "Verif.crash_recovery",
    "Verif.Life.after",
    "Verif.merge_own_again",
    "Verif.merge_after",
    "Verif.crash_recovery_world",
    "Verif.dirty_dump_revives_old_value"
   ],
   "note": "crash_recovery_world has no condition on histories (C131); crash_recovery is for any messages: those merged in between must list histories transitively (as those published by this library do when they are computed from what the device held), the two configs must not collide under the hash, restarts in between are for unsigned configs (C40 shows why). For a dump with unpublished modifications the property fails (dirty_dump_revives_old_value), so the statement is for dumps without."
  },
  {
   "property": "C131",
   "status": "proved",
   "theorems": [
    "Verif.histories_closed",
    "Verif.history_kept",
    "Verif.catches_up",
    "Verif.crash_recovery_world",
    "Verif.Node.trans"
   ],
   "note": "For devices that can sign or unsigned configs; restarts in between for unsigned configs (a signed config loses its hash when reloaded: reload_forgets_signed_push)."
  },
  {
   "property": "C132",
   "status": "proved",
   "theorems": [
    "Verif.rekey_contents",
    "Verif.supplement_contents",
    "Verif.rekey_excludes",
    "Verif.supplement_excludes",
    "Verif.removed_member_shut_out",
    "Verif.without_the_key",
    "Verif.merge_unreadable"
   ],
   "note": "Assumes of the cipher, for the message in question, that the key of the excluded device opens none of its ciphertexts (Shut); the example shows a group of two from which one is erased, with a toy cipher for which this is checked."
  },
  {
   "property": "C133",
   "status": "proved",
   "theorems": [
    "Verif.merge_never_fails"
   ],
   "note": "Assumes no two different configs of the batch have the same hash, that seqnos leave room for the lag, and that the device holds a config or gets one."
  },
  {
   "property": "C134",
   "status": "partial",
   "theorems": [
    "Verif.redelivery_changes_nothing_partial",
    "Verif.merge_after_any",
    "Verif.merge_known",
    "Verif.twin_edit_revived"
   ],
   "note": "Partial because one case is false of the code: a message merged while the unpublished config of the device was identical to it, which the device then modified further (twin_edit_revived). Everything else is covered."
  },
  {
   "property": "C135",
   "status": "proved",
   "theorems": [
    "Verif.one_round_agrees",
    "Verif.then_silence",
    "Verif.push_same",
    "Verif.round_of_pushes"
   ],
   "note": "Unsigned or signed configs of devices that can write; restarts only for configs without signature (as in Node)."
  },
  {
   "property": "C136",
   "status": "proved",
   "theorems": [
    "Verif.collections_are_maps",
    "Verif.says_unique"
   ],
   "note": "For configs that can be written, with signed or unsigned messages and seqnos below 2^63 - lag. Merges in between are those that leave the seqno unchanged; what merges that bring news do to the records is C59, C60, C90 and C121. Conversations are excluded because pruning drops stale records (C56)."
  },
  {
   "property": "C137",
   "status": "proved",
   "theorems": [
    "Verif.c_collections_are_maps",
    "Verif.c_get_set_keeps",
    "Verif.c_struct_roundtrip",
    "Verif.c_struct_kicked",
    "Verif.c_set_free"
   ],
   "note": "Records set by other means (C++ callers, other devices) that do not fit a struct are C49, C89 and C95; longer invalid ids overflow the error buffer (C109). Enumeration fields hold one of their enumerators. A group read under an upper-case spelling comes without its admin key (C83), so c_get_set_keeps asks for the lower-case one. The memory blocks allocated for legacy groups are not modelled: ugroups_legacy_group_free and user_groups_set_free_legacy_group release only the members and leave the struct itself to the caller, who has no function to release it."
  },
  {
   "property": "C138",
   "status": "proved",
   "theorems": [
    "Verif.conversations_are_a_book",
    "Verif.book_behaves",
    "Verif.book_unique"
   ],
   "note": "Times beyond the year 2262 are undefined behaviour (C55) and negative times are excluded. Groups are never pruned (C56), which is what the specification says here. The result of push itself is C29 to C35; here it is only what push does to the conversations. Merges that bring changes of other devices are C59 and C121."
  },
  {
   "property": "C139",
   "status": "proved",
   "theorems": [
    "Verif.group_list_is_a_roll",
    "Verif.roll_behaves",
    "Verif.roll_unique"
   ],
   "note": "The public key function is a parameter of which only the length of its result (32) is used. What set keeps of a group is described by groupSpec, including that a group with a matching secret key keeps its old authentication data (C83). Merges that bring changes of other devices are C88 and C121. The iterator that erases while iterating is C120."
  },
  {
   "property": "C140",
   "status": "proved",
   "theorems": [
    "Verif.kinds_differ",
    "Verif.derivation_unique",
    "Verif.kind_good",
    "Verif.other_kind_ignored",
    "Verif.dumps_not_kept_apart"
   ],
   "note": "BLAKE2b, XChaCha20-Poly1305, zstd and the curve are parameters; what is assumed of them for one message is the structure Apart, met by concrete messages in the examples (Info and Members of one group; contacts and profile of one account)."
  },
  {
   "property": "C141",
   "status": "proved",
   "theorems": [
    "Verif.accepted_iff_documented",
    "Verif.version_break_ignored",
    "Verif.published_documented"
   ],
   "note": "For dicts encoded as the library encodes them (no leading zeros in numbers). hub excludes overflow of seqno - lag."
  },
  {
   "property": "C142",
   "status": "partial",
   "theorems": [
    "Verif.merge_follows_procedure_partial",
    "Verif.merge_documented_partial",
    "Verif.merge_same_seqno_documented",
    "Verif.merge_published",
    "Verif.update_follows_procedure",
    "Verif.procedure_unique",
    "Verif.old_changes_replayed"
   ],
   "note": "False of the code in one point: the cutoff of step 4 (past diffs with seqno >= newseqno - N) is not applied (old_changes_replayed, two honest histories). Everything else of the procedure is proved; with the cutoff when all current messages have the same seqno. No two different inputs with equal hash."
  },
  {
   "property": "C143",
   "status": "proved",
   "theorems": [
    "Verif.keymsg_accepted_iff",
    "Verif.load_accepts_iff",
    "Verif.packed_keys_refused",
    "Verif.rekeys_in_format",
    "Verif.supplements_in_format"
   ],
   "note": "For dicts encoded as the library encodes them, keys ascending; hplain says the same of the supplement the member decrypts."
  },
  {
   "property": "C144",
   "status": "proved",
   "theorems": [
    "Verif.push_plain_iff",
    "Verif.push_wrapped_iff",
    "Verif.push_limit_iff",
    "Verif.push_failed"
   ],
   "note": "For wrapped kinds: the ephemeral key of the envelope of this message is not the zero point, and the packed config is below 512 MiB."
  },
  {
   "property": "C145",
   "status": "proved",
   "theorems": [
    "Verif.c_conversations_are_a_book",
    "Verif.c_convo_put_back"
   ],
   "note": "Longer invalid ids overflow the error buffer (C109). Lifetimes of iterators and of the config object are not modelled."
  },
  {
   "property": "C146",
   "status": "proved",
   "theorems": [
    "Verif.c_group_list_is_a_roll",
    "Verif.c_group_put_back"
   ],
   "note": "A group with an admin key has to be asked for in lower case to be put back without loss (C83). Lifetimes of iterators, of the config object and of the member maps of legacy groups are not modelled."
  },
  {
   "property": "C147",
   "status": "proved",
   "theorems": [
    "Verif.again_does_nothing",
    "Verif.again_after_push",
    "Verif.again_after_delivery",
    "Verif.field_again",
    "Verif.clear_does_nothing",
    "Verif.clear_stores_nothing",
    "Verif.contact_space",
    "Verif.member_space",
    "Verif.legacy_space",
    "Verif.group_space",
    "Verif.ucomm_space"
   ],
   "note": "Last-read times are before the year 2262 (C55). A group saved with its admin key keeps authentication data stored before, although the header says it is omitted (group_space states this)."
  },
  {
   "property": "C148",
   "status": "proved",
   "theorems": [
    "Verif.torn_dump_refused",
    "Verif.dump_tail_ignored",
    "Verif.torn_message_refused",
    "Verif.torn_keys_dump",
    "Verif.keys_dump_tail",
    "Verif.any_keys_dump",
    "Verif.keys_dump_last_byte"
   ],
   "note": "Loading a keys dump whose timestamps overflow when they are converted to nanoseconds is undefined behaviour in the code; any_keys_dump speaks of dumps for which loading returns."
  },
  {
   "property": "C149",
   "status": "proved",
   "theorems": [
    "Verif.unwrap_iff",
    "Verif.unwrap_any_encoding",
    "Verif.request_in_parts"
   ],
   "note": "As C99: fields of field number above 15 and of other wire types are covered by unwrap_iff, not by the explicit encodings of unwrap_any_encoding; the nesting limit of the protobuf parser is not modelled. Whether other messages in the same Content parse is a parameter."
  },
  {
   "property": "C150",
   "status": "proved",
   "theorems": [
    "Verif.readonly_newest",
    "Verif.readonly_agree",
    "Verif.readonly_forward",
    "Verif.noncanonical_goes_back"
   ],
   "note": "The proviso about equal seqnos is necessary: readonly_agree_needs, readonly_diverges (the first of two conflicting versions given is kept, C35). Messages have a seqno that is not negative and are signed in the form the library writes, and their hashes do not collide; noncanonical_goes_back: a newer version signed in another form is accepted, and then the next merge of an older version takes the object back to that."
  },
  {
   "property": "C151",
   "status": "partial",
   "theorems": [
    "Verif.remove_own",
    "Verif.add_own",
    "Verif.replace_own",
    "Verif.add_copy",
    "Verif.remove_copy_eq"
   ],
   "note": "False of the code in two of the four cases, for every list: add_key(key(i)) with i > 0 loses key i and puts key i-1 at the front a second time (add_own), and replace_keys(get_keys()) makes every key 32 zero bytes (replace_own). remove_key and low-priority add_key are right (remove_own, add_own); with copies all calls do what C41 says (add_copy, remove_copy_eq). How std::vector moves its elements is modelled after the usual implementation; the standard leaves reading through such a view undefined."
  },
  {
   "property": "C152",
   "status": "partial",
   "theorems": [
    "Verif.takeover_version",
    "Verif.same_seqno_pushes",
    "Verif.takeover_version_dirty"
   ],
   "note": "True of objects without edits (takeover_version, exact in all cases). False of the code for an object with edits that are too old for the version it is given: the edits are dropped, nothing is to be pushed, and the object calls the content it took over by the next seqno; when the real version of that seqno arrives it is in conflict (same_seqno_pushes) and a further version without any edit must be pushed (takeover_version_dirty)."
  },
  {
   "property": "C153",
   "status": "partial",
   "theorems": [
    "Verif.merged_version_claims",
    "Verif.merged_then_edited",
    "Verif.late_edits_kept",
    "Verif.late_edits_overruled",
    "Verif.third_edit_lost",
    "Verif.third_edit_kept"
   ],
   "note": "True of objects that had edits of their own when they merged: the version made says it changed nothing, and later edits are kept (merged_version_claims, late_edits_kept, third_edit_kept). False of the code for all others: the retain_seqno constructor leaves the original content empty, so the version made says that it changed everything, and overrules every lower version that arrives later (late_edits_overruled, proved for every such merge and every batch of later versions); third_edit_lost is an execution in which an edit is lost on all devices although nobody touched the same entry."
  },
  {
   "property": "C154",
   "status": "proved",
   "theorems": [
    "Verif.follower_follows",
    "Verif.follower_content",
    "Verif.followers_agree",
    "Verif.follower_needs_one_writer"
   ],
   "note": "Devices that can sign (or unsigned configs); no two different configs of the account with the same hash. Restarts for unsigned configs (see C36). Read-only members are the subject of C150. follower_needs_one_writer: with two devices that edit, a third that does not edit may have to push."
  },
  {
   "property": "C155",
   "status": "proved",
   "theorems": [
    "Verif.turns_in_turn",
    "Verif.turn_taken",
    "Verif.turn_newest",
    "Verif.turns_settle",
    "Verif.turn_follows",
    "Verif.turn_content",
    "Verif.turns_agree",
    "Verif.follower_needs_one_writer"
   ],
   "note": "Devices that can sign (or unsigned configs); no two different configs of the account with the same hash. Restarts for unsigned configs (see C36). turn_follows, turn_content, turns_agree: for all versions of which each was made in view of the earlier ones (InTurn), which turns_in_turn shows of Turns. follower_needs_one_writer: of two devices that edit without knowing of each other the versions may conflict."
  },
  {
   "property": "C156",
   "status": "proved",
   "theorems": [
    "Verif.turns_as_one",
    "Verif.turns_as_one_everywhere",
    "Verif.turns_have_newest",
    "Verif.PathOp.run_content",
    "Verif.one_device"
   ],
   "note": "Devices that can sign (or unsigned configs); no two different configs of the account with the same hash; restarts for unsigned configs (see C36). Edits with values the bencoding admits (typed)."
  },
  {
   "property": "C157",
   "status": "proved",
   "theorems": [
    "Verif.calls_as_one",
    "Verif.Alone.unique",
    "Verif.same_content_reads",
    "Verif.same_content_shows",
    "Verif.community_removal_depends",
    "Verif.AccountCall.planned"
   ],
   "note": "For the calls in AccountCall. Removing a community is not one of them, with a witness (community_removal_depends): with the same content, the server entry stays or goes depending on whether an emptied room was published."
  }
 ]
}
