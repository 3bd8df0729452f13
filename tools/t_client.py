T('C27','proved',['decrypt_encrypt','decrypt_sound','decrypt_short','decrypt_errors','encrypt_refuses'],'Secrecy and unforgeability of the AEAD are not modelled.')
T('C28','proved',['padded_total','pad_buckets','paddedSize_mono','paddedSize_idem','unpad_pad','unpad_id'])
T('C29','proved',['seqno_never_decreases','seqno_restored','negative_seqno_lowers','noncanonical_goes_back'],'For fair messages (non-negative seqno, canonical signature form - published_fair shows the library publishes only such); negative_seqno_lowers shows that an accepted message with a negative seqno breaks the claim, noncanonical_goes_back that one signed in another form does.')
T('C30','proved',['seqno_identifies_content','pushes_agree'])
T('C31','proved',['pending_until_confirmed'])
T('C32','proved',['confirm_after_push','stale_confirm_ignored','edit_outlives_old_confirm'])
T('C33','proved',['readonly_never_pending'])
T('C34','proved',['delivery','receive_head','receive_any','receive_unwrapped','receive_unwrapped_sent'],'Receiver key in front, or anywhere if the config is not protobuf-wrapped and no earlier key opens the message. zstd and the protobuf wrapper are parameters with inverse laws.')
T('C35','proved',['convergence','readonly_diverges'],'For objects able to sign (or unsigned configs), fair messages, no hash collision; readonly_diverges shows that read-only objects need not converge.')
T('C36','proved',['merge_returns_accepted','junk_ignored','receive_iff','accepts_iff','nothing_usable_throws'])
T('C37','partial',['merge_obsolete','adopted_hash_partial','live_hash_made_obsolete','own_copy_made_obsolete'],'False of the code (two witnesses). Proved: obsolete hashes come only from accepted messages and the former current hash; and the full claim for batches of valid messages with fresh distinct hashes.')
T('C38','proved',['dump_roundtrip','seqno_restored'],'Configs without extra_data; seqno at least lag below 2^63.')
T('C39','partial',['needs_dump_partial','needs_dump_misses_only','needs_dump_misses_edit','needs_dump_misses_obsolete'],'False of the code in two cases (witnesses): further edits on top of pending ones, and obsolete hashes. needs_dump_misses_only: those two are all; in any other history a reload of the last dump loses nothing.')
T('C40','partial',['next_lists_pushed','next_lists_reloaded_partial','next_lists_reloaded_iff','reload_pending_lists','reload_forgets_signed_push'],'False of the code for signed configs after a reload (witness). next_lists_reloaded_iff says when exactly: the signed and the unsigned form of the config must have the same hash. reload_pending_lists: a dump made while the edit is pending loses nothing, signed or not.')
T('C41','partial',['keys_wellformed','add_key_front','add_key_back','add_key_refuses','remove_key_removes','replace_keys_sets','new_front_key_dirties','push_follows_front','remove_from_marks','remove_from_marks_case'],'All of it proved for add_key, clear_keys, replace_keys and remove_key with its default position. False of the code for remove_key with a position of 1 or more and the first key: nothing is removed and the config is marked for pushing all the same (remove_from_marks, for every reachable object; remove_from_marks_case, a concrete one).')
T('C42','partial',['asserts_hold_partial','asserts_new_iff','asserts_readonly_iff','assert_fails_on_new_object','assert_fails_readonly'],'False of the code (witnesses) for new and read-only objects; asserts_new_iff and asserts_readonly_iff say for which messages exactly.')
