T('C01','proved',['config_roundtrip','config_roundtrip_signed'],
  'For every message object reachable through the API (Made); hypotheses: seqno-lag does not overflow int64 and, if a verifier is set, it accepts the signature written.')
T('C02','proved',['accepted_canonical'])
T('C03','proved',['serialize_injective'])
T('C04','proved',['unknown_keys_survive'],'Values up to the sorting of nested dict keys done by std::map (norm). A real merge drops unknown keys (see C24).')
T('C05','proved',['accepted_signed','signed_bytes_determine_content','rejecting_verifier_rejects'])
T('C06','proved',['accepted_lag_window'])
T('C07','partial',['parse_terminates_partial','parse_hangs_iff','hang_ignores_signature','key_holder_hangs_merge','parse_may_hang'],'The claim is false of the code: parse_may_hang is a 24-byte witness. The partial theorem covers all inputs whose diffs have no integer values. parse_hangs_iff says exactly which bencoded dicts hang the parser (TrapMsg, a specification on bencoded values); hang_ignores_signature: signatures play no role, for all bytes; key_holder_hangs_merge: whoever holds an encryption key can hang merge in every object that uses it.')
T('C08','partial',['merge_skips_invalid_partial','merge_stops','parse_foreign_iff','junk_aborts_merge','huge_int_aborts_merge'],'False of the code for inputs that are not a bencoded dict, and for messages with an integer of 2^63 or more in a set change (witnesses junk_aborts_merge, huge_int_aborts_merge); proved for all batches of valid or config_error inputs. merge_stops and parse_foreign_iff say what happens otherwise: the first other input decides the outcome of the whole batch, and apart from inputs that hang (C07) these two kinds are all.')
T('C09','proved',['diff_then_apply','published_diff_replays'])
T('C10','proved',['diff_empty_iff','published_diff_empty_iff'])
T('C11','proved',['diff_accepted'])
T('C12','proved',['merge_order_irrelevant','merge_depends_on_set'],'Up to the index of the unmerged message; no two different inputs with equal hash; lag >= 1.')
T('C13','proved',['merge_duplicates_irrelevant','merge_depends_on_set'],'Same hypotheses as C12.')
T('C14','proved',['merge_absorbs_inputs'],'For sub-batches the listed histories must be transitive inside the lag window (HistoryClosed), which holds of histories produced by increment.')
T('C15','proved',['merge_seqno'])
T('C16','proved',['merge_safe','highest_is_current','merge_lag_zero_ub'],'For lag >= 1; for lag 0 the claim is false (merge_lag_zero_ub).')
T('C19','proved',['readonly_never_fabricates','readonly_takes_highest'])
T('C20','proved',['too_old_ignored'])
T('C22','partial',['merge_succeeds_partial','merge_fails_iff','inconsistent_diff_aborts_merge'],'False of the code: one accepted message with a malformed set diff aborts the whole merge (witness). Proved when all set changes list only strings and integers; merge_fails_iff says exactly when a merge fails.')
T('C23','proved',['diff_touches_only_changes','diff_carries_changes'],'Of the diff against any previous content. That a version made by merging without edits of its own takes the empty content as the previous one is C153.')
T('C24','partial',['unmerged_keeps_unknown_partial','merge_drops_unknown','real_merge_has_no_unknown'],'False of the code for real merges: they never keep an unknown key (witness).')
T('C17','proved',['concurrent_updates'],'Honest base (Honest inductive), children published from one increment each, client able to merge, lag >= 1, no hash collision among the inputs. lost_element_returns shows that the restriction to merge-free histories is needed for elements absent from a set.')
T('C18','proved',['highest_change_wins','concurrent_updates'])
T('C21','proved',['descendant_supersedes'],'Any number of increments, edits and publish/load steps; lag >= 1.')
T('C25','partial',['top_change_survives_partial','removed_dict_swallows_change','lost_element_returns'],'False of the code (two witnesses).')
T('C26','proved',['history_precedes'])
