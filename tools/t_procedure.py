T('C142','partial',['merge_follows_procedure_partial','merge_documented_partial','merge_same_seqno_documented','merge_published','update_follows_procedure','procedure_unique','old_changes_replayed'],'False of the code in one point: the cutoff of step 4 (past diffs with seqno >= newseqno - N) is not applied (old_changes_replayed, two honest histories). Everything else of the procedure is proved; with the cutoff when all current messages have the same seqno. No two different inputs with equal hash.')
