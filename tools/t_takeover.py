T('C152','partial',['takeover_version','same_seqno_pushes','takeover_version_dirty'],'True of objects without edits (takeover_version, exact in all cases). False of the code for an object with edits that are too old for the version it is given: the edits are dropped, nothing is to be pushed, and the object calls the content it took over by the next seqno; when the real version of that seqno arrives it is in conflict (same_seqno_pushes) and a further version without any edit must be pushed (takeover_version_dirty).')
T('C153','partial',['merged_version_claims','merged_then_edited','late_edits_kept','late_edits_overruled','third_edit_lost','third_edit_kept'],'True of objects that had edits of their own when they merged: the version made says it changed nothing, and later edits are kept (merged_version_claims, late_edits_kept, third_edit_kept). False of the code for all others: the retain_seqno constructor leaves the original content empty, so the version made says that it changed everything, and overrules every lower version that arrives later (late_edits_overruled, proved for every such merge and every batch of later versions); third_edit_lost is an execution in which an edit is lost on all devices although nobody touched the same entry.')
