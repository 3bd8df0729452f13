P('C142','Updates and merges follow the documented procedure',
 'A plain update has the next seqno, the differences as diff, and as history that of its predecessor with the predecessor itself, less what is too old. A merge has one more than the highest seqno; its data are those of the highest current message with the replay set applied in order of rank: the own diff of every current message and the past diffs within the cutoff, each taken from the highest message that records it; its history is the replay set, its diff the further changes. This leaves nothing open: the messages determine the result.',
 'all accepted batches of messages, in any order and number; all lags at least 1',
 'The result is specified for every batch by a document; tests compare a few batches.',
 ['docs/config-merge-logic.md: Non-conflicting updates, Conflict resolution','src/config.cpp: ConfigMessage::ConfigMessage (merging), apply_diff, MutableConfigMessage::increment, serialize_impl'],
 'Verif/Props/Procedure.lean: a specification written from the document (ReplaySet, Replayed, Procedure) on leaves, shown to determine the result (procedure_unique). The code is shown to follow it with no cutoff in general and with the documented cutoff when no current message records an older change, in particular when all have one seqno. It does not apply the cutoff otherwise: a device five updates ahead has its value set back by a change of a slower device that is older than the window (old_changes_replayed).')
