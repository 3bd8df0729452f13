P('C152','A device that takes over a version is at that version',
 'After a merge that leaves nothing to push, the object either is as before, or holds the content of the highest valid version it was given and is at exactly that seqno; so when the next version of that device arrives it is taken over in turn and nothing needs to be pushed.',
 'all reachable objects, with and without edits not yet pushed, all batches of messages',
 'The histories, batches and seqnos are unbounded, and the case that fails needs a device that lags behind by config_lags() versions while it has edits.',
 ['src/config/base.cpp: ConfigBase::_merge','src/config.cpp: MutableConfigMessage::MutableConfigMessage (vector), increment_impl'],
 'Props/Takeover.lean: from the outcome analysis of merges (ClientMerge.lean); two different versions of one seqno always conflict (same_seqno_pushes).')
P('C153','A version made by merging claims only what the merge changed',
 'The version an object makes by merging concurrent versions carries, as what it changed itself, nothing beyond their changes and its own edits. So a concurrent edit that reaches the devices later, of an entry that none of the merged versions touched, is not undone by it.',
 'all reachable objects, all batches that lead to a new version, all versions that arrive later, all paths',
 'It is about every content, every batch and every later version; and about what a third device does with a version that a second one made.',
 ['src/config/base.cpp: ConfigBase::_merge','src/config.cpp: MutableConfigMessage::MutableConfigMessage (retain_seqno), MutableConfigMessage::diff','include/session/config.hpp: MutableConfigMessage::orig_data_'],
 'Props/Claims.lean: the diff of the version made is computed from the constructor used (retain_seqno, or the merging constructor), in terms of what a diff says at a path (Spec.lean); its effect on later merges from highest_change_wins (C18).')
