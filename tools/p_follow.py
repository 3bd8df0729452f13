P('C154','If only one device edits, nobody else ever has to push',
 'Among the devices of an account let one device do anything (edits, pushes, merges, restarts), and let the others only be given what it published, in any order and in any batches, with repetitions, missing versions and junk mixed in, and make calls that leave nothing to push. Then no conflict ever arises: the others never have anything to push, hold exactly the highest version they were given, and agree as soon as they were given the same versions.',
 'all lives of the publishing device, all sequences of calls, merges and restarts of the others, all batches',
 'Whether a late or missing version looks like a conflict depends on the whole history of the publisher and on the order of delivery.',
 ['src/config/base.cpp: ConfigBase::_merge, ConfigBase::needs_push','src/config.cpp: ConfigMessage::ConfigMessage (vector), increment_impl'],
 'Props/Follow.lean: the versions a device publishes in its life are linearly ordered by "follows" (C131), so a batch has one current message; invariant of the followers by induction over their executions.')
