P('C155','Devices that take turns never conflict',
 'Let any number of devices edit and publish, but each only after it was given the newest version published so far (by any device, in any order and batches, with repetitions, gaps and junk). Then every version published is newer than all before it or the same, no device has anything to push except what it edited itself, a device that is given the newest version has exactly its content, and devices that were given the same versions agree.',
 'all numbers of devices, all sequences of turns, all calls, merges and restarts in between, all batches',
 'Whether two versions conflict is decided by the histories they carry, which depend on every earlier turn; the history is cut off after some versions.',
 ['src/config/base.cpp: ConfigBase::_merge, ConfigBase::needs_push','src/config.cpp: ConfigMessage::ConfigMessage (vector), increment_impl'],
 'Props/Turns.lean: "follows" is transitive among the versions of an account (the histories are closed, C131), so versions made in turn are linearly ordered and a batch has one current message; invariant by induction over the turns and over the executions of each device.')
