P('C156','An account whose devices take turns behaves as one device',
 'Let any number of devices make edits of fields (assign, erase, insert into a set, remove from a set, at any path), each device only after it was given the newest version published so far, publishing at the end of its turn. Then the newest version has exactly the content that a single device would have that made all these edits itself, one after the other; and so has every device that was given the newest version, whatever else it was given; none of them has anything to push.',
 'all numbers of devices, all sequences of turns and edits, all pushes, confirmations, dumps, merges and restarts in between, all orders of delivery',
 'It takes the whole history: one turn whose edits are lost, doubled or taken for a conflict shows only in the content many turns later.',
 ['src/config/base.cpp: ConfigBase::_merge','include/session/config/base.hpp: DictFieldProxy','src/config.cpp: ConfigMessage::ConfigMessage (vector), MutableConfigMessage::prune'],
 'Props/OneDevice.lean: each field edit commutes with pruning, so its effect on the content depends on the content only; induction over the turns with C155.')
