P('C130','Recovery from an old dump',
 'A device writes a dump at a moment when nothing is unpublished, goes on - any calls, any merges with messages of the devices of the account, any restarts -, publishes, and dies before it writes another dump. An object made from the old dump and given the encryption key, that merges the message published last, is exactly where the device was: the same content and seqno, the message reported as accepted, and, if anything had changed since the dump, nothing to push and the storage hash of that message as the current one. If nothing had changed, the merge changes nothing. What a device holds always is what it held at any earlier moment, or lists it in its history, or is lag or more ahead of it.',
 'all histories of the device before and after the dump, all crash points after a push, all contents',
 'Quantifies over all histories between the dump and the crash; a test fixes one.',
 ['src/config/base.cpp: dump, load_dump, merge, push','src/config.cpp: MutableConfigMessage increment, merge of ConfigMessage, lagged diffs','include/session/config/base.hpp: dump'],
 'An invariant over the life of the device after the dump (Life.after): the messages it would publish list the dumped config or are lag ahead; through a merge it follows from follows_current (of a batch whose listed histories are transitive one of the current messages follows what any follows). Then delivery (C34). What fails, and is proved to fail: a dump taken while modifications are unpublished is turned into a config of its own on loading, and may win over the newer values pushed later (dirty_dump_revives_old_value).')
P('C131','The history listed by messages is complete',
 'Among the devices of an account (whose configs do not collide under the hash), with any calls, any merges of each other\'s messages in any order, and any restarts: a message that lists another one in its history lists everything that one lists, as far as it is less than lag behind. What a device publishes lists every config it ever held without unpublished modifications, or is lag or more ahead of it. So a device that still holds an earlier config of another device takes over what that one publishes later exactly, without a conflict, whatever happened in between; and recovery from an old dump (C130) needs no further condition.',
 'all sets of devices, all interleavings of calls, merges and restarts, all batches',
 'Quantifies over all histories of any number of devices.',
 ['src/config.cpp: increment_impl, merge constructor of ConfigMessage (lagged_diffs_), parse of lagged diffs','src/config/base.cpp: merge, dirty, load_dump'],
 'Trans: by induction over the states of the devices (Node), for each way a config comes about (increment, merge of conflicting messages, adoption, loading of a dump) the list of ancestors contains with a config also what that one lists; a config is identified by seqno and hash (Node.same, from the absence of collisions in the set W of configs that occur). Then HistoryClosed (the hypothesis of C14) holds for every batch, and Life.after (C130) applies.')
