P('C133','Merging what one\'s own devices published never fails',
 'Let any number of devices of an account produce messages in any way: edits, pushes, merges of each other\'s messages, dumps and restarts, in any order. Then merge() on any of them, given any selection of these messages in any order and any number of times, mixed with bytes that do not decrypt or are not config messages, does not throw: it returns the hashes of exactly the messages that are config messages. (In particular no history the library itself produces contains a diff that aborts a merge, C22.)',
 'all histories of all devices, all batches',
 'Whether a merge can throw depends on the diffs collected by every device on the way; a test merges a few messages.',
 ['src/config/base.cpp: merge, _merge','src/config.cpp: ConfigMessage(vector), apply_diff'],
 'DiffsOk is an invariant of the reachable devices (Peer.diffsOk): every diff a config lists, and its own, changes sets only by strings and integers - diffs are computed by diff_impl from typed data, and lists of diffs are only passed on. With merge_succeeds_partial (C22) the merge succeeds. Assumes no hash collisions in the batch and seqnos below 2^63 - lag.')
P('C134','What a device has merged or published changes nothing when it arrives again',
 'Let a device merge a message of a device of the account, or hold it itself as its published config, and then go on in any way: edits, pushes, merges, restarts. When that message, or any number of such messages, arrives again - alone or mixed with junk - merge() reports it accepted and changes nothing: content, seqno, the bytes that would be pushed, needs_push and the current hashes are as before, also when modifications are pending.',
 'all histories of the device and of the account, all such messages, all later points',
 'Redelivery may happen at any later point after any further activity; a test replays one message at one point.',
 ['src/config/base.cpp: _merge','src/config.cpp: ConfigMessage(vector) (redundancy by lagged diffs), MutableConfigMessage'],
 'merge_after_any: after a merge the config follows (is, lists, or is lag ahead of) every message that took part; Onward.after: it goes on following; merge_known: merging what is followed changes nothing. Uses that listed histories are transitive (C131). False in one corner: the message was merged while the unpublished config of the device was identical to it, and the device modified that further (twin_edit_revived).')
P('C135','Devices that stop editing agree after one exchange, and then stay silent',
 'Let any number of devices of an account, after any histories, have published their modifications, and let each merge a batch that contains what each of the others published (in any order, with repetitions, its own message and undecryptable bytes mixed in). Then no merge fails; all devices have the same content and seqno, and the bytes they would publish are the same; if a conflict had to be resolved all of them must push and they push the same bytes. After that - whether they pushed, had it confirmed or restarted - merging any of the messages of the exchange or what the devices push then changes nothing on any of them.',
 'all sets of devices, all histories, all orders of delivery',
 'Agreement and termination of the conflict resolution are about every set of histories and every delivery order; a test has two devices and one order.',
 ['src/config/base.cpp: merge, push, confirm_pushed','src/config.cpp: ConfigMessage(vector)'],
 'Round/Settled describe the exchange; one_round_agrees combines C133, C35 (convergence) and Round.after (each device follows what every other held) with the absence of hash collisions; then_silence is merge_known for the common config; push_same: the pushed bytes are a function of config and key. Same front encryption key on all devices (round_of_pushes).')
