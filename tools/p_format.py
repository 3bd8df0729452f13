P('C141','The messages accepted are exactly those in the documented format',
 'A bencoded dict is accepted as a config message if and only if it follows the format of docs/config-merge-logic.md: keys ascending, "#" first (a key before it is a version break and the message is refused), application data canonical at every depth, earlier changes in order and in the window, diffs of the four documented kinds, a valid 64-byte signature last where one is required; unknown keys are kept. What is read is what the message says, and everything a client publishes is in this format.',
 'all bencoded dicts, however nested; all lags, verifiers and published messages',
 'An equivalence over all inputs: no test can show that nothing else is accepted, or that nothing documented is refused.',
 ['docs/config-merge-logic.md','src/config.cpp: ConfigMessage::ConfigMessage, parse_data, load_diff, parse_lagged_diffs, verify_config_sig','src/config/internal.cpp: load_unknowns'],'Verif/Props/Format.lean: a specification written from the document (Documented, DataIs, ChangeOk, EarlierAre), equivalence with the parser part by part. Found on the way: the document says sets in diffs are checked, but lists of one element are not looked at; "&" or "<" must not be the last key; the documented limits on key and string lengths are not enforced.')
