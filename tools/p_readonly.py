P('C150','A member that cannot sign holds the newest version it was given',
 'Make any calls on a config object that has a verifier but no signing key - attempted edits, pushes, confirmations, dumps, key changes, restarts from a dump, merges of any messages in any order, some of which throw. Then its seqno is at least that of every valid message it was given, and its content and seqno are those of one of these messages (or it is still the initial empty config). So two members agree as soon as both were given the newest version, provided no other version has the same seqno, whatever else they were given and in which order; and a member never goes back to an older version.',
 'all histories of all read-only config objects; all messages',
 'Unboundedly many calls, messages and orders of delivery.',
 ['src/config/base.cpp: ConfigBase::merge, ConfigBase::dirty, ConfigBase::push, ConfigBase::dump','src/config.cpp: ConfigMessage::ConfigMessage'],
 'Props/ReadOnly.lean: induction over the history of the object with the list of what it was given (Told); no call but merge changes the config of a read-only object.')
