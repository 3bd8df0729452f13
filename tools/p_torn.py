P('C148','A dump or message that was cut off is never taken for a whole one',
'If the end of a saved dump of a config object is missing, whatever was cut off, then constructing an object from what is left throws, whoever reads it, and never gives an object with less in it; the same holds for a config message. For a dump of the group keys, what is left is refused or gives exactly the object that the whole dump gives (the last byte is not looked at when a rekey is pending). Bytes that follow a dump do not change what is read. Whatever bytes are given as a dump of group keys: they are refused, or the object has keys of 32 bytes in strictly ascending order, needs no dump, and dumping and loading it again gives the same keys, hashes, pending rekey and encryption key.',
'all objects and all group keys objects that can be reached, all places at which the dump or message is cut, all bytes that follow it, and all byte strings given to the group keys as a dump',
'A test cuts a few dumps at a few places; a crash while saving can leave any prefix of any dump, and a reader that stops early on one of them silently loses the newest part of the config.',
['src/config/base.cpp: ConfigBase::init_from_dump','src/config/groups/keys.cpp: Keys::load_dump, make_dump','src/config.cpp: ConfigMessage::ConfigMessage, parse_unknown','oxenc bt_dict_consumer (external)'],
'Props/Torn: reading a value, a list, a dict or the rest of a dict from bs gives the same result on bs followed by anything (decV_more, decTop_more, seekKey_more); so if a prefix were accepted then the whole would be read with bytes left over, but the whole is an encoded dict with nothing after it. For the group keys the prefix gives the object of the whole in the same way, and the whole gives the original (C67). For arbitrary bytes the checks of load_dump give the invariant that the round trip of C67 needs.')
