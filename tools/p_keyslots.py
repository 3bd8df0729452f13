P('C151','Keys may be named by views of the object\'s own keys',
 'key(i), get_keys() and config_key give views of the keys inside the object, and add_key, remove_key and replace_keys take views. So remove_key(key(i)) removes key i, add_key(key(i)) moves key i to the front (as documented for a key already present), add_key with low priority changes nothing, and replace_keys(get_keys()) changes nothing - just as with copies of the keys.',
 'all lists of distinct keys, all positions, all capacities of the vector',
 'The list may have any length; what matters is how elements move in memory while the argument is being read.',
 ['src/config/base.cpp: ConfigBase::add_key, ConfigBase::remove_key, ConfigBase::replace_keys, ConfigBase::get_keys, config_key, config_add_key','include/session/config/base.hpp: ConfigBase::key','include/session/util.hpp: sodium_vector'],
 'KeySlots.lean models the vector of keys as a block of memory and the arguments as bytes elsewhere or a slot of the block; Props/KeySlots.lean: the removal loop by induction over the elements still to be moved, with and without a view; refinement to the list of Client.lean for copies.')
