PX=['include/session/config/base.hpp: ConfigBase::DictFieldProxy (assign_if_changed, insert_if_missing, set_erase_impl, erase, get_clean, get_dirty)']
P('C43','A field reads back what was written to it',
 'After a successful assignment to a field the getters return that value, after an erase nothing, after set_insert/set_erase the set has/lacks exactly that element more than before; fields at other paths are unaffected, whatever was stored along the path before. An operation that throws changes nothing, and on an object that can publish none throws.',
 'all reachable config objects, all paths of any depth, all values (strings, 64-bit integers, sets, nested dicts), all other paths',
 'Paths, nesting and previous contents (including values of the wrong type on the way) are unbounded.',
 PX,'Verif/Proxy.lean models the proxy on values; the lemmas about putAt/delAt are by induction on the path. Verif/Neat.lean: an object without unpublished edits has canonical data, so going dirty does not change it.')
P('C44','A push becomes necessary exactly when something changed',
 'On an object without unpublished edits, writing a value that is already there (or erasing one that is not) does nothing at all; every operation that changes the content leaves the object with something to push; and an operation that makes it need a push has changed the content.',
 'all reachable config objects, all field operations, paths and values',
 'A redundant push happens on every device of every user; tests only compare a few values.',
 PX,'Case analysis of the shortcuts plus the read-back theorems of C43. set_erase on a missing field violates the last part: witness set_erase_missing_dirties.')
P('C45','What is written on one device is read on the others',
 'After a push is delivered, every field of the receiving object (getter at any path, element of any set) reads exactly what the same field of the pushing object held when it pushed; empty sets and dicts count as absent.',
 'all pairs of reachable objects sharing an encryption key where the receiver has no unpublished edits and holds nothing or something the pushed config supersedes; all paths',
 'Needs the whole chain: accessor, pruning, diffing, serialising, compression, padding, encryption, and back, for all contents.',
 PX+['src/config/base.cpp: push, _merge'],'Composition of delivery (C34) with the interplay of pruning and lookups (valAt_pruneD).')
