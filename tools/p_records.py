CT=['src/config/contacts.cpp: contact_info::load, Contacts::get, get_or_construct, set, set_*, erase, size','include/session/config/contacts.hpp: contact_info, Contacts','src/config/internal.cpp: check_session_id, session_id_to_bytes, set_flag, set_positive_int, set_nonzero_int, set_nonempty_str']
P('C46','A contact reads back as it was set, and setting one changes only that one',
 'After Contacts::set(r), get under any spelling (upper/lower case hex) of the id returns r (for every valid r exactly r; otherwise r with over-long names cut, incomplete pictures/expirations dropped, ...); every other contact, fields of the stored record that this version does not know and everything outside the contacts is as before; the size grows by one exactly if the contact is new. A single-field setter changes exactly that field. erase removes exactly that contact and reports whether it existed. A call that throws (exactly: invalid id, or object not modifiable) changes nothing.',
 'all reachable config objects, all contact records within the C++ types, all ids',
 'Records, ids and prior contents (from any version of the library) are unbounded.',
 CT,'Verif/Contacts.lean models the load/set functions field by field on top of the proxies of C43 (Verif/Records.lean: a sequence of writes to non-nested paths; Verif/Table.lean: tables of records; Verif/Hex.lean: ids). The normal form that is stored is spelled out in Contact.norm; Contact.Valid.norm_eq says it is the identity on valid records.')
P('C47','Iterating over the contacts yields exactly the contacts',
 'Iteration over a Contacts object yields each contact that get() finds exactly once, under the lower-case spelling of its id, and nothing else. It throws only if the table holds a 33-byte key not starting with 0x05, which set() never creates.',
 'all reachable config objects',
 'All table contents, including entries of wrong shape from other versions.',
 ['src/config/contacts.cpp: Contacts::iterator::_load_info, operator++'],'Induction over the sorted dict; hex encoding is injective (fromHex_toHex).')
P('C48','A contact set on one device is the contact read on the others',
 'After a contact is set and pushed on one device and the message delivered, get on the receiving device returns the record that was set, for every spelling of the id; all other contacts also read as on the sending device.',
 'all pairs of reachable objects as in C34, all contact records',
 'Whole chain from the typed API through serialisation, encryption and back, for all contents.',
 CT+['src/config/base.cpp: push, _merge'],'Composition of C46 with delivery_full (C34); records survive pruning because the name is always present (getContact_pruned).')
P('C49','Reading a contact and writing it back through the C interface changes nothing',
 'contacts_get followed by contacts_set with the struct unmodified leaves the stored contact as it was, and never writes outside the struct.',
 'all contact records',
 'All string lengths and contents.',
 ['src/config/contacts.cpp: contact_info::into, contact_info(const contacts_contact&)','src/config/internal.hpp: copy_c_str'],'Contact.viaC composes the two conversions. False of the code in two ways (mute_until lost; copy_c_str overflows for strings that do not fit); the part that holds is contact_via_c_partial.')
P('C50','The profile reads back as it was set, here and on other devices',
 'Each setter of UserProfile makes its getter return the value set (a picture needs both URL and 32-byte key, else it is removed; a non-positive timer removes the timer) and changes nothing else of the profile; after delivery as in C34 the whole profile reads the same on the other device.',
 'all reachable config objects; all names, pictures, int priorities, timers',
 'All values in all states, and the whole chain through serialisation and encryption.',
 ['src/config/user_profile.cpp: set_name, set_profile_pic, set_nts_priority, set_nts_expiry, set_blinded_msgreqs and the getters'],'Verif/Profile.lean; each setter is a write to top-level fields, fields_delivered (C45) for the other device.')
