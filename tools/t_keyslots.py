T('C151','partial',['remove_own','add_own','replace_own','add_copy','remove_copy_eq'],'False of the code in two of the four cases, for every list: add_key(key(i)) with i > 0 loses key i and puts key i-1 at the front a second time (add_own), and replace_keys(get_keys()) makes every key 32 zero bytes (replace_own). remove_key and low-priority add_key are right (remove_own, add_own); with copies all calls do what C41 says (add_copy, remove_copy_eq). How std::vector moves its elements is modelled after the usual implementation; the standard leaves reading through such a view undefined.')
