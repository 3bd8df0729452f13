T('C146','proved',['c_group_list_is_a_roll','c_group_put_back'],'A group with an admin key has to be asked for in lower case to be put back without loss (C83). Lifetimes of iterators, of the config object and of the member maps of legacy groups are not modelled.')
