T('C137','proved',['c_collections_are_maps','c_get_set_keeps','c_struct_roundtrip','c_struct_kicked','c_set_free'],'Records set by other means (C++ callers, other devices) that do not fit a struct are C49, C89 and C95; longer invalid ids overflow the error buffer (C109). Enumeration fields hold one of their enumerators. A group read under an upper-case spelling comes without its admin key (C83), so c_get_set_keeps asks for the lower-case one. The memory blocks allocated for legacy groups are not modelled: ugroups_legacy_group_free and user_groups_set_free_legacy_group release only the members and leave the struct itself to the caller, who has no function to release it.')
