T('C139','proved',['group_list_is_a_roll','roll_behaves','roll_unique'],'The public key function is a parameter of which only the length of its result (32) is used. What set keeps of a group is described by groupSpec, including that a group with a matching secret key keeps its old authentication data (C83). Merges that bring changes of other devices are C88 and C121. The iterator that erases while iterating is C120.')
