T('C136','proved',['collections_are_maps','says_unique'],'For configs that can be written, with signed or unsigned messages and seqnos below 2^63 - lag. Merges in between are those that leave the seqno unchanged; what merges that bring news do to the records is C59, C60, C90 and C121. Conversations are excluded because pruning drops stale records (C56).')
