T('C125','partial',['comm_obj_always','comm_setters','set_full_url_half','comm_obj_url','comm_obj_set','comm_obj_set_get','comm_obj_short_key','c_parse_partial_url_partial'],'False in two cases, both shown: set_full_url is not all-or-nothing (set_full_url_half), and a key of 31 bytes is accepted and hides the server (comm_obj_short_key). The C parser for partial URLs overruns its buffer exactly for rooms of more than 64 characters.')
