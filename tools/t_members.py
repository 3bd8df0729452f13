T('C91','proved',['gmember_set_get','gmember_set_error','gmember_erase','gmember_or','gmember_status','gmember_status_now','GMember.Valid.norm_eq'])
T('C92','proved',['gmember_iter'])
T('C93','proved',['gmember_read_sound','gmember_delivered'],'Hypotheses of delivery as in C34.')
T('C94','proved',['ginfo_set','ginfo_read','ginfo_delivered'])
T('C95','partial',['gmember_via_c_partial','gmember_via_c_sound','gmember_via_c_fails'],'False of the code: names over 100 bytes and URLs over 223 bytes from other devices are written out of bounds, unknown statuses are lost (gmember_via_c_fails). Proved: everything else is preserved.')
