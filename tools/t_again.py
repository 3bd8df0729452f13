T('C147','proved',['again_does_nothing','again_after_push','again_after_delivery','field_again','clear_does_nothing','clear_stores_nothing','contact_space','member_space','legacy_space','group_space','ucomm_space'],'Last-read times are before the year 2262 (C55). A group saved with its admin key keeps authentication data stored before, although the header says it is omitted (group_space states this).')
