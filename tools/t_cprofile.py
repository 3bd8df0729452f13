T('C129','partial',['c_profile_call','c_profile_run','c_info_call','c_info_run','c_info_member','c_shown_by_content','c_pic_overflow','c_profile_fails','c_group_init','c_group_restart'],'Everything stated is proved. Partial because reading is not always safe or exact: a stored picture URL of 224 bytes or more overflows the struct, timers beyond int wrap, and void setters throw through C on a member\'s object (all three proved).')
