T('C141','proved',['accepted_iff_documented','version_break_ignored','published_documented'],'For dicts encoded as the library encodes them (no leading zeros in numbers). hub excludes overflow of seqno - lag.')
