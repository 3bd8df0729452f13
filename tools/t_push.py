T('C144','proved',['push_plain_iff','push_wrapped_iff','push_limit_iff','push_failed'],'For wrapped kinds: the ephemeral key of the envelope of this message is not the zero point, and the packed config is below 512 MiB.')
