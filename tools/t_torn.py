T('C148','proved',['torn_dump_refused','dump_tail_ignored','torn_message_refused','torn_keys_dump','keys_dump_tail','any_keys_dump','keys_dump_last_byte'],'Loading a keys dump whose timestamps overflow when they are converted to nanoseconds is undefined behaviour in the code; any_keys_dump speaks of dumps for which loading returns.')
