T('C130','proved',['crash_recovery','Life.after','merge_own_again','merge_after','crash_recovery_world','dirty_dump_revives_old_value'],'crash_recovery_world has no condition on histories (C131); crash_recovery is for any messages: those merged in between must list histories transitively (as those published by this library do when they are computed from what the device held), the two configs must not collide under the hash, restarts in between are for unsigned configs (C40 shows why). For a dump with unpublished modifications the property fails (dirty_dump_revives_old_value), so the statement is for dumps without.')
T('C131','proved',['histories_closed','history_kept','catches_up','crash_recovery_world','Node.trans'],'For devices that can sign or unsigned configs; restarts in between for unsigned configs (a signed config loses its hash when reloaded: reload_forgets_signed_push).')
