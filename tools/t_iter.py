T('C120','proved',['convo_loop','ugroup_loop','contacts_loop','gmembers_loop'],'The loops over contacts and members throw where the listing throws: at a 33-byte key that is not a session id (C47, C92 say when that cannot happen).')
