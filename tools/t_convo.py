T('C54','proved',['convo_set_get','convo_set_error','convo_erase'])
T('C55','partial',['convo_set_error','convo_set_overflows'],'False of the code for times beyond 9223372036854 ms (year 2262): signed overflow in the conversion to nanoseconds. Proved: below that everything is defined.')
T('C56','partial',['prune_stale_partial','push_prunes_partial','prune_exact','push_prunes_convos','push_prunes_comms','prune_succeeds','prune_ignores_groups','prune_takes_namesake'],'False of the code for groups, which are never pruned (prune_ignores_groups), and for a community of which a stale copy is stored under another spelling (prune_takes_namesake). prune_exact says exactly what pruning removes, in every reachable object; the push theorems what receiving devices see.')
T('C57','proved',['convo_iter','comm_iter'])
T('C58','proved',['comm_set_get','comm_erase'])
