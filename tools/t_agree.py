T('C133','proved',['merge_never_fails'],'Assumes no two different configs of the batch have the same hash, that seqnos leave room for the lag, and that the device holds a config or gets one.')
T('C134','partial',['redelivery_changes_nothing_partial','merge_after_any','merge_known','twin_edit_revived'],'Partial because one case is false of the code: a message merged while the unpublished config of the device was identical to it, which the device then modified further (twin_edit_revived). Everything else is covered.')
T('C135','proved',['one_round_agrees','then_silence','push_same','round_of_pushes'],'Unsigned or signed configs of devices that can write; restarts only for configs without signature (as in Node).')
