T('C121','partial',['contact_combines_partial','group_combines_partial','member_combines_partial','convo_combines_partial','community_combines_partial','community_get_combines_partial','keeps_untouched','keeps_nonempty','erase_last_loses'],'Partial because the property is false of the code: erasing the last record of a table (or the last room of a server) removes the table, and a merge with that version loses records other devices added to the table at the same time (erase_last_loses). Proved for every device that did not remove the table (keeps_untouched and keeps_nonempty say when that is so). Legacy group members: C90.')
