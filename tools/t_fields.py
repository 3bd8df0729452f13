T('C43','proved',['assign_get','erase_get','assign_empty','set_insert_get','set_erase_get','field_error','field_succeeds'])
T('C44','partial',['rewrite_is_noop','change_is_pending','pending_is_change','set_erase_missing_dirties'],'pending_is_change excludes set_erase on a field that holds no set; there the property is false: set_erase_missing_dirties.')
T('C45','proved',['fields_delivered'],'Hypotheses as in C34 (delivery).')
