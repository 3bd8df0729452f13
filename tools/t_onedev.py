T('C156','proved',['turns_as_one','turns_as_one_everywhere','turns_have_newest','PathOp.run_content','one_device'],'Devices that can sign (or unsigned configs); no two different configs of the account with the same hash; restarts for unsigned configs (see C36). Edits with values the bencoding admits (typed).')
