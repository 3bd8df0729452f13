T('C59','proved',['edits_combine','edits_combine_line','edit_survives','team_peer'],'Devices that can sign (or unsigned configs); restores only for unsigned configs (dumps of signed configs drop signatures: C36). edits_combine_line is the same for devices that never went through an earlier real merge.')
T('C60','proved',['contacts_combine'])
