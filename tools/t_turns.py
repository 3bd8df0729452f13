T('C155','proved',['turns_in_turn','turn_taken','turn_newest','turns_settle','turn_follows','turn_content','turns_agree','follower_needs_one_writer'],'Devices that can sign (or unsigned configs); no two different configs of the account with the same hash. Restarts for unsigned configs (see C36). turn_follows, turn_content, turns_agree: for all versions of which each was made in view of the earlier ones (InTurn), which turns_in_turn shows of Turns. follower_needs_one_writer: of two devices that edit without knowing of each other the versions may conflict.')
