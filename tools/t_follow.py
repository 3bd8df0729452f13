T('C154','proved',['follower_follows','follower_content','followers_agree','follower_needs_one_writer'],'Devices that can sign (or unsigned configs); no two different configs of the account with the same hash. Restarts for unsigned configs (see C36). Read-only members are the subject of C150. follower_needs_one_writer: with two devices that edit, a third that does not edit may have to push.')
