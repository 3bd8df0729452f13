T('C157','proved',['calls_as_one','Alone.unique','same_content_reads','same_content_shows','community_removal_depends','AccountCall.planned'],
 'For the calls in AccountCall. Removing a community is not one of them, with a witness (community_removal_depends): with the same content, the server entry stays or goes depending on whether an emptied room was published.')
