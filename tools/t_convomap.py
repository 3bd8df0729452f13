T('C138','proved',['conversations_are_a_book','book_behaves','book_unique'],'Times beyond the year 2262 are undefined behaviour (C55) and negative times are excluded. Groups are never pruned (C56), which is what the specification says here. The result of push itself is C29 to C35; here it is only what push does to the conversations. Merges that bring changes of other devices are C59 and C121.')
