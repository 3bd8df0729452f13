P('C138','Conversations behave as one book with pruning, whatever is done in between',
 'Whatever sequence of get, get_or_construct, set, erase, iteration, size, prune_stale and push is made on the volatile conversation info of a new writable object, for one-to-one conversations, groups, legacy groups and communities together, with confirmations, dumps, restarts, key changes, merges that bring nothing new, edits elsewhere and other devices taking over in between, every call returns what a book with the same history would return, and throws exactly for ids, server URLs, room names and server keys that are not valid. set keeps the flag given and the time given, except that a time more than 30 days ago never moves the stored one forward; a conversation that is new, was read more than 30 days ago and is not marked unread is not stored. prune_stale and push remove exactly what was last read more than 45 days ago and is not marked unread, except groups. Setting a room gives its key to every room of the server; erasing the last room forgets the server. Nothing else ever changes or goes, except that a conversation that says nothing (never read, not marked unread) may disappear when the object is published, saved or edited.',
 'all sequences of calls and events in between, all ids, URLs, rooms, keys and times from 1970 to 2262, all clocks',
 'What a call returns depends on the whole history, on the clock at every earlier set, prune and push, and on which empty containers publishing has dropped; a test runs a few calls with one clock.',
 ['src/config/convo_info_volatile.cpp: get_1to1, get_group, get_legacy_group, get_community, get_or_construct_*, set_base, set, erase_impl, erase, prune_stale, push, size_*, iterator','include/session/config/community.hpp: comm_iterator_helper','include/session/config/base.hpp: assign_if_changed, erase'],
 'Book is the specification: optional conversations by kind and lower-case id and by canonical server and room, and the key of every server; BookSays says what it answers, deterministically (book_unique). BookHolds relates the data of the object to a book: every entry is a dict under a valid key or canonical name, reads as the book says, and every server with a room has its key. call_book shows that every call preserves it (setBase_exact computes set_base exactly, including when it stores nothing; prune_book lifts C56; rooms_lists and ids_lists give the iteration order and size), between_book that what happens in between drops at most empty conversations, and conversations_are_a_book is the induction over the history.')
