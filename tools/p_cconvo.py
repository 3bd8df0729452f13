P('C145','Conversations through the C interface behave as a book, with the structs in memory',
 'A C program makes any sequence of get, get_or_construct, set, erase, size calls, documented iterator loops (over all conversations or one type) and pushes on the conversations of a new config object, with structs in its own memory whatever bytes they hold before, and with pushes, confirmations, dumps, restarts, merges that bring nothing new, key changes and edits elsewhere in between. As long as it passes ids of fewer than 191 bytes, NUL-terminated strings, 32-byte keys and times between 1970 and 2262, no function reads or writes outside an array of a struct, and every call returns, and leaves in the struct of the right type, what a book of conversations with the same history would (C138): the id or server, room and key, the time last read and the unread mark; an error message about the id, the room (if it is invalid) or the URL otherwise; false alone if there is none. Loops show every conversation of the type asked for once, in order. Setting a struct with an invalid id, URL or room lets the exception out of the C function. A struct that was read can be set again at any time without changing any answer.',
 'all sequences of calls and events in between, all memory contents of the structs, all ids, servers, rooms, keys and times',
 'The structs are fixed-size arrays overwritten in part, whether a set keeps or drops a conversation depends on the clock and on what is held, and answers depend on the whole history; a test sees one history with fresh structs.',
 ['src/config/convo_info_volatile.cpp: convo::one_to_one::into, convo::community::into, convo::group::into, convo::legacy_group::into, convo_info_volatile_get_*, convo_info_volatile_get_or_construct_*, convo_info_volatile_set_*, convo_info_volatile_erase_*, convo_info_volatile_size*, convo_info_volatile_iterator_*, convo_info_volatile_it_is_*','include/session/config/convo_info_volatile.h','src/config/internal.hpp: copy_c_str, wrap_exceptions'],
 'CConvo models the structs as memory and the C functions over them. CBookSays is the specification: a Book (C138) with predicates saying what a struct holds and that it can be handed back (whole). c_conversations_are_a_book is a simulation on top of call_book of C138; the loop is related to the iterator loop of C120. c_convo_put_back: a struct that was read, set again, leaves the same book, and a book has one answer (book_unique).')
