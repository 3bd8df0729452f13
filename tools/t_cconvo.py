T('C145','proved',['c_conversations_are_a_book','c_convo_put_back'],'Longer invalid ids overflow the error buffer (C109). Lifetimes of iterators and of the config object are not modelled.')
