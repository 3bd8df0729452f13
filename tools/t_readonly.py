T('C150','proved',['readonly_newest','readonly_agree','readonly_forward','noncanonical_goes_back'],'The proviso about equal seqnos is necessary: readonly_agree_needs, readonly_diverges (the first of two conflicting versions given is kept, C35). Messages have a seqno that is not negative and are signed in the form the library writes, and their hashes do not collide; noncanonical_goes_back: a newer version signed in another form is accepted, and then the next merge of an older version takes the object back to that.')
