T('C99','proved',['unwrap_wrap','unwrap_other_namespace','wrap_ok','unwrap_signed','proto_good'],'Excluded by hypothesis: the (for SHA-512 unknown) messages whose signature nonce or ephemeral key is 0. The nesting limit of the protobuf parser and messages of 1 GiB or more are not modelled.')
