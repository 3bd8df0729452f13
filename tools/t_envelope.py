T('C149','proved',['unwrap_iff','unwrap_any_encoding','request_in_parts'],'As C99: fields of field number above 15 and of other wire types are covered by unwrap_iff, not by the explicit encodings of unwrap_any_encoding; the nesting limit of the protobuf parser is not modelled. Whether other messages in the same Content parse is a parameter.')
