T('C122','partial',['key_form_read','text_forms','full_url_any_form','comm_any_form','key_form_inj','key_length_partial','onion_key_types','oxenc_fits','short_key_accepted'],'Partial because one case is false of the code: 44 characters of base64 ending in == are accepted and give a key of 31 bytes (short_key_accepted); key_length_partial says that it is the only case. The oxen-encoding library is modelled from its documentation.')
