T('C80','proved',['recipient_roundtrip','recipient_deterministic','incoming_signed','incoming_authentic'],'A signature nonce or ephemeral key of 0 modulo the order is excluded by hypothesis; unforgeability in incoming_authentic is a hypothesis.')
T('C81','proved',['blinded15_roundtrip','blinded25_roundtrip','blinded25_sender','blinded15_sender','blinded15_forged','blinded15_alternative_unreadable','blinded_empty_recipient_ub'],'The expected behaviour is false of the code in three cases (proved).')
T('C82','proved',['ons_response','push_notification','push_notification_sound','push_notification_empty'],'')
