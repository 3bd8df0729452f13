T('C132','proved',['rekey_contents','supplement_contents','rekey_excludes','supplement_excludes','removed_member_shut_out','without_the_key','merge_unreadable'],'Assumes of the cipher, for the message in question, that the key of the excluded device opens none of its ciphertexts (Shut); the example shows a group of two from which one is erased, with a toy cipher for which this is checked.')
