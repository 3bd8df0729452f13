T('C128','proved',['c_init','c_merge_reads','c_push_reads','c_hashes_reads','c_keys_read','c_keys_count','c_restart','c_sync'],'The hypotheses of c_sync are those of C34 (delivery).')
