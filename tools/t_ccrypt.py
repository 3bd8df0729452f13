T('C126','proved',['c_config_roundtrip','c_config_decrypt_sound','c_config_encrypt_fails','c_padded_size','c_padded_size_limits','c_random'],'Where malloc(0) returns null an empty message decrypts to a null pointer with size 0 (in the statement). Near the top of size_t the padded size wraps (c_padded_size_limits).')
