P('C126','Config encryption, padding sizes and random bytes through the C interface',
 'A C program that encrypts any message with config_encrypt gets a buffer 40 bytes longer and, with the same 32 bytes of key and domain of 1 to 24 characters, gets exactly the message back from config_decrypt; when config_decrypt returns a pointer, the ciphertext is an encryption of what is there under that key and domain; on failure a null pointer is returned and the size is not touched; nothing outside the given buffers is read. config_padded_size is not below the size, less than one step above it, a multiple of the step together with the overhead, and stable under a second call, as long as nothing overflows. session_random gives a buffer of exactly the size asked for.',
 'all messages, ciphertexts, keys, domains, sizes and overheads, for all primitives with the functional properties of authenticated encryption',
 'Quantifies over all byte strings and all sizes up to the word size; tests use a few lengths.',
 ['src/config/encrypt.cpp: config_encrypt, config_decrypt, config_padded_size','include/session/config/encrypt.hpp: padded_size','src/random.cpp: random, session_random'],
 'C frames around encrypt and decrypt of C27 with explicit reads of buffers; padded_size with arithmetic modulo 2^64, proved equal to the one of C28 below the overflow; the overflow and the documented "always >= s + overhead" are refuted by c_padded_size_limits.')
