{"id": "C01", "title": "PKCS#7 pad/unpad round trip on unaligned messages", "statement": "Padding a message whose length is not a multiple of 16 and then stripping the padding gives back exactly that message; the padded length is the next multiple of 16 and 1..15 bytes are added, each equal to the number added.", "quantifier": "for every byte string whose length is not a multiple of 16", "why_tests_cant": "There are infinitely many messages; the boundary between data and padding depends on every length class and on arbitrary trailing data bytes.", "anchors": ["src/utils/padding.c:WBCRYPTO_padding_pkcs7_merge", "src/utils/padding.c:WBCRYPTO_padding_pkcs7_separate", "src/utils/padding.c:WBCRYPTO_padding_pkcs7_merge_length", "src/utils/padding.c:WBCRYPTO_padding_pkcs7_separate_length"]}
{"id": "C02", "title": "PKCS#7 on block-aligned messages: exact loss condition", "statement": "A block-aligned non-empty message gets no padding at all. Stripping recovers it exactly if and only if its last byte is 0 or greater than 16; otherwise exactly as many trailing data bytes as that last byte says are lost.", "quantifier": "for every non-empty byte string whose length is a multiple of 16", "why_tests_cant": "The loss depends on the data value in the last byte; a suite with a handful of plaintexts usually misses it and cannot show the exact condition.", "anchors": ["src/utils/padding.c:WBCRYPTO_padding_pkcs7_merge", "src/utils/padding.c:WBCRYPTO_padding_pkcs7_separate"]}
{"id": "C03", "title": "CBC encryption is the textbook CBC chain of the padded message", "statement": "CBC encryption writes C_1..C_k with C_i = E(P_i xor C_{i-1}), C_0 = IV, over the padded message, reports k*16 as used length, writes nothing past k*16 and leaves the caller's IV unchanged.", "quantifier": "for every block cipher E, IV, message (length < 2^31 - 16) and sufficiently large output buffer, when the internal realloc does not move the block", "why_tests_cant": "Quantifies over all ciphers, IVs and message lengths.", "anchors": ["src/modes/cbc128.c:WBCRYPTO_cbc128_encrypt"]}
{"id": "C04", "title": "CBC decrypt inverts CBC encrypt", "statement": "Decrypting what CBC encryption produced, with the same IV and the inverse block permutation, reports the original length and the original message, for messages whose length is not a multiple of 16; for aligned messages the blocks are recovered but the reported length is short exactly under the condition of C02.", "quantifier": "for every inverse pair (E, D), IV and non-empty message", "why_tests_cant": "Infinite input space and all keys.", "anchors": ["src/modes/cbc128.c:WBCRYPTO_cbc128_encrypt", "src/modes/cbc128.c:WBCRYPTO_cbc128_decrypt", "src/sm4/sm4_modes.c:WBCRYPTO_sm4_cbc_decrypt"]}
{"id": "C05", "title": "CBC decryption in place equals decryption to another buffer", "statement": "Calling CBC decryption with the output pointer equal to the input pointer leaves in the buffer the same bytes, and in the IV the same bytes, as calling it with a separate output buffer.", "quantifier": "for every block function, IV and block-aligned ciphertext", "why_tests_cant": "Two different code paths with aliasing; equality for all lengths needs induction over the loop.", "anchors": ["src/modes/cbc128.c:WBCRYPTO_cbc128_decrypt"]}
{"id": "C06", "title": "CBC decryption can be resumed through the IV", "statement": "Decrypting a block-aligned ciphertext in consecutive block-aligned pieces, passing the updated IV from call to call, gives the same bytes and final IV as one call.", "quantifier": "for every block function, IV, ciphertext and every split into block-aligned pieces", "why_tests_cant": "All histories of calls; tests only exercise a few splits.", "anchors": ["src/modes/cbc128.c:WBCRYPTO_cbc128_decrypt"]}
{"id": "C07", "title": "CBC error propagation is limited to two blocks", "statement": "Changing one ciphertext block changes at most the plaintext block at the same position and the next one; every other decrypted block is unaffected.", "quantifier": "for every block function, IV, ciphertext, block position and replacement block", "why_tests_cant": "All inputs and all corruptions.", "anchors": ["src/modes/cbc128.c:WBCRYPTO_cbc128_decrypt"]}
{"id": "C08", "title": "CBC never writes past the announced output capacity", "statement": "If the output capacity is below the padded length (encrypt) or below the input length (decrypt), the call fails and changes nothing; otherwise, for block-aligned decrypt input, every access stays inside the buffers.", "quantifier": "for every message, capacity and cipher", "why_tests_cant": "Absence of out-of-bounds accesses for all sizes cannot be shown by runs.", "anchors": ["src/modes/cbc128.c:WBCRYPTO_cbc128_encrypt", "src/modes/cbc128.c:WBCRYPTO_cbc128_decrypt"]}
{"id": "C09", "title": "GHASH multiplication is multiplication in GF(2^128)", "statement": "The 4-bit-table multiplication used by GCM computes, for the hash key H with which the context was initialised, exactly the product X*H of NIST SP 800-38D (bit-reflected GF(2^128) with x^128+x^7+x^2+x+1).", "quantifier": "for every 128-bit H and every 128-bit X", "why_tests_cant": "2^256 input pairs.", "anchors": ["src/modes/gcm128.c:gcm_mult", "src/modes/gcm128.c:WBCRYPTO_gcm_init", "include/wbcrypto/modes.h:last4"]}
{"id": "C10", "title": "GCM encryption is counter mode from inc32(J0)", "statement": "After setting an IV, GCM encryption outputs the NIST GCTR keystream starting at inc32(J0) xored with the plaintext, the output having the plaintext length.", "quantifier": "for every block cipher, IV and plaintext shorter than 2^31 bytes", "why_tests_cant": "All ciphers, IVs, lengths.", "anchors": ["src/modes/gcm128.c:WBCRYPTO_gcm_setiv", "src/modes/gcm128.c:WBCRYPTO_gcm_encrypt"]}
{"id": "C11", "title": "GCM decrypt inverts GCM encrypt", "statement": "Decrypting, in a context in the same state as the encrypting one, the bytes that encryption produced gives back the plaintext.", "quantifier": "for every block function, context state and message shorter than 2^31 bytes", "why_tests_cant": "All states and inputs.", "anchors": ["src/modes/gcm128.c:WBCRYPTO_gcm_encrypt", "src/modes/gcm128.c:WBCRYPTO_gcm_decrypt"]}
{"id": "C12", "title": "GCM tag equals the NIST SP 800-38D tag", "statement": "The sequence init, setiv, aad, encrypt, finish(16) produces the tag E(J0) xor GHASH_H(A padded, C padded, len64(A), len64(C)); J0 is IV||0^31 1 for 12-byte IVs and the GHASH of the padded IV otherwise.", "quantifier": "for every block cipher, IV (shorter than 2^29 bytes), AAD and plaintext (shorter than 2^31 bytes)", "why_tests_cant": "All inputs and lengths including empty AAD and empty plaintext.", "anchors": ["src/modes/gcm128.c:WBCRYPTO_gcm_setiv", "src/modes/gcm128.c:WBCRYPTO_gcm_aad", "src/modes/gcm128.c:WBCRYPTO_gcm_encrypt", "src/modes/gcm128.c:WBCRYPTO_gcm_finish"]}
{"id": "C13", "title": "GCM: sender and receiver tags agree", "statement": "For equal key, IV and AAD, the tag computed while decrypting the produced ciphertext equals the tag computed while encrypting.", "quantifier": "for every block function, IV, AAD and plaintext shorter than 2^31 bytes", "why_tests_cant": "All inputs.", "anchors": ["src/modes/gcm128.c:WBCRYPTO_gcm_encrypt", "src/modes/gcm128.c:WBCRYPTO_gcm_decrypt", "src/modes/gcm128.c:WBCRYPTO_gcm_finish"]}
{"id": "C14", "title": "GCM streaming: block-aligned pieces equal one call", "statement": "Feeding the message in several encrypt (or decrypt) calls whose lengths are multiples of 16 except possibly the last gives the same concatenated output and the same context as one call; with an unaligned piece in the middle this is false in general.", "quantifier": "for every split into pieces", "why_tests_cant": "All call histories.", "anchors": ["src/modes/gcm128.c:WBCRYPTO_gcm_encrypt", "src/modes/gcm128.c:WBCRYPTO_gcm_decrypt"]}
{"id": "C15", "title": "GCM counter blocks do not repeat within a message", "statement": "The blocks given to the cipher for a message of at most 2^32 - 1 blocks are pairwise distinct, share the first 12 bytes of J0, and (message of at most 2^32 - 2 blocks) differ from J0.", "quantifier": "for every J0 and every number of blocks up to the bound", "why_tests_cant": "Counter wrap-around happens only after 2^32 blocks (64 GiB).", "anchors": ["src/modes/gcm128.c:WBCRYPTO_gcm_encrypt"]}
{"id": "C16", "title": "GCM context reuse after setiv", "statement": "Re-using a context with setiv, aad, encrypt, finish gives the same ciphertext and tag as a freshly initialised context. Without an aad call the ciphertext is still the same but the tag is that of a fresh context only if the previous AAD length was 0 (the old AAD length is kept).", "quantifier": "for every earlier history of the context", "why_tests_cant": "All histories of API calls on the context.", "anchors": ["src/modes/gcm128.c:WBCRYPTO_gcm_setiv", "src/modes/gcm128.c:WBCRYPTO_gcm_aad", "src/modes/gcm128.c:WBCRYPTO_gcm_finish"]}
{"id": "C17", "title": "GCM refuses a too small output and otherwise stays in bounds", "statement": "If outlen < inlen, encrypt/decrypt return 0 and neither the context nor the output changes; otherwise exactly inlen bytes are written (inlen < 2^31).", "quantifier": "for every context, input and capacity", "why_tests_cant": "All sizes.", "anchors": ["src/modes/gcm128.c:WBCRYPTO_gcm_encrypt", "src/modes/gcm128.c:WBCRYPTO_gcm_decrypt"]}
{"id": "C18", "title": "GCM with inlen of 2^31 bytes or more reports success without encrypting all data", "statement": "For 2^31 <= inlen < 2^32 the call returns success although no output byte is written; in general only (inlen mod 2^32 as signed) bytes are processed.", "quantifier": "for every input of such length", "why_tests_cant": "Needs inputs of 2 GiB and more.", "anchors": ["src/modes/gcm128.c:WBCRYPTO_gcm_encrypt"]}
{"id": "C19", "title": "GCM truncated tags are prefixes", "statement": "finish with tag length n <= 16 returns the first n bytes of what finish with 16 would return.", "quantifier": "for every context and n", "why_tests_cant": "All context states.", "anchors": ["src/modes/gcm128.c:WBCRYPTO_gcm_finish"]}
{"id": "C20", "title": "Parallel GCM encryption is schedule independent if the inner index is private", "statement": "If each thread has its own inner loop index, every interleaving of the worker threads produces the same output and context as sequential GCM encryption (non-empty input).", "quantifier": "for every cipher, context, non-empty message and every interleaving of per-byte steps of the workers", "why_tests_cant": "Exponentially many schedules.", "anchors": ["src/modes/gcm_parallel.c:WBCRYPTO_gcm_parallel_encrypt"]}
{"id": "C21", "title": "Parallel GCM as written has a data race that loses bytes", "statement": "The inner loop index is shared by all threads; there is an interleaving after which some output byte was never written although the call reports success.", "quantifier": "there exists a schedule (shown for every message of at least two full blocks)", "why_tests_cant": "The race shows only under particular schedules.", "anchors": ["src/modes/gcm_parallel.c:WBCRYPTO_gcm_parallel_encrypt", "src/modes/gcm_parallel.c:WBCRYPTO_gcm_parallel_decrypt"]}
{"id": "C22", "title": "Parallel GCM decryption authenticates the plaintext", "statement": "Even without a race, parallel decryption absorbs the recovered plaintext instead of the ciphertext into GHASH; recovered plaintext is right, but the context (and hence the tag) is that of sequential encryption of the plaintext only if the plaintext were the ciphertext; a concrete honest exchange gives different tags.", "quantifier": "for all inputs (characterisation), with a witness for the mismatch", "why_tests_cant": "Requires reasoning about tags for all inputs.", "anchors": ["src/modes/gcm_parallel.c:WBCRYPTO_gcm_parallel_decrypt"]}
{"id": "C23", "title": "Parallel GCM with empty input touches a whole block", "statement": "With inlen = 0 parallel encryption processes one 16-byte block: it reads 16 bytes of the empty input and advances the counter, unlike the sequential function which changes nothing.", "quantifier": "for every context", "why_tests_cant": "Out-of-bounds access on the empty message, undefined behaviour in a run.", "anchors": ["src/modes/gcm_parallel.c:WBCRYPTO_gcm_parallel_encrypt"]}
{"id": "C24", "title": "GCM file encryption/decryption round trip", "statement": "Decrypting (same key, IV, AAD) the file produced by file encryption succeeds and reproduces the plaintext file byte for byte; the encrypted file is 24 bytes longer: 16 bytes GCM tag, 8 size bytes of which the first 4 are the little-endian size, then the GCM ciphertext of the whole file.", "quantifier": "for every file content shorter than 2^31 bytes, cipher, IV, AAD", "why_tests_cant": "All file contents and sizes (chunking by 128 bytes).", "anchors": ["src/modes/gcmfile.c:WBCRYPTO_gcmfile_encrypt", "src/modes/gcmfile.c:WBCRYPTO_gcmfile_decrypt"]}
{"id": "C25", "title": "GCM file decryption does not authenticate", "statement": "File decryption reports success for any file whose stored size matches, whatever its stored tag and ciphertext bytes are.", "quantifier": "for every context, every 16-byte tag and every ciphertext body", "why_tests_cant": "Universal acceptance of forgeries.", "anchors": ["src/modes/gcmfile.c:WBCRYPTO_gcmfile_decrypt"]}
{"id": "C26", "title": "GCM file encryption crash points", "statement": "If file encryption is stopped at any point, the input file is intact, and the output file is unchanged, empty or a prefix of the complete encrypted file; decrypting a proper prefix of at least 24 bytes fails, one of 17 to 23 bytes is accepted exactly if the size bytes present are zero.", "quantifier": "for every prefix of the sequence of file operations", "why_tests_cant": "All crash points.", "anchors": ["src/modes/gcmfile.c:WBCRYPTO_gcmfile_encrypt"]}
{"id": "C27", "title": "SM3 streaming equals one-shot", "statement": "Hashing a message through any sequence of update calls gives the digest of the concatenation.", "quantifier": "for every list of chunks", "why_tests_cant": "All ways of splitting all messages.", "anchors": ["src/sm3/md32_common.h:HASH_UPDATE", "src/sm3/md32_common.h:HASH_FINAL", "src/sm3/sm3.c:WBCRYPTO_sm3"]}
{"id": "C28", "title": "SM3 digest equals GB/T 32905", "statement": "The digest equals the standard's definition (message padding with 64-bit big-endian bit length, message expansion, 64 compression steps).", "quantifier": "for every message shorter than 2^61 bytes", "why_tests_cant": "All messages.", "anchors": ["src/sm3/sm3.c:sm3_block_data_order", "src/sm3/md32_common.h:HASH_FINAL"]}
{"id": "C29", "title": "SM4 decryption inverts encryption", "statement": "Decrypting a block with the same context returns the plaintext block, and encrypting a decrypted block returns it.", "quantifier": "for every key and block", "why_tests_cant": "2^128 keys and 2^128 blocks.", "anchors": ["src/sm4/sm4.c:WBCRYPTO_sm4_encrypt", "src/sm4/sm4.c:WBCRYPTO_sm4_decrypt", "src/sm4/sm4.c:aux_sm4_init_key"]}
{"id": "C30", "title": "SM4 equals GB/T 32907", "statement": "Block encryption equals the standard's definition with S-box, L and L' and the CK/FK key schedule (the T-table used in the inner rounds equals S-box followed by L).", "quantifier": "for every 16-byte key and block", "why_tests_cant": "2^256 pairs.", "anchors": ["src/sm4/sm4.c:WBCRYPTO_sm4_encrypt", "src/sm4/sm4.c:SM4_T", "src/sm4/sm4.c:SM4_SBOX_T", "src/sm4/sm4.c:aux_sm4_init_key"]}
{"id": "C31", "title": "SM4 context in decrypt mode decrypts", "statement": "Encrypting with a key schedule generated in decrypt mode equals decrypting with the schedule generated in encrypt mode.", "quantifier": "for every key and block", "why_tests_cant": "All keys and blocks.", "anchors": ["src/sm4/sm4.c:aux_sm4_init_key"]}
{"id": "C32", "title": "Key padding is injective on short keys of equal length and 16 bytes long", "statement": "Key padding always yields 16 bytes: the key's first 16 bytes, or the key followed by bytes equal to the number of missing bytes; two different keys of at most 16 bytes collide only in the PKCS#7 way (one is the padded form of the other's prefix).", "quantifier": "for every key", "why_tests_cant": "All keys and lengths.", "anchors": ["src/utils/padding.c:WBCRYPTO_key_padding_pkcs7", "src/utils/padding.c:WBCRYPTO_key_padding_zeros"]}
{"id": "C33", "title": "Random matrix pairs are inverse pairs", "statement": "The generator of random 8x8 and 32x32 bit matrix pairs returns matrices that are inverse to each other, and its operation log never overflows its fixed-size array.", "quantifier": "for every stream of random numbers", "why_tests_cant": "All random streams.", "anchors": ["WBMatrix/src/WBMatrix.c:genMatpairM8", "WBMatrix/src/WBMatrix.c:genMatpairM32"]}
{"id": "C34", "title": "Matrix and affine composition laws", "statement": "Applying a product of matrices (or a composed affine map) to a number equals applying them one after the other; matrix application distributes over xor; combining four 8-bit maps into one 32-bit map applies each to its byte.", "quantifier": "for every matrix, vector and number", "why_tests_cant": "All matrices.", "anchors": ["WBMatrix/src/WBMatrix.c:MatMulNumM8", "WBMatrix/src/WBMatrix.c:MatMulNumM32", "WBMatrix/src/WBMatrix.c:MatMulMatM32", "WBMatrix/src/WBMatrix.c:affinemixM32", "WBMatrix/src/WBMatrix.c:affinecomM8to32"]}
{"id": "C35", "title": "Random permutation pairs are inverse permutations", "statement": "The 4-bit and 8-bit random permutation generators return a permutation and its inverse.", "quantifier": "for every stream of random numbers", "why_tests_cant": "All random streams.", "anchors": ["WBMatrix/src/WBMatrix.c:genPermutation4", "WBMatrix/src/WBMatrix.c:genPermutation8"]}
{"id": "C36", "title": "White-box SM4 (no dummy rounds) equals SM4", "statement": "With tables generated for a key, white-box SM4 encryption of a block equals SM4 encryption (or decryption, for a context in decrypt mode) with that key.", "quantifier": "for every key, block and every outcome of the random number generator", "why_tests_cant": "All keys, blocks and random encodings.", "anchors": ["src/wbsm4/wbsm4_gen.c:WBCRYPTO_wbsm4_gen_table", "src/wbsm4/wbsm4.c:WBCRYPTO_wbsm4_encrypt"]}
{"id": "C37", "title": "White-box SM4 with dummy rounds", "statement": "With dummy rounds the result equals SM4 whenever no two dummy groups are adjacent before a real round and the never-initialised table entries used in dummy rounds xor to 0; with other memory contents the result can differ, and with adjacent groups the generator uses wrong round material (reads outside its arrays).", "quantifier": "for every key, block, random outcome and dummy placement", "why_tests_cant": "Depends on uninitialised memory and on random placement.", "anchors": ["src/wbsm4/wbsm4_gen.c:WBCRYPTO_wbsm4_gen_table", "src/wbsm4/wbsm4_gen.c:wbsm4_gen_dummyround_array"]}
{"id": "C38", "title": "White-box SM4 decrypt context inverts encrypt context", "statement": "A decrypt-mode context undoes an encrypt-mode context for the same key although both have independent random encodings.", "quantifier": "for every key, block and both random outcomes", "why_tests_cant": "All keys and random encodings.", "anchors": ["src/wbsm4/wbsm4.c:WBCRYPTO_wbsm4_decrypt", "src/wbsm4/wbsm4_gen.c:WBCRYPTO_wbsm4_gen_table"]}
{"id": "C39", "title": "White-box SM4 key file round trip", "statement": "Writing a context to a file and reading it into a context with the same number of rounds restores every table; a file that is truncated anywhere, or does not start with the algorithm name, is rejected.", "quantifier": "for every context and every truncation point", "why_tests_cant": "All contexts and all truncation points.", "anchors": ["src/wbsm4/wbsm4_exkey.c:WBCRYPTO_wbsm4_key2file", "src/wbsm4/wbsm4_exkey.c:WBCRYPTO_wbsm4_file2key"]}
{"id": "C40", "title": "Self-equivalence white-box SM4 equals SM4", "statement": "The self-equivalence variant computes SM4 for every choice of self-equivalence pair and random affine map.", "quantifier": "for every key, block, random outcome", "why_tests_cant": "All keys, blocks and random choices.", "anchors": ["src/se_wbsm4/se_wbsm4.c:WBCRYPTO_se_wbsm4_gen_table", "src/se_wbsm4/se_wbsm4.c:WBCRYPTO_se_wbsm4_encrypt"]}
{"id": "C41", "title": "White-box AES equals AES-128", "statement": "White-box AES encryption with tables generated for a key equals FIPS-197 AES-128 encryption with that key, whatever the random mixing bijections and nibble encodings are.", "quantifier": "for every 16-byte key, block and random outcome", "why_tests_cant": "All keys, blocks and encodings.", "anchors": ["src/wbaes/wbaes.c:WBCRYPTO_wbaes_gen_table", "src/wbaes/wbaes.c:WBCRYPTO_wbaes_encrypt", "src/wbaes/wbaes_local.c:expandKey"]}
{"id": "C42", "title": "White-box GCM with external encodings equals AES-GCM", "statement": "Ciphertext and tag of the external-encoding GCM mode equal those of GCM over AES with the same key, IV, AAD and plaintext, and decryption inverts encryption. The one exception: with neither AAD nor message the tag is the still encoded E(J0), which depends on the random tables.", "quantifier": "for every key, IV, AAD, message and random outcome", "why_tests_cant": "All of them.", "anchors": ["src/wbaes/wbaes_wbgcm_ee_init.c:WBCRYPTO_wbaes_wbgcm_ee_gen_table", "src/wbaes/wbaes_wbgcm_ee_mode.c:WBCRYPTO_wbaes_wbgcm_ee_finish"]}
{"id": "C43", "title": "Masked white-box GCM: round trip holds, tags disagree", "statement": "In the masked GCM mode decryption (with the matching decryption context) returns the plaintext, but the receiver's tag differs from the sender's tag in general: the sender outputs L1(GHASH xor E(J0)) while the receiver outputs L1^-1(GHASH) xor E(J0). They agree for all AAD of one block exactly when every L1 is its own inverse and keeps the bytes of E(J0).", "quantifier": "for every key, IV, AAD, message, mask and random outcome; witness for the mismatch", "why_tests_cant": "All random outcomes.", "anchors": ["src/wbaes/wbaes_wbgcm_mask_init.c:WBCRYPTO_wbaes_wbgcm_mask_gen_table", "src/wbaes/wbaes_wbgcm_mask_mode.c:WBCRYPTO_wbaes_wbgcm_mask_finish"]}
{"id": "C44", "title": "FF1 decrypt inverts FF1 encrypt", "statement": "Decrypting an FF1 ciphertext with the same context returns the original numeral string, unless the tweak is empty and the numbers of a half need 16j+15 bytes: then an assertion whose left side wraps around ends the process (67 to 72 decimal digits, for example).", "quantifier": "for every block function, tweak, radix 2..36 and numeral string of length at least 2", "why_tests_cant": "All inputs, radices and tweaks.", "anchors": ["src/fpe/ff1.c:WBCRYPTO_ff1_encrypt", "src/fpe/ff1.c:WBCRYPTO_ff1_decrypt"]}
{"id": "C45", "title": "FF1 preserves the format", "statement": "The FF1 ciphertext has the plaintext's length and consists of digits of the radix (0-9, then a-z), followed by a terminating NUL one past the last digit.", "quantifier": "for every block function, tweak, radix and numeral string of length at least 2 (not an empty tweak with halves of 16j+15 bytes)", "why_tests_cant": "All inputs.", "anchors": ["src/fpe/ff1.c:WBCRYPTO_ff1_encrypt", "src/fpe/fpe_locl.c:num2str"]}
{"id": "C46", "title": "FF1 internal buffers are large enough", "statement": "The number encoded in each round fits the b bytes reserved for it, and the S buffer holds at least the d bytes read from it.", "quantifier": "for every radix, length and valid numeral string", "why_tests_cant": "Out-of-bounds writes on rare size combinations.", "anchors": ["src/fpe/ff1.c:WBCRYPTO_ff1_encrypt"]}
{"id": "C47", "title": "FF3 decrypt inverts FF3 encrypt", "statement": "Decrypting an FF3 ciphertext with the same context returns the original numeral string.", "quantifier": "for every block function, tweak (at least 8 bytes), radix and numeral string of length at least 2", "why_tests_cant": "All inputs.", "anchors": ["src/fpe/ff3.c:WBCRYPTO_ff3_encrypt", "src/fpe/ff3.c:WBCRYPTO_ff3_decrypt"]}
{"id": "C48", "title": "FF3 preserves the format", "statement": "The FF3 ciphertext has the plaintext's length and consists of digits of the radix.", "quantifier": "for every block function, tweak (at least 8 bytes), radix and numeral string of length at least 2", "why_tests_cant": "All inputs.", "anchors": ["src/fpe/ff3.c:WBCRYPTO_ff3_encrypt", "src/fpe/fpe_locl.c:num2str_rev"]}
{"id": "C49", "title": "FF3 reads eight tweak bytes whatever the tweak length", "statement": "With a tweak shorter than 8 bytes FF3 reads past the end of the copied tweak, so the result is not determined by the arguments.", "quantifier": "for every tweak shorter than 8 bytes", "why_tests_cant": "Heap over-read; a run may look fine.", "anchors": ["src/fpe/ff3.c:WBCRYPTO_ff3_encrypt", "src/fpe/init.c:WBCRYPTO_fpe_init"]}
{"id": "C50", "title": "Numeral string conversions are inverse", "statement": "Writing a number below radix^m as m digits and reading it back gives the number, and reading an m-digit string and writing it back gives the string, in both digit orders.", "quantifier": "for every radix 2..36, m, number and string", "why_tests_cant": "All numbers and strings.", "anchors": ["src/fpe/fpe_locl.c:str2num", "src/fpe/fpe_locl.c:num2str", "src/fpe/fpe_locl.c:str2num_rev", "src/fpe/fpe_locl.c:num2str_rev"]}
{"id": "C51", "title": "FF1-CMAC: round trip and tag agreement", "statement": "FF1-CMAC decryption returns the plaintext and accumulates the same tag as encryption did, when every round processes at least two MAC blocks; otherwise the tag depends on uninitialised memory.", "quantifier": "for every block function, tweak, radix and numeral string", "why_tests_cant": "All inputs; uninitialised reads.", "anchors": ["src/fpe/ff1_cmac.c:WBCRYPTO_ff1_cmac_encrypt", "src/fpe/ff1_cmac.c:WBCRYPTO_ff1_cmac_finish"]}
{"id": "C52", "title": "FF3-GMAC: round trip and tag agreement", "statement": "FF3-GMAC decryption returns the plaintext and accumulates the same tag as encryption did.", "quantifier": "for every block function, tweak of at least 16 bytes, radix and numeral string", "why_tests_cant": "All inputs.", "anchors": ["src/fpe/ff3_gmac.c:WBCRYPTO_ff3_gmac_encrypt", "src/fpe/ff3_gmac.c:WBCRYPTO_ff3_gmac_finish"]}
{"id": "C53", "title": "Phone number encryption keeps the visible characters", "statement": "With a sample mask, every position whose mask character is not '*' keeps its character, every other position gets a decimal digit, and the length is unchanged.", "quantifier": "for every phone number, mask of the same length with at least two stars, and FPE engine that preserves format", "why_tests_cant": "All masks and inputs.", "anchors": ["src/fpe_app/phone.c:aux_fpe_phone"]}
{"id": "C54", "title": "Phone number decryption inverts encryption", "statement": "Decrypting an encrypted phone number with the same mask returns the original.", "quantifier": "for every phone number, mask and context", "why_tests_cant": "All inputs and masks.", "anchors": ["src/fpe_app/phone.c:aux_fpe_phone"]}
{"id": "C55", "title": "Identity card encryption keeps a trailing X and round-trips", "statement": "A trailing 'X' is kept as is; all visible characters are kept; decryption with the same mask returns the original card number.", "quantifier": "for every card number and mask", "why_tests_cant": "All inputs and masks.", "anchors": ["src/fpe_app/idcard.c:aux_fpe_idcard"]}
{"id": "C56", "title": "Chinese text encryption stays in the code block and round-trips", "statement": "Every encrypted character is again a valid three-byte UTF-8 character in U+4E00..U+9EFF, characters kept by the mask are unchanged, and decryption returns the original text.", "quantifier": "for every text over U+4E00..U+9EFF and mask", "why_tests_cant": "All texts.", "anchors": ["src/fpe_app/cn_utf8.c:aux_fpe_cn", "src/fpe_app/utf8_util.c:utf8IntToCharDuodecimal", "src/fpe_app/utf8_util.c:utf8Uint32ToInt"]}
{"id": "C57", "title": "UTF-8 and duodecimal codecs are inverse", "statement": "Decoding an encoded code point returns it, and the four duodecimal digits of a code point offset decode to it; offsets from 0 to 20735 are exactly the four-digit strings.", "quantifier": "for every code point offset and digit string", "why_tests_cant": "Whole range; proved by arithmetic and not by enumeration of samples.", "anchors": ["src/fpe_app/utf8_util.c:utf8IntToCharDuodecimal", "src/fpe_app/utf8_util.c:utf8Uint32ToInt"]}
{"id": "C58", "title": "Shuffle yields a permutation", "statement": "The byte shuffle returns a rearrangement of its input for every random stream, never indexing outside the list.", "quantifier": "for every list and random stream", "why_tests_cant": "All random streams.", "anchors": ["src/utils/wrandom.c:wRandomShuffleU8"]}
{"id": "C59", "title": "Random permutation step is a bijection", "statement": "The quadratic-residue step of the random number generator maps the 32-bit integers one-to-one onto themselves.", "quantifier": "for every 32-bit input", "why_tests_cant": "2^32 values and a number-theoretic reason.", "anchors": ["WBMatrix/src/random.c:permuteQPR"]}
{"id": "C60", "title": "Short key files are accepted", "statement": "Reading a key from a file shorter than the requested length reports success and leaves the missing key bytes as they were.", "quantifier": "for every file content and requested length", "why_tests_cant": "All lengths.", "anchors": ["src/utils/keystore.c:WBCRYPTO_keystore_file_to_key", "src/utils/keystore.c:WBCRYPTO_keystore_key_to_file"]}
{"id": "C61", "title": "AES wrapper decryption is not the inverse of encryption", "statement": "The AES wrapper decrypts with the encryption key schedule; the result equals the plaintext only if the cipher library's decryption under an encryption schedule inverts it. CBC decryption through the wrapper therefore does not return the plaintext in general.", "quantifier": "for all library behaviours consistent with the AES interface (characterisation)", "why_tests_cant": "Concerns a library contract.", "anchors": ["src/aes/aes.c:WBCRYPTO_aes_decrypt", "src/aes/aes.c:WBCRYPTO_aes_init_key"]}
{"id": "C62", "title": "GCM file encryption onto the input itself", "statement": "Encrypting a file onto its own path (or onto a path whose .tmp name is the input) reports success and leaves only the encryption of the empty file.", "quantifier": "for every file content, context and such pair of paths", "why_tests_cant": "All contents; the call succeeds, so tests on the return value pass.", "anchors": ["src/modes/gcmfile.c:WBCRYPTO_gcmfile_encrypt"]}
{"id": "C63", "title": "GCM file functions on missing or short input", "statement": "A missing input file leads to undefined behaviour in both file functions, and so does decrypting a file of at most 16 bytes.", "quantifier": "for every context and file system", "why_tests_cant": "Undefined behaviour may look like a clean failure in a test.", "anchors": ["src/modes/gcmfile.c:WBCRYPTO_gcmfile_encrypt", "src/modes/gcmfile.c:WBCRYPTO_gcmfile_decrypt"]}
{"id": "C64", "title": "Matrix invertibility test and inversion", "statement": "The invertibility test answers yes exactly for the matrices that have an inverse, and for those the inversion routine returns the inverse.", "quantifier": "for every matrix of every supported word size (4, 8, 16, 32, 64)", "why_tests_cant": "2^1024 matrices for size 32; correctness of Gaussian elimination including the pivot search is not decidable by sampling.", "anchors": ["WBMatrix/src/WBMatrix.c:isinvertM8", "WBMatrix/src/WBMatrix.c:invsM8", "WBMatrix/src/WBMatrix.c:isinvertM32", "WBMatrix/src/WBMatrix.c:invsM32"]}
{"id": "C65", "title": "FF1 computes the standard algorithm", "statement": "FF1 encryption and decryption compute FF1.Encrypt and FF1.Decrypt of NIST SP 800-38G on the numeral string, for the block function of the context, where the assertion of C44 passes.", "quantifier": "for every block function, radix 2..36, tweak and numeral string of at least two digits", "why_tests_cant": "All strings, tweaks and radices; a wrong byte in P or Q still round-trips.", "anchors": ["src/fpe/ff1.c:WBCRYPTO_ff1_encrypt", "src/fpe/ff1.c:WBCRYPTO_ff1_decrypt"]}
{"id": "C66", "title": "FF3 computes the standard algorithm within the standard's length limit", "statement": "For strings with radix^ceil(n/2) <= 2^96 FF3 encryption and decryption compute FF3.Encrypt and FF3.Decrypt of NIST SP 800-38G on the first eight tweak bytes, with the block function in the place of the cipher under the reversed key.", "quantifier": "for every block function, radix 2..36, tweak of at least eight bytes and numeral string within the limit", "why_tests_cant": "All strings and tweaks; reversed digits or bytes still round-trip.", "anchors": ["src/fpe/ff3.c:WBCRYPTO_ff3_encrypt", "src/fpe/ff3.c:WBCRYPTO_ff3_decrypt"]}
{"id": "C67", "title": "FPE application context computes the named cipher", "statement": "With at least 16 key bytes the context named aes, wbaes or with an unknown name computes AES-128 and the one named sm4 computes SM4, whatever the random choices; the wbsm4 context computes SM4 only if its uninitialised dummy tables cancel; with fewer key bytes the cipher depends on uninitialised memory.", "quantifier": "for every key, key length, cipher name, random choice and memory content", "why_tests_cant": "White-box contexts are random and memory contents are not under the control of a test.", "anchors": ["src/fpe_app/init.c:WBCRYPTO_fpe_app_init"]}
{"id": "C68", "title": "CBC interface functions compute CBC with the named cipher", "statement": "The SM4, AES and white-box AES CBC encryption functions produce CBC with SM4 respectively AES-128 on the padded message; the SM4 pair restores messages whose length is no multiple of 16.", "quantifier": "for every key, IV, message below 2^31 - 16 bytes, random choice of the white box and buffer content", "why_tests_cant": "All keys, messages and white-box instances; the wrapper could pass the wrong cipher function or translate the return code wrongly for one of the ciphers.", "anchors": ["src/sm4/sm4_modes.c:WBCRYPTO_sm4_cbc_encrypt", "src/sm4/sm4_modes.c:WBCRYPTO_sm4_cbc_decrypt", "src/aes/aes_modes.c:WBCRYPTO_aes_cbc_encrypt", "src/wbaes/wbaes_modes.c:WBCRYPTO_wbaes_cbc_encrypt"]}
{"id": "C69", "title": "White-box SM4 CBC interoperates with SM4 CBC, with two contexts", "statement": "With an encryption-mode context for encryption and a decryption-mode context for decryption (no dummy rounds) the white-box CBC functions equal the SM4 ones on all inputs. With one context for both, as the other ciphers allow, decryption succeeds but returns the message only if SM4 applied twice is the identity on the cipher input.", "quantifier": "for every key, message and random choice; the second claim as an equivalence and with a witness", "why_tests_cant": "White-box instances are random; the misuse reports success.", "anchors": ["src/wbsm4/wbsm4_modes.c:WBCRYPTO_wbsm4_cbc_encrypt", "src/wbsm4/wbsm4_modes.c:WBCRYPTO_wbsm4_cbc_decrypt"]}
{"id": "C70", "title": "GCM contexts of white-box and plain ciphers interoperate", "statement": "A message sealed through the white-box AES (SM4) context opens through the AES (SM4) context and the reverse; all produce AES-128-GCM (SM4-GCM). A decryption-mode white-box SM4 context silently gives GCM under the inverse cipher.", "quantifier": "for every key, IV, AAD, message, tag length and random choice", "why_tests_cant": "All white-box instances and messages.", "anchors": ["src/wbaes/wbaes_modes.c:WBCRYPTO_wbaes_gcm_init", "src/aes/aes_modes.c:WBCRYPTO_aes_gcm_init", "src/wbsm4/wbsm4_modes.c:WBCRYPTO_wbsm4_gcm_init", "src/sm4/sm4_modes.c:WBCRYPTO_sm4_gcm_init"]}
{"id": "C71", "title": "FPE contexts of white-box and plain ciphers interoperate", "statement": "White-box and plain FPE contexts are the same for every tweak and radix (or both refused, exactly outside 2..36); strings encrypted with one are decrypted with the other, and the ciphertext is that of SP 800-38G.", "quantifier": "for every key, tweak, radix, numeral string and random choice", "why_tests_cant": "All white-box instances and strings.", "anchors": ["src/wbaes/wbaes_modes.c:WBCRYPTO_wbaes_fpe_init", "src/aes/aes_modes.c:WBCRYPTO_aes_fpe_init", "src/wbsm4/wbsm4_modes.c:WBCRYPTO_wbsm4_fpe_init", "src/sm4/sm4_modes.c:WBCRYPTO_sm4_fpe_init"]}
{"id": "C72", "title": "GCM files of white-box and plain ciphers interoperate", "statement": "A file encrypted through the white-box AES (SM4) context equals the one made through the AES (SM4) context and either context decrypts it.", "quantifier": "for every key, IV, AAD, file content below 2^31 bytes, random choice and distinct paths", "why_tests_cant": "All white-box instances and contents.", "anchors": ["src/wbaes/wbaes_modes.c:WBCRYPTO_wbaes_gcmfile_init", "src/wbsm4/wbsm4_modes.c:WBCRYPTO_wbsm4_gcmfile_init", "src/modes/gcmfile.c:WBCRYPTO_gcmfile_encrypt"]}
{"id": "C73", "title": "White-box GCM files", "statement": "Through the white-box ee context file encryption writes the file of AES-128-GCM and decryption, white-box or plain, restores the content; through the mask contexts encryption followed by decryption restores it. Decryption never compares the tag: it succeeds exactly if the stored size fits the file length. Missing input, and decryption of files of at most 16 bytes, are undefined.", "quantifier": "for every key, IV, AAD, content below 2^31 bytes, random choice and distinct paths; the second part for every context and file", "why_tests_cant": "All contents and white-box instances; forged files decrypt successfully.", "anchors": ["src/wbaes/wbaes_wbgcm_ee_file.c:WBCRYPTO_wbaes_wbgcmfile_ee_encrypt", "src/wbaes/wbaes_wbgcm_mask_file.c:WBCRYPTO_wbaes_wbgcmfile_mask_encrypt"]}
{"id": "C74", "title": "32- and 64-bit random numbers are uniform if the 31-bit ones are", "statement": "Each 32-bit value arises from exactly 2^30 pairs and each 64-bit value from exactly 2^29 triples of 31-bit numbers.", "quantifier": "for every output value", "why_tests_cant": "2^62 and 2^93 inputs.", "anchors": ["src/utils/wrandom.c:wRand32", "src/utils/wrandom.c:wRand64"]}
{"id": "C75", "title": "The shuffle is not uniform and limits the dummy rounds", "statement": "The first element always ends up last; every arrangement of the others is reachable. Hence the last round of a white-box SM4 context is never a dummy, generation is defined exactly if no two dummy groups are neighbours, with more than 32 groups it never is, and with at most 32 some random numbers make it so.", "quantifier": "for every list, random stream, key and number of dummy groups", "why_tests_cant": "All random streams; a biased shuffle looks random in tests.", "anchors": ["src/utils/wrandom.c:wRandomShuffleU8", "src/wbsm4/wbsm4_gen.c:wRandomShuffleU8"]}
{"id": "C76", "title": "GCM with overlapping buffers", "statement": "If the output starts at or before the input, or behind its end, encryption and decryption give what separate buffers give. If it starts inside the input, later bytes are computed from output already written: byte k of the output is key byte k xor the byte now at input place k; the result is wrong exactly as far as the overwritten bytes changed, and success is reported.", "quantifier": "for every context, memory, position of input and output, and length below 2^31", "why_tests_cant": "All contents and distances; tests use separate or identical buffers.", "anchors": ["src/modes/gcm128.c:WBCRYPTO_gcm_encrypt", "src/modes/gcm128.c:WBCRYPTO_gcm_decrypt"]}
{"id": "C77", "title": "A white-box SM4 key exported as bytes holds no table", "statement": "The byte stream has 32812 bytes and reading it back gives the same structure whatever its length field says; shorter streams are over-read. It holds pointers: within the process that made it the copy encrypts like the original, for two keys the streams can be the same, and in a process without those tables encryption is undefined.", "quantifier": "for every structure, heap, key and input block", "why_tests_cant": "Export and import in one test process always works.", "anchors": ["src/wbsm4/wbsm4_exkey.c:WBCRYPTO_wbsm4_key2bytes", "src/wbsm4/wbsm4_exkey.c:WBCRYPTO_wbsm4_bytes2key"]}
{"id": "C78", "title": "Cleared contexts still encrypt", "statement": "A context that was allocated but never filled maps every block to zero. GCM over it returns the plaintext as ciphertext, CBC returns zeros, and both report success.", "quantifier": "for every message, IV and buffer", "why_tests_cant": "All messages; the call succeeds.", "anchors": ["src/wbaes/wbaes.c:WBCRYPTO_wbaes_context_init", "src/wbsm4/wbsm4.c:WBCRYPTO_wbsm4_context_init", "src/modes/gcm128.c:WBCRYPTO_gcm_encrypt", "src/modes/cbc128.c:WBCRYPTO_cbc128_encrypt"]}
{"id": "C79", "title": "The MySQL functions", "statement": "Phone numbers of 11 digits, card numbers of 18 characters and Chinese texts, terminated and with a sample of equal length or none, give results of the same length that keep the shown characters and that the decryption functions restore under the fixed key of the source. With one byte for the error flag no call returns an error, each refused call is undefined; so is each call on more than 255 bytes. Without terminator a following digit changes the result to a part of a longer encryption. A row longer than the length announced at the start of the query is undefined. Version 5 does not look at the length of the sample; version 8 gives no value for one of another length except for addresses. A phone result is FF1 with SM4 under the key in the source.", "quantifier": "for every argument, sample, random memory and both versions", "why_tests_cant": "All numbers, samples and memory after the arguments; needs a server to test.", "anchors": ["udf/mysql5.cpp:fpe_init", "udf/mysql8.cpp:fpe_init", "udf/mysql8.cpp:sample"]}
{"id": "C80", "title": "White-box SM4 tables reveal the key", "statement": "A fixed procedure that looks only at the tables of a generated context (or at an exported key file) returns the key: table lookups on chosen words, one byte of a round key at a time, then the key schedule run backwards.", "quantifier": "for every key, random number, number of dummy groups for which generation is defined, uninitialised memory, and both modes", "why_tests_cant": "All keys and all encodings; the code has no such procedure, and its tests only check that encryption is right.", "anchors": ["src/wbsm4/wbsm4_gen.c:WBCRYPTO_wbsm4_gen_table", "src/wbsm4/wbsm4_exkey.c:WBCRYPTO_wbsm4_key2file", "src/sm4/sm4.c:WBCRYPTO_sm4_init_key"]}
{"id": "C81", "title": "White-box AES tables reveal the key", "statement": "A fixed procedure that looks only at TypeIa and the first round of TypeII returns the key: byte k is the one for which every nibble of the output has a period as a function of the field inverse of input xor k. In particular tables for two keys are never the same.", "quantifier": "for every key, mixing bijections and nibble encodings", "why_tests_cant": "All keys and all encodings; that the wrong candidates are refused is a statement about all of them.", "anchors": ["src/wbaes/wbaes.c:WBCRYPTO_wbaes_gen_table", "src/wbaes/wbaes.c:TypeIa"]}
{"id": "C82", "title": "The rest of the matrix library", "statement": "The 128-bit generators, inversion, product, transposition and affine composition obey linear algebra although they leave out half of the words of the working matrix; functions on single bits touch that bit only; the weights count set bits; comparison decides equality; sums act as sums; concatenated matrices and affine maps act part by part, MatrixcomM4to8 for rows above 15 in its second argument not.", "quantifier": "for every matrix, vector, position, size and random stream", "why_tests_cant": "2^16384 matrices; half rows are left out only where a proof shows they do not matter.", "anchors": ["WBMatrix/src/WBMatrix.c:genMatpairM128", "WBMatrix/src/WBMatrix.c:invsM128", "WBMatrix/src/WBMatrix.c:isinvertM128", "WBMatrix/src/WBMatrix.c:setbitM128", "WBMatrix/src/WBMatrix.c:MatrixcomM4to8", "WBMatrix/src/WBMatrix.c:MatrixcomM8to128", "WBMatrix/src/WBMatrix.c:HWU128"]}
{"id": "C83", "title": "CBC decryption and lengths", "statement": "Only the low 32 bits of the length count, as a signed number: 2^32 q + 16 j decrypts j blocks, lengths with bit 31 set decrypt exactly one, both with success, and the wrapper computes the reported length from an output byte that was never written (between 2^31+16 and 2^32 a number near 2^64). An unaligned length stores the first bytes of the last plaintext block and takes bytes behind the announced input into the IV. Length 0 succeeds, but the wrappers read the byte before the output.", "quantifier": "for every cipher, IV, buffer contents, length and announced room", "why_tests_cant": "Needs buffers of several gigabytes; the call reports success.", "anchors": ["src/modes/cbc128.c:WBCRYPTO_cbc128_decrypt", "src/sm4/sm4_modes.c:WBCRYPTO_sm4_cbc_decrypt", "src/utils/padding.c:WBCRYPTO_padding_pkcs7_separate_length"]}
{"id": "C84", "title": "CBC with overlapping buffers", "statement": "Encryption is right for every overlap. Decryption is right if the output is the input, starts behind its end, or starts at least 32 bytes before it. One block before: all plaintext blocks but the first are zero. One block after: the result depends on the first ciphertext block only. For two or more blocks no other overlap is safe; for one block the plaintext is always right. Lengths that are not whole blocks follow the same rules, and refused calls change nothing. Success is reported each time otherwise.", "quantifier": "for every cipher, memory, IV, position of input and output, and number of blocks below 2^31 bytes", "why_tests_cant": "All contents and distances; tests use separate or identical buffers.", "anchors": ["src/modes/cbc128.c:WBCRYPTO_cbc128_encrypt", "src/modes/cbc128.c:WBCRYPTO_cbc128_decrypt"]}
{"id": "C85", "title": "White-box SM4 tables from self-equivalences reveal the key", "statement": "A fixed procedure that looks only at the fields of a generated context of the self-equivalence scheme returns the (padded) key: the first rounds on chosen words, one byte of a round key at a time, then the key schedule run backwards. Contexts for two keys of 16 bytes are never the same.", "quantifier": "for every key of any length, random number, and both modes", "why_tests_cant": "All keys and all encodings; the code has no such procedure, and its tests only check that encryption is right.", "anchors": ["src/se_wbsm4/se_wbsm4.c:WBCRYPTO_se_wbsm4_gen_table", "src/sm4/sm4.c:WBCRYPTO_sm4_init_key"]}
{"id": "C86", "title": "White-box GCM contexts reveal the key, and masked contexts are interchangeable", "statement": "The AES tables inside a generated white-box GCM context, with external encodings or masked, encryption or decryption, give the key by a fixed procedure. Without looking for the key, a masked encryption context decrypts everything encrypted with it, and a masked decryption context produces the ciphertexts of the encryption context, using only the context's own tables and matrices.", "quantifier": "for every key, random number, IV below 2^29 bytes, AAD below 2^61 bytes, message below 2^31 bytes and buffer", "why_tests_cant": "All keys, encodings and messages; tests use each context for its own direction only.", "anchors": ["src/wbaes/wbaes_wbgcm_ee_init.c:WBCRYPTO_wbaes_wbgcm_ee_gen_table", "src/wbaes/wbaes_wbgcm_mask_init.c:WBCRYPTO_wbaes_wbgcm_mask_gen_table", "src/wbaes/wbaes_wbgcm_mask_mode.c:WBCRYPTO_wbaes_wbgcm_mask_encrypt"]}
{"id": "C87", "title": "Memory given back", "statement": "Any sequence of init and free calls on format preserving encryption contexts, with and without MAC, is defined exactly when nothing is released twice, and gives everything back but one object for each init refused for its radix. The white-box GCM contexts are cleared and given back. All other contexts are cleared and stay allocated for good: one object for SM4 and AES, 5 + 31n for white-box SM4 of n rounds. CBC encryption loses one object in every call, also a refused one; the parallel mode one for each block and one more.", "quantifier": "for every heap, sequence of calls, key, tweak, radix, message and length", "why_tests_cant": "Every sequence of calls; a lost object does not change any result.", "anchors": ["src/fpe/init.c:WBCRYPTO_fpe_init", "src/fpe/init.c:WBCRYPTO_fpe_mac_free", "src/sm4/sm4.c:WBCRYPTO_sm4_context_free", "src/wbsm4/wbsm4.c:WBCRYPTO_wbsm4_context_init", "src/modes/cbc128.c:WBCRYPTO_cbc128_encrypt", "src/modes/gcm_parallel.c:WBCRYPTO_gcm_parallel_encrypt", "src/wbaes/wbaes_wbgcm_mask_mode.c:WBCRYPTO_wbaes_wbgcm_mask_free"]}
{"id": "C88", "title": "Secrets left in memory", "statement": "After context_init, gen_table and context_free of both white-box SM4 schemes an allocated object without owner holds plain SM4 round keys from which the key follows. After releasing a plain SM4 context a freed block holds the padded key. After gcmfile_free the hash key can be read from the inner context. A MySQL query leaves one SM4 context with round keys for each row. Each CBC encryption leaves the message.", "quantifier": "for every heap, key of any length, mode, cipher, number of rounds, rows and message", "why_tests_cant": "No output of the library depends on it, so no test on results can see it.", "anchors": ["src/wbsm4/wbsm4_gen.c:WBCRYPTO_wbsm4_gen_table", "src/se_wbsm4/se_wbsm4.c:WBCRYPTO_se_wbsm4_gen_table", "src/sm4/sm4.c:aux_sm4_init_key", "src/modes/gcmfile.c:WBCRYPTO_gcmfile_free", "src/modes/cbc128.c:WBCRYPTO_cbc128_encrypt"]}
{"id": "C89", "title": "Contexts as functions of the clock", "statement": "A generated white-box context (AES, GCM with external encodings, GCM with masks, both SM4 schemes) is determined by the key, one 32-bit counter and the seconds at which it was made (425, 948, 109 and 589 readings of the clock), not by earlier use of the generator or uninitialised memory (but for the dummy rounds of SM4). Within one second a fresh process can make at most 2^32 contexts for a key. The TypeIV tables depend on one second only, not on the key. Matrices L of contexts made up to 30 seconds apart repeat. Both masks are equal unless the clock moves between them. With the library's own numbers the tags of the masked mode differ.", "quantifier": "for every clock, counter, state, content of uninitialised memory and key", "why_tests_cant": "Contexts look random in each test; that two runs agree is a statement about all clocks and states.", "anchors": ["WBMatrix/src/random.c:InitRandom", "WBMatrix/src/WBMatrix.c:randseed", "src/wbaes/wbaes_wbgcm_mask_init.c:genRandomMask", "src/wbaes/wbaes.c:WBCRYPTO_wbaes_gen_table", "src/wbaes/wbaes_wbgcm_ee_init.c:WBCRYPTO_wbaes_wbgcm_ee_gen_table", "src/se_wbsm4/se_wbsm4.c:WBCRYPTO_se_wbsm4_gen_table", "src/wbsm4/wbsm4_gen.c:WBCRYPTO_wbsm4_gen_table"]}
{"id": "C90", "title": "GCM: what tags reveal about the hash key", "statement": "GHASH multiplication is a field, so two different messages (AAD or ciphertext) with tags of n bytes under one IV leave at most (number of blocks) * 256^(16-n) possible hash keys, whatever the cipher and IV. A single tag under a 12-byte IV is consistent with every hash key. With the hash key and one tag the tag of any other message under that IV follows. Two messages under one IV have ciphertexts that differ exactly where the plaintexts do. The library never refuses an IV used before.", "quantifier": "for every cipher, IV below 2^29 bytes, pair of messages with AAD below 2^61 and text below 2^31 bytes, tag length up to 16", "why_tests_cant": "A bound on the number of keys is a statement about all of them.", "anchors": ["src/modes/gcm128.c:WBCRYPTO_gcm_setiv", "src/modes/gcm128.c:WBCRYPTO_gcm_decrypt", "src/modes/gcm128.c:WBCRYPTO_gcm_finish"]}
{"id": "C91", "title": "White-box GCM contexts in use", "statement": "After the first setiv a context of the mode with external encodings answers every sequence of calls with the return codes (-1 where AES-GCM gives 0), bytes and undefined cases of AES-GCM for the same key, but for tags given while both length counters are 0. For contexts of both modes: a refused call changes nothing and returns -1; other calls change only the announced bytes; block-aligned pieces give the bytes and context of one call; after any calls a message with setiv and aad is treated as by a fresh context; shorter tags are prefixes; lengths from 2^31 report success and do nothing; in place and backwards overlapping buffers give the result of separate ones, forward overlapping ones a wrong byte.", "quantifier": "for every key, random number, lookup table, sequence of calls with any lengths, buffer and memory", "why_tests_cant": "All sequences of calls and all tables; the tests make one call of each kind.", "anchors": ["src/wbaes/wbaes_wbgcm_ee_mode.c:WBCRYPTO_wbaes_wbgcm_ee_encrypt", "src/wbaes/wbaes_wbgcm_ee_mode.c:WBCRYPTO_wbaes_wbgcm_ee_decrypt", "src/wbaes/wbaes_wbgcm_ee_mode.c:WBCRYPTO_wbaes_wbgcm_ee_finish", "src/wbaes/wbaes_wbgcm_mask_mode.c:WBCRYPTO_wbaes_wbgcm_mask_encrypt", "src/wbaes/wbaes_wbgcm_mask_mode.c:WBCRYPTO_wbaes_wbgcm_mask_decrypt"]}
{"id": "C92", "title": "FPE applications as NIST FF1 and FF3", "statement": "A context made with 16 or more key bytes and a cipher name other than wbsm4 replaces the hidden characters of phone numbers, identity cards (radix 10) and Chinese text (four base 12 digits for each character) by NIST FF1 (mode ff1) or FF3 under the byte-reversed key (every other mode name) of them, with the shown characters and a zero byte as tweak; decryption is the inverse. Memory contents and white-box random numbers have no influence. Without sample the tweak is one zero byte for all numbers. FF3 uses only the first eight shown characters. Encryption is injective for each sample.", "quantifier": "for every key, cipher and mode name, number or text, sample and memory, within the lengths of the standard", "why_tests_cant": "All keys and strings; the tests check that decryption undoes encryption, which another cipher or tweak would also satisfy.", "anchors": ["src/fpe_app/phone.c:WBCRYPTO_fpe_encrypt_phone_with_sample", "src/fpe_app/idcard.c:WBCRYPTO_fpe_encrypt_idcard_with_sample", "src/fpe_app/cn_utf8.c:WBCRYPTO_fpe_encrypt_cn_utf8_with_sample"]}
{"id": "C93", "title": "FF3 beyond its length limit", "statement": "The length limit of FF3 is not checked. Beyond it, every half only has 128-bit numbers added to it: from the first k with radix^k >= 2^130, all digits of a half behind position j >= k of the plaintext reappear in the ciphertext as soon as digit j of the plaintext is not the largest or digit j of the ciphertext is not 0. In Chinese text that shows later hidden characters of each half. Only the leading twelve bytes of a half enter the rounds: for all but 4 d (L 2^96 + 1) radix^u of the radix^n plaintexts, adding d to the second half of an FF3-GMAC ciphertext is accepted with the old tag and adds d to the plaintext.", "quantifier": "for every cipher, tweak, radix, length, plaintext and change d", "why_tests_cant": "All keys, plaintexts and lengths; round trips work for long strings too.", "anchors": ["src/fpe/ff3.c:WBCRYPTO_ff3_encrypt", "src/fpe/ff3_gmac.c:WBCRYPTO_ff3_gmac_encrypt", "src/fpe/ff3_gmac.c:WBCRYPTO_ff3_gmac_decrypt", "src/fpe_app/cn_utf8.c:WBCRYPTO_fpe_encrypt_cn_utf8_with_sample"]}
{"id": "C94", "title": "What tags of authenticated FPE give away", "statement": "One message under two FF3-GMAC tweaks that agree in the first eight bytes and differ in the next eight has equal ciphertexts, and its two tags determine the hash key of the cipher; with it the tag under one tweak gives the tag under all tweaks with the same first eight bytes. Tweak bytes from index 16 on are not authenticated. FF1-CMAC has fewer than 2^58 tags for a key, over all tweaks, radices, inputs and contents of uninitialised memory.", "quantifier": "for every cipher, pair of tweaks of at least 16 bytes, radix and numeral string", "why_tests_cant": "Uniqueness of the hash key and the number of tags are statements about all inputs.", "anchors": ["src/fpe/ff3_gmac.c:WBCRYPTO_ff3_gmac_encrypt", "src/fpe/ff3_gmac.c:gmac_mult_H", "src/fpe/ff1_cmac.c:WBCRYPTO_ff1_cmac_encrypt"]}
{"id": "C95", "title": "FF3 under related tweaks", "statement": "FF3 under a tweak is H followed by G, four rounds each. Under the tweak with bit 2 of the bytes 3 and 7 flipped it is G followed by H. So H carries every pair of plaintext and ciphertext under the first tweak to such a pair under the second one, and the two ciphers are conjugate: they have the same cycles. In the phone application with FF3 and at least eight visible characters this relates any two numbers whose fourth and eighth visible characters differ by 4 (0 and 4, 1 and 5, and so on).", "quantifier": "for every cipher, tweak, radix, and numeral string within the length limit", "why_tests_cant": "An equation between two permutations of all numeral strings for all keys.", "anchors": ["src/fpe/ff3.c:WBCRYPTO_ff3_encrypt", "src/fpe/init.c:WBCRYPTO_fpe_init", "src/fpe_app/phone.c:aux_fpe_phone"]}
{"id": "C96", "title": "FPE of characters that are no numerals", "statement": "Characters are not checked. FF1 (when its assertion on the tweak length passes, see C44) and FF3 encryption write outside a heap buffer exactly when the number made of the second half needs more bytes than reserved; for a character below 0 there this is so for all decimal strings of up to 14 characters. Otherwise the string is encrypted like a string of numerals of the same length, which decryption returns: its second half is the number of the second half reduced modulo radix^v, and the first half likewise when the second needed no reduction. Strings with the same values are not told apart by any FPE function: capital letters A to S are h to z. A phone or card number with another character than a digit in a hidden place never survives encryption and decryption.", "quantifier": "for every cipher, tweak, radix, string of non-zero bytes, sample and memory", "why_tests_cant": "All strings and keys; the tests only use digits.", "anchors": ["src/fpe/fpe_locl.c:map_chars", "src/fpe/ff1.c:WBCRYPTO_ff1_encrypt", "src/fpe/ff3.c:WBCRYPTO_ff3_encrypt", "src/fpe_app/phone.c:aux_fpe_phone", "src/fpe_app/idcard.c:aux_fpe_idcard"]}
{"id": "C97", "title": "FPE byte counts computed with doubles", "statement": "(unsigned int) ceil(k * log2(radix)) in IEEE 754 binary64, with log2 and the product rounded to a neighbouring double in any mode, is the number of bits of the numbers below radix^k, for up to 2^20 digits. So FF1, FF3, FF1-CMAC and FF3-GMAC on strings of up to 2^21 characters, and the applications, give the results they give with exact byte counts, including undefined ones.", "quantifier": "for every radix from 2 to 36, number of digits up to 2^20, rounding mode, cipher, tweak and input", "why_tests_cant": "A wrong last bit shows only for particular radices and lengths among millions; the tests use a few.", "anchors": ["src/fpe/ff1.c:WBCRYPTO_ff1_encrypt", "src/fpe/ff3.c:WBCRYPTO_ff3_encrypt", "src/fpe/ff1_cmac.c:WBCRYPTO_ff1_cmac_encrypt", "src/fpe/ff3_gmac.c:WBCRYPTO_ff3_gmac_encrypt"]}
{"id": "C98", "title": "FPE of fewer than two characters", "statement": "FF1 and FF1-CMAC with at most one character, and FF3 and FF3-GMAC with none, end in a failed assertion; so do phone numbers, cards and Chinese text whose sample hides that few characters. FF3 of a single numeral is a shift of the alphabet. For a key the amount depends only on bytes 4-7 of the tweak, so one numeral with its encryption gives the encryption of all numerals under all tweaks with these bytes. A phone or card number with one hidden digit has that digit moved by an amount that is a function of the shown characters 4 to 7.", "quantifier": "for every cipher, tweak, radix, character, number, text, sample and memory", "why_tests_cant": "That the amount is the same for all numerals and tweaks is a statement about all of them.", "anchors": ["src/fpe/ff1.c:WBCRYPTO_ff1_encrypt", "src/fpe/ff3.c:WBCRYPTO_ff3_encrypt", "src/fpe/ff1_cmac.c:WBCRYPTO_ff1_cmac_encrypt", "src/fpe/ff3_gmac.c:WBCRYPTO_ff3_gmac_encrypt", "src/fpe_app/phone.c:aux_fpe_phone", "src/fpe_app/idcard.c:aux_fpe_idcard", "src/fpe_app/cn_utf8.c:WBCRYPTO_fpe_encrypt_cn_utf8_with_sample"]}
{"id": "C99", "title": "Keys of any length", "statement": "SM4, white-box SM4 without dummy rounds and white-box SM4 from self-equivalences read only the bytes of the key, and use SM4 under its first 16 bytes, or under the shorter key filled up as in PKCS#7; an empty key means the constant key 10..10. The AES contexts (plain, white-box and both white-box GCM modes) ignore keylen: they use AES-128 under the first 16 bytes at the pointer. So longer keys do not mean AES-192 or AES-256, an object of fewer than 16 bytes is read past its end, and for every keylen below 16 the bytes behind the key change the ciphertext.", "quantifier": "for every key object, keylen, and random choices of the white-box generators", "why_tests_cant": "All keys and memory contents; the tests use 16-byte keys only.", "anchors": ["src/utils/padding.c:WBCRYPTO_key_padding_pkcs7", "src/sm4/sm4.c:aux_sm4_init_key", "src/wbsm4/wbsm4_gen.c:WBCRYPTO_wbsm4_gen_table", "src/se_wbsm4/se_wbsm4.c:WBCRYPTO_se_wbsm4_gen_table", "src/wbaes/wbaes_local.c:expandKey", "src/wbaes/wbaes.c:WBCRYPTO_wbaes_gen_table", "src/aes/aes.c:WBCRYPTO_aes_init_key"]}
{"id": "C100", "title": "GCM with empty, missing, colliding and very long IVs", "statement": "With an empty IV, which is accepted, the tag of the empty message is the hash key, so it and a single tag under any IV give the tags of all messages under that IV; under the empty IV itself all tags follow. Without setiv all calls report success, the key stream is that of the empty IV, the tag lacks its mask, and the tag of 16 zero bytes of AAD determines the hash key. Two different IVs below 2^29 bytes have the same first counter block for at most as many hash keys as blocks are hashed for them, none for 12-byte IVs, whose messages share no cipher input at all. Zeros in front of an IV of another length, in a multiple of 2^29 bytes, change nothing, unlike in the standard.", "quantifier": "for every cipher, history of the context, IV, AAD and message", "why_tests_cant": "Counting keys and excluding collisions are statements about all keys and IVs; the tests use one IV.", "anchors": ["src/modes/gcm128.c:WBCRYPTO_gcm_setiv", "src/modes/gcm128.c:WBCRYPTO_gcm_init", "src/modes/gcm128.c:WBCRYPTO_gcm_finish"]}
{"id": "C101", "title": "GCM tags do not commit to the key", "statement": "For any number of keys with different hash keys other than 0, any IV, AAD, tag and beginning of the ciphertext in whole blocks there is exactly one end, of as many blocks as there are keys, with which the ciphertext has this tag under all these keys. So a message can be made whose tag is right under two given keys; a tag does not show under which key a message was sealed.", "quantifier": "for every number of ciphers with different non-zero hash keys, IV, AAD, tag and prefix", "why_tests_cant": "An existence and uniqueness statement over all ciphertexts and keys.", "anchors": ["src/modes/gcm128.c:WBCRYPTO_gcm_decrypt", "src/modes/gcm128.c:WBCRYPTO_gcm_finish"]}
{"id": "C102", "title": "What the length after CBC decryption reveals", "statement": "The length reported after CBC decryption of whole blocks is a function of the last byte of the plaintext alone: 1 to 16 are taken off, everything else counts as no padding. Pad bytes are not checked and no input is refused. Of sixteen calls on a block with IVs ending in 00, 10, .., f0 exactly one reports fewer than 16 bytes, and that call gives the last byte of the deciphered block; so whoever is told the lengths learns the last byte of every block of a CBC message. Fifteen calls do not suffice, on whatever blocks: at least 16 values remain that give the same answers.", "quantifier": "for every cipher, IV, message and choice of up to fifteen calls", "why_tests_cant": "What all calls together reveal, and the lower bound over all sets of calls, cannot be sampled.", "anchors": ["src/utils/padding.c:WBCRYPTO_padding_pkcs7_separate_length", "src/sm4/sm4_modes.c:WBCRYPTO_sm4_cbc_decrypt", "src/wbsm4/wbsm4_modes.c:WBCRYPTO_wbsm4_cbc_decrypt", "src/aes/aes_modes.c:WBCRYPTO_aes_cbc_decrypt", "src/modes/cbc128.c:WBCRYPTO_cbc128_decrypt"]}
{"id": "C103", "title": "SM3 contexts after the digest and digests continued", "statement": "The digest of a message and its length give the digest of that message followed by its padding and any further bytes, so a digest of a secret followed by a message does not authenticate: one function of digest, lengths and extension gives the digest for every secret. `final` leaves chaining value and length in the context: a second message hashed without `init` gives the digest of padded first message and second message but for the length in the last padding, which is neither the digest of the second message nor that of both. A block given to `transform` is hashed but not counted.", "quantifier": "for every message, extension, secret and division of the messages into updates", "why_tests_cant": "Which digest a reused context gives, and that one forger serves all secrets, are statements about all messages.", "anchors": ["src/sm3/md32_common.h:HASH_FINAL", "src/sm3/md32_common.h:HASH_TRANSFORM", "src/sm3/md32_common.h:HASH_UPDATE", "src/sm3/sm3.c:sm3_block_data_order"]}
{"id": "C104", "title": "Which invertible matrices the generators give", "statement": "There are (2^n - 1)(2^n - 2) .. (2^n - 2^(n-1)) invertible n x n matrices over two elements. A random matrix that is invertible is returned as it is, so every invertible matrix comes out for some random numbers (n up to 32). But they are not equally likely, however many of the random numbers are uniform: their number is divisible by 3, that of the streams is a power of 2. And since each call seeds the generator with 32 bits, `genMatpairM8` and `genMatpairM32` give at most 2^32 matrices whatever the clock and the calls before, out of more than 2^62 and 2^1022: some invertible matrix never comes out.", "quantifier": "for every size, matrix, number of random values, clock and generator state", "why_tests_cant": "Neither the distribution over all streams nor that a matrix is never produced can be seen in a sample.", "anchors": ["WBMatrix/src/WBMatrix.c:genMatpairM8", "WBMatrix/src/WBMatrix.c:genMatpairM32", "WBMatrix/src/WBMatrix.c:randM8", "WBMatrix/src/random.c:InitRandom"]}
{"id": "C105", "title": "What the table lookups of SM4 reveal", "statement": "Which tables SM4 looks up, and how often, depends on no data. But which entries gives the key away: those of the first four rounds of an encryption with its input, those of the first four rounds of a decryption with its input, and those of the first four steps of the key schedule alone. If only lines of 64 bytes are seen, the first round shows the two upper bits of each byte of the first round key, and all messages together show no more of it than one does; this is the protection the byte-wise table gives.", "quantifier": "for every key of any length, block, mode and schedule of round keys", "why_tests_cant": "That a record determines the key, and that no set of messages shows more, are statements about all keys and messages.", "anchors": ["src/sm4/sm4.c:SM4_T_slow", "src/sm4/sm4.c:SM4_T", "src/sm4/sm4.c:aux_sm4_init_key", "src/sm4/sm4.c:WBCRYPTO_sm4_encrypt", "src/sm4/sm4.c:WBCRYPTO_sm4_decrypt"]}
{"id": "C106", "title": "What the table lookups of GHASH reveal", "statement": "Which tables a multiplication by the hash key looks up, and how often, depends on no data, but the entries of HH it looks up are exactly the nibbles of its argument. So an AAD whose first block is not zero and that is longer than that block gives the hash key to whoever sees the AAD and the lookups, and with one tag under an IV the tags of all messages under that IV. Seeing only which half of the tables is looked up, which is 64 bytes, does not help: four AADs under one key still give the hash key.", "quantifier": "for every block cipher, IV, AAD and pair of messages", "why_tests_cant": "That a record determines the hash key for all ciphers is a statement about all of them.", "anchors": ["src/modes/gcm128.c:gcm_mult", "src/modes/gcm128.c:WBCRYPTO_gcm_aad", "include/wbcrypto/modes.h:gcm128_context"]}
{"id": "C107", "title": "What happens when memory runs out", "statement": "The headers promise NULL or 0 on failure. A refused request for memory is reported only when it is the first request of a context function. In the key schedule of SM4, table generation, CBC, the parallel mode, file encryption, FF1, FF3, their MAC variants and all applications every refused request makes the run use a null pointer, except that CBC does not notice the first refusal when the output buffer is too short. WBCRYPTO_fpe_mac_init and WBCRYPTO_gcmfile_init can return contexts with nothing in them, and the white-box contexts contexts with tables missing; every later use of these is undefined. When no request is refused the results are those of the other properties. So a caller who tests every pointer and encrypts with SM4 and FF1 is protected from two of eight refusals.", "quantifier": "for every pattern of granted and refused requests, every key, message and random stream", "why_tests_cant": "There are 2^1127 patterns of answers for one white-box context; a test injects one fault, and most suites none.", "anchors": ["src/sm4/sm4.c:aux_sm4_init_key", "src/wbsm4/wbsm4.c:WBCRYPTO_wbsm4_context_init", "src/fpe/init.c:WBCRYPTO_fpe_mac_init", "src/modes/cbc128.c:WBCRYPTO_cbc128_encrypt", "src/fpe_app/init.c:WBCRYPTO_fpe_app_init"]}
{"id": "C108", "title": "FPE with text and result in the same memory", "statement": "FF1, FF3, phone numbers and identity card numbers can be encrypted and decrypted in place, and doing both gives the buffer back. The result may also lie in front of the text, or behind its end. With a sample and the result inside the text but not at its start, a shown character is copied from where the result may already be: leading shown characters are repeated with the period of the distance. An identity card number then loses its final X even without a sample. Chinese text can be encrypted in place only if the sample shows no character: otherwise memcpy copies between objects that overlap, which is undefined.", "quantifier": "for every buffer, every pair of positions in it, every sample, text, engine and cipher", "why_tests_cant": "Overlap is a matter of two addresses; tests use separate buffers, and memcpy between equal addresses seems to work.", "anchors": ["src/fpe_app/phone.c:aux_fpe_phone", "src/fpe_app/idcard.c:aux_fpe_idcard", "src/fpe_app/cn_utf8.c:aux_fpe_cn", "src/fpe/ff1.c:WBCRYPTO_ff1_encrypt"]}
{"id": "C109", "title": "The tag kept in an FPE MAC context", "statement": "After any series of calls on a WBCRYPTO_fpe_mac_context, finish delivers the tag of the latest call alone, whichever of the two finish functions is called and whatever came before: one tag at the end of a batch says nothing about the earlier texts. Before the first call it delivers the sixteen bytes malloc found, with success. The announced length is not consulted: a buffer of fewer than sixteen bytes is overrun. Decryption delivers a text for every string of numerals; no function compares tags.", "quantifier": "for every series of CMAC and GMAC calls, every block function, radix, tweak, text, buffer and content of fresh memory", "why_tests_cant": "Tests finish once after one call with a large buffer; independence of the whole history and of fresh memory cannot be sampled.", "anchors": ["src/fpe/init.c:WBCRYPTO_fpe_mac_init", "src/fpe/ff1_cmac.c:WBCRYPTO_ff1_cmac_finish", "src/fpe/ff1_cmac.c:WBCRYPTO_ff1_cmac_decrypt", "src/fpe/ff3_gmac.c:WBCRYPTO_ff3_gmac_finish", "src/fpe/ff3_gmac.c:WBCRYPTO_ff3_gmac_decrypt"]}
{"id": "C110", "title": "Damaged, foreign and half-written white-box SM4 key files", "statement": "WBCRYPTO_wbsm4_file2key accepts a file exactly if it starts with the name, announces no more rounds than the context has, and is long enough (24 + 24576 r + 8192 min(r,4) bytes); what it holds is not checked, so a damaged file is loaded as another key, and a rejected one leaves a mixture of two keys in the context. It is undefined exactly if more rounds are announced than the context has and the file reaches past the first table. WBCRYPTO_wbsm4_key2file leaves the first bytes the device takes; it reports failure only if the stream buffer happens to be emptied while the device is full, since the results of fputs and fclose are ignored. A file it leaves is the whole file or is rejected. Files that cannot be opened lead to fclose(NULL).", "quantifier": "for every file content and length, every context, every amount of room on the device and every policy of emptying the buffer", "why_tests_cant": "All files of all lengths, full devices and buffering policies cannot be sampled; a full device is rarely tested at all.", "anchors": ["src/wbsm4/wbsm4_exkey.c:WBCRYPTO_wbsm4_key2file", "src/wbsm4/wbsm4_exkey.c:WBCRYPTO_wbsm4_file2key"]}
{"id": "C111", "title": "Large files, contexts used for several files, and full devices in GCM file encryption", "statement": "WBCRYPTO_gcmfile_encrypt encrypts files of any length below 2^61 bytes, with the NIST tag, and returns 1; a file of 2^31 bytes or more cannot be decrypted, since the decryption counts its bytes in an int. The context goes one block further for every 16 bytes or part of them, so a second file encrypted with it after one setiv starts at the counter the first has reached: a fresh context with the same key and IV decrypts it to something else with return value 1, unless the two stretches of key stream are equal; decrypting both files in order with one context returns both. Results of fwrite are ignored: on a full device encryption returns 1 and leaves a prefix of the file, complete exactly if both the temporary and the output file had room; reading the prefix back returns 0 if at least the header arrived and is undefined if at most the tag arrived. Decryption to a full device returns 1 with a truncated text. Files that cannot be created lead to fclose of an invalid pointer.", "quantifier": "for every block cipher, IV, additional data, file content and length, every context, every pair of files, every amount of room and every policy of emptying the buffers", "why_tests_cant": "Files beyond 2 GB, full devices, and all contexts and pairs of files cannot be sampled.", "anchors": ["src/modes/gcmfile.c:WBCRYPTO_gcmfile_encrypt", "src/modes/gcmfile.c:WBCRYPTO_gcmfile_decrypt"]}
{"id": "C112", "title": "GCM with lengths an int does not hold", "statement": "The GCM functions convert the length to int. WBCRYPTO_gcm_encrypt and WBCRYPTO_gcm_decrypt process the first inlen mod 2^32 bytes if that is below 2^31 and none otherwise; sealing a message of 2^32 q + k bytes with k < 2^31 gives the ciphertext and tag of its first k bytes, with return value 1. Every execution of the parallel functions (with a private inner index) does the same for residues from 1 to 2^31 - 1; for larger residues they are undefined, except for the residues 2^32 - 30 to 2^32 - 15, for which they return 1, write nothing and lower the length kept in the context.", "quantifier": "for every context, cipher, IV, additional data, message and length of any size, every assignment of blocks to threads and every schedule", "why_tests_cant": "Messages of four gigabytes are not used in tests, and all lengths and schedules cannot be enumerated.", "anchors": ["src/modes/gcm128.c:WBCRYPTO_gcm_encrypt", "src/modes/gcm128.c:WBCRYPTO_gcm_decrypt", "src/modes/gcm_parallel.c:WBCRYPTO_gcm_parallel_encrypt", "src/modes/gcm_parallel.c:WBCRYPTO_gcm_parallel_decrypt"]}
{"id": "C113", "title": "Samples that do not fit the text, and results read as strings", "statement": "For phone and identity card numbers a non-empty sample is read up to the length of the number, without regard to its own end: exactly the positions where the memory holds a star are encrypted (the terminator counts as a visible position), the same memory at decryption gives the number back, and if the memory ends earlier the call is undefined. No terminator is written: the result read as a string is the ciphertext exactly if the output already held one there. For Chinese text a sample for fewer characters yields only that many characters and a ciphertext that depends on uninitialised memory; a sample with a star beyond the text writes outside the tweak array; the ASCII sample a** for three characters encrypts uninitialised memory and returns the first character alone.", "quantifier": "for every cipher, number, identity card, text, sample memory and output buffer of any length, and any contents of uninitialised memory", "why_tests_cant": "Tests use samples of exactly the length of the text and zeroed output buffers; what lies behind a sample in memory cannot be enumerated.", "anchors": ["src/fpe_app/phone.c:aux_fpe_phone", "src/fpe_app/idcard.c:aux_fpe_idcard", "src/fpe_app/cn_utf8.c:aux_fpe_cn", "udf/mysql5.cpp:fpe"]}
{"id": "C114", "title": "GCM calls in other orders, in pieces and with several tags", "statement": "No GCM call checks what was called before. For every sequence of aad, encrypt and decrypt calls after setiv, on a context with any history, and any number of finish calls, the outputs are counter mode with a new counter block for every call, and the tag is that of the pieces in call order, each padded by itself, followed by the length of the last AAD piece and the length of the data, hashed once per finish. Hence AAD given in two pieces of whole blocks has the NIST tag only if the hash key is zero; a piece of AAD that is not the last may be extended by zeros without any change; with an empty AAD last and no data the tag ignores the AAD; data pieces that are not whole blocks allow two different ciphertexts with one tag; AAD behind the data has another tag unless in three named cases; and three finish calls on one context fix the hash key, so that every message under that IV can be forged.", "quantifier": "for every block cipher, context history, IV, and list of aad, encrypt and decrypt calls with any data, and every number of finish calls", "why_tests_cant": "Tests call setiv, aad, encrypt and finish once each and in this order; the sequences of calls are unbounded, and that three tags determine the hash key is a statement about all keys.", "anchors": ["src/modes/gcm128.c:WBCRYPTO_gcm_aad", "src/modes/gcm128.c:WBCRYPTO_gcm_encrypt", "src/modes/gcm128.c:WBCRYPTO_gcm_decrypt", "src/modes/gcm128.c:WBCRYPTO_gcm_finish"]}
{"id": "C115", "title": "The IV variable of CBC over several calls", "statement": "CBC encryption leaves the caller's IV as it was, CBC decryption overwrites it with the last ciphertext block. Messages encrypted one after the other with one IV variable are therefore all encrypted under the same IV: any two ciphertexts begin with the same blocks exactly if the padded messages do, and whoever may choose a prefix gets the whole secret behind it with 257 messages a byte. A receiver that keeps one variable reads the first message, and of the second all but its first block unless the last ciphertext block of the first is the IV. Encryption cannot be resumed: whole blocks in two calls give the ciphertext of one call exactly in the same case. Two ciphertext blocks are the same exactly if the plaintexts differ by what the blocks before them differ by, and a block pasted behind another decrypts to its plaintext xor the two blocks.", "quantifier": "for every injective block cipher, IV, list of messages of any content and lengths below 2^31 - 16, every secret, and all positions of blocks", "why_tests_cant": "Tests encrypt and decrypt one message with a fresh IV array; sequences of calls, and an attack that works for every key and secret, are not reached.", "anchors": ["src/modes/cbc128.c:WBCRYPTO_cbc128_encrypt", "src/modes/cbc128.c:WBCRYPTO_cbc128_decrypt"]}
{"id": "C116", "title": "Which FPE calls the block cipher can tell apart", "statement": "In FF1 the string that a round authenticates is different for every radix, length, tweak, round number and value of the other half, and no such string is the beginning of another one, so rounds of different calls under one key never share a CBC-MAC input. In FF3 the block of a round is the same for two calls exactly if the tweak half with the round number added and the number agree: radix and length do not enter. In the applications the places of the hidden digits and the kind of data are not part of the tweak: a phone number and an identity card with the same visible characters in order and the same hidden digits in order get the same encrypted digits.", "quantifier": "for every key, injective block cipher, radix from 2 to 36, length and tweak length below 2^32, round, number, sample and text", "why_tests_cant": "Tests encrypt single values; that no two of all possible calls collide inside the cipher, or that two different applications always agree, is a statement about all pairs of inputs.", "anchors": ["src/fpe/ff1.c:WBCRYPTO_ff1_encrypt", "src/fpe/ff3.c:WBCRYPTO_ff3_encrypt", "src/fpe_app/phone.c:aux_fpe_phone", "src/fpe_app/idcard.c:aux_fpe_idcard"]}
{"id": "C117", "title": "FPE with an odd radix is an even permutation", "statement": "With an odd radix FF1 and FF3 are even permutations of the strings of a length: if the encryptions under two keys, ciphers or tweaks agree on all strings but two, they agree on all strings, so all but two entries of a code book determine the last two. With an even radix this is not so: there are ciphers whose FF1 encryptions of two binary digits agree on exactly two of the four strings.", "quantifier": "for every pair of block ciphers and tweaks, odd radix from 3 to 35, length within the limits, and pair of strings left out", "why_tests_cant": "The parity of a permutation of all strings is not visible in samples and the number of strings is exponential.", "anchors": ["src/fpe/ff1.c:WBCRYPTO_ff1_encrypt", "src/fpe/ff3.c:WBCRYPTO_ff3_encrypt"]}
{"id": "C118", "title": "White-box GCM contexts used for several files, large files and full devices", "statement": "A context of the ee mode does with any sequence of files and calls what an AES-GCM context does: same return values, same file operations, same bytes. In both modes files encrypted one after another with one context are restored by one context that decrypts them in the same order, but a file other than the first, decrypted with a freshly prepared context, has return value 1 and wrong content unless stretches of key stream are equal. Files of 2^31 bytes and more are encrypted with return value 1 but cannot be decrypted (undefined behaviour). Encryption returns 1 however little the devices take; the output is then a prefix, and reading it back gives 0, undefined behaviour, or return value 1, depending on the room alone. Return values of decryption are those of plain GCM for every file and context.", "quantifier": "for every key, random choice, IV, AAD, sequence of files and calls, file content and device", "why_tests_cant": "Sequences of files with one context, files of gigabytes and devices that fill up at any byte are not covered by samples.", "anchors": ["src/wbaes/wbaes_wbgcm_ee_file.c:WBCRYPTO_wbaes_wbgcmfile_ee_encrypt", "src/wbaes/wbaes_wbgcm_ee_file.c:WBCRYPTO_wbaes_wbgcmfile_ee_decrypt", "src/wbaes/wbaes_wbgcm_mask_file.c:WBCRYPTO_wbaes_wbgcmfile_mask_encrypt", "src/wbaes/wbaes_wbgcm_mask_file.c:WBCRYPTO_wbaes_wbgcmfile_mask_decrypt"]}
{"id": "C119", "title": "White-box ciphers on a big-endian machine", "statement": "The matrix functions that reach into a word through a pointer to a smaller type put four matrices together differently on a big-endian machine: matrix t acts on the byte at the other end of the word, while the parity functions and pairs of inverse affine maps are unaffected. White-box SM4 generated there applies T to the mirrored sum of words and to round keys shifted by the random encodings: it is not SM4, contexts of one key whose encodings differ in one round encrypt no block alike, and a decryption context undoes it only when its encodings match (if they fail in one round, no block is decrypted). The self-equivalence cipher is SM4 if the self-equivalences drawn are symmetric within every round; if they are not in one round, some block is wrong for every key. White-box AES computes AES with columns turned upside down after each MixColumns, for every random choice, so the white-box GCM modes agree with themselves but not with AES-GCM. On a little-endian machine all are the functions of the other properties.", "quantifier": "for every key, block, message and outcome of the random choices, for both byte orders", "why_tests_cant": "Tests run on the machine at hand, which is little-endian; no test there can show what the code does elsewhere, and agreement of two big-endian runs (AES) or a lucky draw (self-equivalences) would look like success.", "anchors": ["WBMatrix/src/WBMatrix.c:MatrixcomM8to32", "WBMatrix/src/WBMatrix.c:VectorcomV8to32", "WBMatrix/src/WBMatrix.c:affinecomM8to32", "WBMatrix/src/WBMatrix.c:xorU64", "WBMatrix/src/WBMatrix.c:genaffinepairM32", "src/wbsm4/wbsm4_gen.c:WBCRYPTO_wbsm4_gen_table", "src/se_wbsm4/se_wbsm4.c:WBCRYPTO_se_wbsm4_gen_table", "src/wbaes/wbaes.c:WBCRYPTO_wbaes_gen_table", "src/wbaes/wbaes_wbgcm_ee_init.c:WBCRYPTO_wbaes_wbgcm_ee_gen_table", "src/wbaes/wbaes_wbgcm_mask_init.c:WBCRYPTO_wbaes_wbgcm_mask_gen_aes_table"]}
{"id": "C120", "title": "Files and FF1 on machines of other byte order and word size", "statement": "The size field of an encrypted file is an int in the writer's byte order, followed by four stray bytes where size_t has eight bytes; the reader takes as many bytes as its own size_t has and reads the first four lowest byte first. Between machines of one word size the content is restored in any case, but the file of a big-endian machine is reported as bad unless the bytes of its size read the same from both ends (no file of 1 to 65535 bytes is), even on the machine that wrote it. Between 64 and 32 bits the ciphertext is read four bytes too early or too late: the output is wrong and (but for one empty file) the call fails. This holds for the three file formats and every context. A white-box SM4 key file comes back on machines of the writer's byte order; on others the number of rounds is read with its bytes turned round: with 1 to 127 rounds the reader writes behind its tables, with 128 to 255 it reports success having read none. FF1 and FF1-CMAC, whose code branches on the byte order, give the same P, counter blocks and results on both.", "quantifier": "for every pair of machines, content, key, IV, stray bytes, context and reading context", "why_tests_cant": "A test runs on one machine; the exchange of files between two kinds of machines, and the branch for the other byte order, are never executed.", "anchors": ["src/modes/gcmfile.c:WBCRYPTO_gcmfile_encrypt", "src/modes/gcmfile.c:WBCRYPTO_gcmfile_decrypt", "src/wbaes/wbaes_wbgcm_ee_file.c:WBCRYPTO_wbaes_wbgcmfile_ee_decrypt", "src/wbaes/wbaes_wbgcm_mask_file.c:WBCRYPTO_wbaes_wbgcmfile_mask_decrypt", "src/wbsm4/wbsm4_exkey.c:WBCRYPTO_wbsm4_key2file", "src/wbsm4/wbsm4_exkey.c:WBCRYPTO_wbsm4_file2key", "src/fpe/ff1.c:WBCRYPTO_ff1_encrypt", "src/fpe/ff1.c:WBCRYPTO_ff1_decrypt", "src/fpe/ff1_cmac.c:WBCRYPTO_ff1_cmac_encrypt", "src/fpe/ff1_cmac.c:WBCRYPTO_ff1_cmac_decrypt"]}
{"id": "C121", "title": "What the programs in the documentation do", "statement": "The CBC programs use buffers as large as the message: a message that is not a multiple of 16 bytes (or is empty) leads to an uninitialised length, one of whole blocks comes back, with a length that is short by the last byte if that is 1 to 16. The white-box version with one group of dummy rounds gives the message back if the unwritten dummy constants xor to zero in both contexts and another text if they do in exactly one. The GCM program overwrites the sender's tag, so that for every change of the ciphertext on the way the tag it ends with is that of what arrived. The FPE program is defined exactly if the buffer is larger than the number of characters and the tweak has at least 8 bytes (the documents say: as large, and may be empty), and then both halves give the input back. The telephone and identity number programs with FF1 print a number of the same form, the number, one with only the starred digits changed, the number; with FF3, the documented alternative, all three application programs are undefined for every input. The address program, whose sample is shorter than its text, prints the text again only because its buffers still hold the end of it: decrypting the same output into a fresh buffer loses that end. The key import is defined exactly if the importing context was made for at least as many dummy rounds as the sender's, and then both encrypt alike.", "quantifier": "for every block function, key, random choice, IV, message, change of the ciphertext, number, text, sample, tweak, radix and content of uninitialised memory", "why_tests_cant": "The documents are not run by any test; a user who copies them relies on them for their own inputs, of which the shown literal is one.", "anchors": ["docs/call-sm4.md:WBCRYPTO_sm4_cbc_encrypt", "docs/call-sm4.md:WBCRYPTO_gcm_finish", "docs/call-wbsm4.md:WBCRYPTO_wbsm4_file2key", "docs/call-fpe.md:WBCRYPTO_ff3_encrypt", "docs/call-fpe-app.md:WBCRYPTO_fpe_encrypt_cn_utf8_with_sample", "src/modes/cbc128.c:WBCRYPTO_cbc128_encrypt", "src/modes/gcm128.c:WBCRYPTO_gcm_finish", "src/fpe/ff3.c:WBCRYPTO_ff3_encrypt", "src/fpe_app/phone.c:WBCRYPTO_fpe_encrypt_phone", "src/wbsm4/wbsm4_exkey.c:WBCRYPTO_wbsm4_file2key"]}
{"id": "C122", "title": "What a passing test program shows", "statement": "TEST_cmp_values finds two arrays equal exactly if they agree up to the first zero byte. test_aes therefore accepts exactly the implementations that give the one expected ciphertext and decrypt it to any block beginning with zero (all zeros, for instance); test_sm4 and test_wbaes accept exactly those with the right blocks, test_sm3 those with the two right digests. With the code as it is test_sm4, test_sm3 and test_wbaes pass (the last for all random encodings), test_aes fails, the test of se_wbsm4 fails for all random choices because it decrypts with the context for encryption (with the other context it would pass for all), and the test of wbsm4 passes exactly if the unwritten dummy constants xor to zero in both contexts. TEST_cmp_files with a signed char finds files equal exactly if they agree up to the first byte 0xFF, and with an unsigned char never finds files equal: for equal files it does not end. The file tests pass with any block function whatever. fpe_test.c is undefined for every block function (FF3 with a tweak of six bytes), as is test_ff3_gmac; test_ff1_cmac is undefined unless both tags contain a zero byte, then compares them up to it, and the tags depend on uninitialised memory.", "quantifier": "for every implementation of the block function or hash, every random choice, content of uninitialised memory, file, tweak and number", "why_tests_cant": "Which implementations a test accepts is a statement about all implementations; the tests cannot test themselves.", "anchors": ["test/test_utils.c:TEST_cmp_values", "test/test_utils.c:TEST_cmp_files", "test/aes_test.c:test_aes", "test/sm4_test.c:test_sm4", "test/wbaes_test.c:test_wbaes", "test/wbsm4_test.c:test_wbsm4", "test/se_wbsm4_test.c:test_wbsm4", "test/sm3_test.c:test_sm3", "test/file_encrypt_test.c:test_sm4_gcmfile", "test/fpe_test.c:test_sm4_fpe", "test/fpe_mac_test.c:test_ff1_cmac"]}
{"id": "C123", "title": "GCM messages longer than the counter", "statement": "A message fed to a GCM context in pieces of whole blocks gets the ciphertext and tag of the SP 800-38D formulas whatever its total length below 2^61 bytes: no call refuses although the standard allows 2^32 - 2 blocks for an IV. Up to 2^32 - 1 blocks the counter blocks are different from each other and from the one masking the tag, and exactly from 2^32 blocks on they are not: bytes 2^36 apart are encrypted with the same key stream, so that who knows the first 2^36 bytes reads all the others, and block 2^32 - 1 is encrypted with the mask of the tag, so that who knows it takes the mask off the tag and has the bare hash.", "quantifier": "for every block cipher, earlier use of the context, IV, AAD, message and cutting into pieces of whole blocks shorter than 2^31 bytes", "why_tests_cant": "A test would have to encrypt 64 GiB under one IV, and would still show one key and one message.", "anchors": ["src/modes/gcm128.c:WBCRYPTO_gcm_encrypt", "src/modes/gcm128.c:WBCRYPTO_gcm_decrypt", "src/modes/gcm128.c:WBCRYPTO_gcm_finish"]}
{"id": "C124", "title": "FPE compiled without assertions", "statement": "Compiled with NDEBUG, FF3 and FF3-GMAC are the same functions as with assertions on every input, and FF1 and FF1-CMAC are the same wherever they return with assertions. What changes are calls that stop the program: without assertions FF1 is FF1 of SP 800-38G for all tweaks (with them, an empty tweak stops the program for certain lengths, 72 decimal digits for instance), and a single numeral is encrypted by a shift of the alphabet that depends on key and tweak alone, so that one digit with its encryption gives the encryption of all digits. The empty string is undefined either way.", "quantifier": "for every block cipher, tweak, radix from 2 to 36, string, output buffer and content of uninitialised memory", "why_tests_cant": "The same test program is compiled one way or the other; equality of the two builds on all inputs and the weakness of the second on single digits are not visible in either.", "anchors": ["src/fpe/ff1.c:WBCRYPTO_ff1_encrypt", "src/fpe/ff1.c:WBCRYPTO_ff1_decrypt", "src/fpe/ff1_cmac.c:WBCRYPTO_ff1_cmac_encrypt", "src/fpe/ff1_cmac.c:WBCRYPTO_ff1_cmac_decrypt", "src/fpe/ff3.c:WBCRYPTO_ff3_encrypt", "src/fpe/ff3.c:WBCRYPTO_ff3_decrypt", "src/fpe/ff3_gmac.c:WBCRYPTO_ff3_gmac_encrypt", "src/fpe/ff3_gmac.c:WBCRYPTO_ff3_gmac_decrypt"]}
{"id": "C125", "title": "What the table lookups of white-box SM4 show", "statement": "The key of a white-box SM4 context without dummy rounds, and of every context of the scheme from self-equivalences, can be computed from which table entries the encryptions of chosen texts look up, without reading any table and without the ciphertexts: the procedure is fixed, needs 256 texts per guess of a key byte for the first four rounds, and gives the (padded) key for all random numbers. Of each of the four entry numbers of one group of tables it is enough to see any one bit or more, or any function of it that does not take the same value for half of the entries, such as the cache line of 64 bytes the entry is in, wherever the tables begin. Which tables are read, how often and in which order is the same for all texts and keys. Dummy rounds can be told from the others: they are exactly the rounds in which the entries of DD that are looked up are the same for all texts.", "quantifier": "for all random numbers, keys, modes, contents of uninitialised memory and every function of the entry numbers of one of these two kinds; the dummy rounds for every number of them", "why_tests_cant": "The encodings are drawn at random, so that lookups look random in any test; that a procedure works for all of them, and for any visible bit, cannot be tested.", "anchors": ["src/wbsm4/wbsm4.c:WBCRYPTO_wbsm4_encrypt", "src/se_wbsm4/se_wbsm4.c:WBCRYPTO_se_wbsm4_encrypt", "src/wbsm4/wbsm4_gen.c:WBCRYPTO_wbsm4_gen_table"]}
{"id": "C126", "title": "CBC and FF1 on machines that want aligned words", "statement": "CBC works on its arguments word by word through cast pointers. All its word accesses are at multiples of the word size exactly under these conditions: for decryption, the call is refused, or has less than one block, or output and IV begin at such a multiple and, from two blocks on, the input as well; for encryption, the call is refused, or the message is empty, or output and IV begin at such a multiple, while the input may begin anywhere. FF1 and FF1-CMAC on a big-endian machine store a word at an odd distance from two others, so that they are misaligned wherever their array is; on a little-endian machine they store bytes.", "quantifier": "for every word size dividing a block, all addresses, lengths below 2^31 (2^31 - 16 for encryption), memory contents, block ciphers and IVs", "why_tests_cant": "Machines on which tests are run load words from any address, and arrays in test programs are usually aligned by chance.", "anchors": ["src/modes/cbc128.c:WBCRYPTO_cbc128_encrypt", "src/modes/cbc128.c:WBCRYPTO_cbc128_decrypt", "src/fpe/ff1.c:WBCRYPTO_ff1_encrypt", "src/fpe/ff1_cmac.c:WBCRYPTO_ff1_cmac_encrypt"]}
{"id": "C127", "title": "CBC with the IV in the same memory as the text", "statement": "A message is often kept as IV and ciphertext behind each other. Decryption gives the right plaintext if the IV is outside the text (in place) or outside the first output block (otherwise), but it stores the last ciphertext block over the IV: decrypting the stored message a second time gives the plaintext for that block as IV, which is wrong unless the two happen to be equal. If the output begins at the IV, success is returned and the first plaintext block is lost; if the ciphertext also follows the IV, the memory then holds the last ciphertext block followed by zeros and nothing of the plaintext. Encryption gives the CBC ciphertext unless the output begins inside the IV, behind its first byte; then the first block is xored with an IV part of which has been overwritten by the output, and the ciphertext is right exactly when the plaintext bytes concerned equal the xor of two IV bytes.", "quantifier": "for all block ciphers (injective for the last equivalence), addresses of input, output and IV as stated, memory contents, and lengths below 2^31 (2^31 - 16 for encryption) that fit the output; whole blocks for decryption", "why_tests_cant": "Tests keep the IV in an array of its own and copy it again before every call, so neither the overwritten IV nor the overlap shows.", "anchors": ["src/modes/cbc128.c:WBCRYPTO_cbc128_encrypt", "src/modes/cbc128.c:WBCRYPTO_cbc128_decrypt"]}
{"id": "C128", "title": "What the table lookups of white-box AES show", "statement": "Someone who lets a white-box AES context encrypt texts of their choice and sees, of each lookup in TypeII[1], only in which sixteenth of its table it was (the cache line, if the tables begin with one), finds the key, without reading a single table value and whatever random numbers the tables were made with. 256 texts for each key byte do; they are zero but for that byte. So for two different keys there is always such a text for which a different cache line is read.", "quantifier": "for all keys, random numbers and uninitialised memory of the table generation, and every view of an entry number that distinguishes exactly its upper nibble; by chosen texts, all 256 for each byte", "why_tests_cant": "Tests compare results; which entries are read shows in no result.", "anchors": ["src/wbaes/wbaes.c:aux_WBCRYPTO_wbaes_encrypt", "src/wbaes/wbaes.c:WBCRYPTO_wbaes_encrypt", "src/wbaes/wbaes.c:WBCRYPTO_wbaes_gen_table"]}
{"id": "C129", "title": "One GCM context used by several threads", "statement": "If several threads encrypt or decrypt with one GCM context at the same time, each call still writes its input xored with cipher outputs of counter blocks that carry the IV, and nothing reports an error. The counter blocks are pairwise distinct exactly if no two threads are ever between the increment of the counter and the cipher at the same time. Two calls of the same length can be scheduled to use the same counter blocks throughout, and then the xor of the outputs is the xor of the texts. The tag taken after two such calls of one block is not the tag of their outputs in either order, unless the hash key is 0 or 1 or an output is zero. With a lock held during each call, contexts and outputs are those of the calls made one after the other in some order.", "quantifier": "for every number of threads, every message of less than 2^31 bytes, cipher, IV, AAD and schedule (statements taken as indivisible)", "why_tests_cant": "A test runs one schedule, and threads that collide are rare; the claims are about all schedules.", "anchors": ["src/modes/gcm128.c:WBCRYPTO_gcm_encrypt", "src/modes/gcm128.c:WBCRYPTO_gcm_decrypt", "src/modes/gcm128.c:WBCRYPTO_gcm_finish", "src/modes/gcm128.c:gcm_mult"]}
{"id": "C130", "title": "FPE applications compiled without assertions", "statement": "Phone numbers, identity cards and Chinese text in a build without assertions (NDEBUG): whatever a build with assertions returns is returned too, for every argument. The two builds agree completely with FF3 and with Chinese text, and with FF1 unless exactly one character is hidden. With exactly one hidden digit FF1 no longer stops: the digit is shifted by an amount that depends on the key and the shown characters only, decryption shifts it back, and one known number gives the hidden digit of every other number with the same shown characters.", "quantifier": "for every number, card, text, sample, cipher, engine, content of uninitialised memory and buffer", "why_tests_cant": "Tests are run in one build type, and the claims compare two builds for all inputs.", "anchors": ["src/fpe_app/phone.c:aux_fpe_phone", "src/fpe_app/idcard.c:aux_fpe_idcard", "src/fpe_app/cn_utf8.c:aux_fpe_cn", "src/fpe/ff1.c:WBCRYPTO_ff1_encrypt"]}
{"id": "C131", "title": "A block cipher that reports failure", "statement": "The modes take any block cipher, which may return 0. With no failure the functions are those of the other properties. GCM encryption and decryption then return 0 with the blocks before the failing one in the output, but the whole length already counted and the counter advanced once more, so giving the rest to a second call yields a wrong ciphertext. A failing gcm_setiv leaves a usable context whose tags lack the right mask. The file functions do not notice: they return 1, the rest of the 128-byte piece is zero in the file and its plaintext has no influence on anything, and the pieces behind use other counters. The parallel function does not notice either and writes the input xored with what the call left. CBC encryption returns 0 with the full length reported; if the cipher leaves its buffer alone, the plaintext of that block is the xor of the last two blocks written. CBC decryption in place can be continued with the returned IV, with separate buffers it cannot.", "quantifier": "for every cipher, every pattern of failures and what the failing calls leave behind, every context, message, file and position of the failing block", "why_tests_cant": "The ciphers of the library never fail, so the failure branches are never run by tests; the claims are for every position and every behaviour of the failing call.", "anchors": ["include/wbcrypto/error.h:WBCRYPTO_MPI_CHK", "src/modes/gcm128.c:WBCRYPTO_gcm_setiv", "src/modes/gcm128.c:WBCRYPTO_gcm_encrypt", "src/modes/gcmfile.c:WBCRYPTO_gcmfile_encrypt", "src/modes/gcmfile.c:WBCRYPTO_gcmfile_decrypt", "src/modes/gcm_parallel.c:WBCRYPTO_gcm_parallel_encrypt", "src/modes/cbc128.c:WBCRYPTO_cbc128_encrypt", "src/modes/cbc128.c:WBCRYPTO_cbc128_decrypt"]}
{"id": "C132", "title": "What the measuring programs measure", "statement": "file_encrypt_perform.c encrypts each file ten times with one context and then decrypts the last result ten times with the other. If the files exist the program ends, leaves them unchanged and removes its own; of the ten decryptions the tenth alone restores a file of at least one block, the other nine produce other contents, for GCM over any injective cipher and for both white-box GCM modes. If a file is missing the program is undefined; the repository only has a script that makes them; with 4-byte pointers only three files are measured. test_aes_fpe and test_ff3_gmac are undefined because their tweak has one byte; the other FPE programs are defined, test_ff1_cmac restores its input and the others decrypt the input and not what they encrypted. fpe_app_perform.c is undefined in its first call unless a byte behind the array can be written. The CBC loop is defined exactly if realloc never moves the message, and repeats one encryption; the GCM loop never uses a counter twice.", "quantifier": "for every cipher or key, IV, AAD, file contents below 2 GiB, white-box randomness, contents of uninitialised memory and behaviour of realloc", "why_tests_cant": "The programs compare nothing: they print times whether or not the result is right, and a run shows one allocator and one set of files.", "anchors": ["test/file_encrypt_perform.c:test_aes_gcmfile", "test/file_encrypt_perform.c:test_wbaes_wbgcmfile_mask", "test/fpe_peform.c:test_aes_fpe", "test/fpe_mac_perform.c:test_ff1_cmac", "test/fpe_mac_perform.c:test_ff3_gmac", "test/fpe_app_perform.c:test_aes_fpeapp_perf", "test/wbsm4_perform.c:test_wbsm4_cbc_perf", "test/wbsm4_perform.c:test_wbsm4_gcm_perf"]}
{"id": "C133", "title": "GCM tags longer than 16 bytes", "statement": "gcm_finish does not reject a tag length above 16, although it then reads outside base_ectr and buf (undefined). On memory laid out as declared, the first 16 bytes are the tag and the context is left as usual; bytes 16 to 31 are the last counter block xored with the addresses of the cipher context and of the cipher, so they give the addresses away when the IV has 12 bytes; sender and receiver who compare 17 to 32 bytes agree exactly if these addresses agree. Without AAD and message the tag is a copy of the encrypted counter block, the counter block, zeros and the memory behind. 48 bytes give the hash key away to whoever knows the 16 bytes behind the two pointers: for every AAD and ciphertext at most as many keys as blocks are left, one for a message of one block.", "quantifier": "for every cipher, IV, AAD, message below 2^31 bytes, tag length and contents of the memory behind the buffers", "why_tests_cant": "A test that asks for a longer tag passes, since both sides run in one process with one cipher context; the claims are for every cipher, message and memory.", "anchors": ["src/modes/gcm128.c:WBCRYPTO_gcm_finish", "include/wbcrypto/modes.h:gcm128_context"]}
{"id": "C134", "title": "Threads that share a context of FF1-CMAC or FF3-GMAC", "statement": "A context of the authenticated FPE modes keeps one tag, which the encryption and decryption functions write and finish reads. When threads share the context, each piece that finish returns is the piece of the tag of the call before it or the piece at the same place of a tag of another thread; a thread alone gets its own tag. For every two tags and every choice of pieces there is a schedule in which both threads get that mixture, and one in which both get the tag of thread 1: a receiver thread that decrypts a forged text reads the tag of the genuine text decrypted by another thread, and accepts the forgery.", "quantifier": "for every number of threads and calls, schedule, width of the copying that divides 16, cipher, tweak, radix, text and forged text", "why_tests_cant": "Interleavings of the threads cannot be enumerated by tests, and a test that runs threads rarely meets the bad ones.", "anchors": ["src/fpe/ff1_cmac.c:WBCRYPTO_ff1_cmac_encrypt", "src/fpe/ff1_cmac.c:WBCRYPTO_ff1_cmac_finish", "src/fpe/ff3_gmac.c:WBCRYPTO_ff3_gmac_finish", "include/wbcrypto/fpe.h:fpe_mac_ctx"]}
{"id": "C135", "title": "FF1 and FF3 with a block cipher that reports failure", "statement": "ff1_encrypt, ff1_decrypt, ff3_encrypt and ff3_decrypt ignore what the block cipher returns. If it never fails they are the functions of the other properties. If it always fails and leaves its buffer alone they still return 1. The FF1 ciphertext is then the plaintext with numbers added to its halves that depend on what the stack held and on nothing else (with a zero stack it is the plaintext); FF3 adds four times the sixteen bytes of the stack, read backwards for the first half. The decryption functions clear the buffer first and return the ciphertext as the plaintext (FF1: for halves below 2^96 or a zero stack). Decryption restores the plaintext exactly if these multiples are divisible by the powers of the radix.", "quantifier": "for every cipher, tweak, radix from 2 to 36, text of numerals, contents of the stack and buffers", "why_tests_cant": "The ciphers of the library never fail, so no test reaches the ignored results; the claims are for every text and every stack.", "anchors": ["src/fpe/ff1.c:WBCRYPTO_ff1_encrypt", "src/fpe/ff1.c:WBCRYPTO_ff1_decrypt", "src/fpe/ff3.c:WBCRYPTO_ff3_encrypt", "src/fpe/ff3.c:WBCRYPTO_ff3_decrypt"]}
{"id": "C136", "title": "FF1-CMAC and FF3-GMAC with a block cipher that reports failure", "statement": "The authenticated FPE functions ignore what the block cipher returns, and ff3_gmac ignores what gmac_gen_H returns. Whatever fails, the text is that of FF1 and FF3 of C135 with the calls renumbered, and the result is 1. If the first call of FF3-GMAC fails the tag is sixteen zero bytes in both directions, whatever the other calls do: with only this failure the text is right and the tag zero, and at the receiver any text with a zero tag passes. If every call fails and leaves its buffer alone, FF1-CMAC and FF3-GMAC decrypt any text of numerals to itself; the tag of FF1-CMAC is then the sum of what the stack held, the same for every text.", "quantifier": "for every cipher and every pattern of failures (first and second claim), tweak, radix from 2 to 36, text, contents of the stack and buffers", "why_tests_cant": "The ciphers of the library never fail, so no test reaches the ignored results; the claims are for every pattern of failures and every text.", "anchors": ["src/fpe/ff1_cmac.c:WBCRYPTO_ff1_cmac_encrypt", "src/fpe/ff1_cmac.c:WBCRYPTO_ff1_cmac_decrypt", "src/fpe/ff1_cmac.c:generate_cmac_sub_keys", "src/fpe/ff3_gmac.c:gmac_gen_H", "src/fpe/ff3_gmac.c:WBCRYPTO_ff3_gmac_encrypt", "src/fpe/ff3_gmac.c:WBCRYPTO_ff3_gmac_decrypt"]}
{"id": "C137", "title": "Which permutations the white-box generators make", "statement": "The shuffle of genPermutation4 and genPermutation8 makes every permutation, two sequences of numbers make the same one exactly if number i has the same remainder modulo N - i, and with random numbers no permutation of nibbles would be more likely than another by more than a factor of 1 + 2^-24 (bytes: 1 + 2^-16), though not all are equally likely, however many numbers are used. But a white-box AES context takes its 4096 permutations of nibbles from consecutive numbers of one seeding with the clock: at each place at most 2^32 permutations are possible, at all places and seconds together at most 2^44 of the 16!, so some permutation occurs in no context at all.", "quantifier": "for every stream of numbers, every permutation, every table size N (first claims), every clock, key, place in the context and state of the generator", "why_tests_cant": "The claims are about all 16! and 256! permutations and all sequences of numbers and seconds; a test sees a few of them.", "anchors": ["WBMatrix/src/WBMatrix.c:genPermutation4", "WBMatrix/src/WBMatrix.c:genPermutation8", "WBMatrix/src/random.c:InitRandom", "src/wbaes/wbaes.c:WBCRYPTO_wbaes_gen_table"]}
{"id": "C138", "title": "How often white-box SM4 with dummy rounds can be generated", "statement": "The shuffle that places d groups of dummy rounds uses number k only modulo k, and every placement that ends with a real round comes from the same number, 31! d!, of the (31 + d)! sequences of remainders. Exactly C(32, d) placements have no neighbouring groups, so C(32, d) 31! d! sequences make tables, and for all the others the generator leaves its arrays. With at most one group it never does; with six groups or more it does for more than half of the sequences.", "quantifier": "for every number of groups below 2^31 - 31, key, mode, memory content and all other random numbers", "why_tests_cant": "A count over all random outcomes; a test with a few seeds sees one of them, and reading outside the arrays need not crash.", "anchors": ["src/utils/wrandom.c:wRandomShuffleU8", "src/wbsm4/wbsm4_gen.c:wbsm4_gen_dummyround_array", "src/wbsm4/wbsm4_gen.c:WBCRYPTO_wbsm4_gen_table"]}
{"id": "C139", "title": "Known messages in the masked white-box GCM mode", "statement": "Two ciphertexts of the masked mode under one IV differ by the secret matrices applied byte by byte to the difference of the messages, so equal bytes show. Known messages under one IV determine the ciphertext of every message that differs from them by sums of differences seen at the same byte position of any block. Two messages of 128 bytes, one with chosen bits changed, give all sixteen matrices by a fixed computation from their ciphertexts. From then on, under any IV, one known message gives all others of its length, any chosen bits of an unknown message can be changed in transit with the receiver reporting success, and the sender's tags are turned into AES-128-GCM tags.", "quantifier": "for every key, every outcome of the random tables, masks and matrices, every IV, AAD and message in the range of the API", "why_tests_cant": "Concerns every key and every generated table set together with an onlooker's computation; tests encrypt and decrypt a few messages.", "anchors": ["src/wbaes/wbaes_wbgcm_mask_mode.c:WBCRYPTO_wbaes_wbgcm_mask_encrypt", "src/wbaes/wbaes_wbgcm_mask_mode.c:WBCRYPTO_wbaes_wbgcm_mask_decrypt"]}
{"id": "C140", "title": "FPE applications with a block cipher that fails", "statement": "The functions for phone numbers, identity cards and Chinese text drop the result of the FPE engine. With a block cipher that never fails they are the functions of the other properties. With a block cipher that always fails and leaves its output alone they report success: encryption writes the visible characters and the hidden ones with numbers from the stack added, so neither the cipher nor the visible characters matter and the result still has the format; with a zero stack it is the plaintext; decryption writes what it was given.", "quantifier": "for every text in the format, every sample, every cipher, both engines, every content of the stack and every output buffer that is long enough", "why_tests_cant": "Concerns a cipher that fails on every call, every content of uninitialised memory and all texts at once; the tests use a cipher that works.", "anchors": ["src/fpe_app/phone.c:aux_fpe_phone", "src/fpe_app/idcard.c:aux_fpe_idcard", "src/fpe_app/cn_utf8.c:aux_fpe_cn"]}
{"id": "C141", "title": "FPE with a block cipher that misbehaves in any way", "statement": "Whatever the block cipher writes and reports, call by call, FF1 and FF3 return 1 and write a text of the same length made of the same numerals, and the functions for phone numbers, identity cards and Chinese text keep the visible characters and put characters of the format in place of the hidden ones. Decryption is then still a permutation of the texts of each length. Encryption is not: its buffers keep the result of the round before, so that one failing call can send two texts to the same ciphertext.", "quantifier": "for every behaviour of the block cipher at every call, every context, text, sample and content of the stack; the loss for given texts and a given cipher", "why_tests_cant": "Quantifies over all behaviours of a failing cipher and all texts; the tests use a cipher that works.", "anchors": ["src/fpe/ff1.c:WBCRYPTO_ff1_encrypt", "src/fpe/ff1.c:WBCRYPTO_ff1_decrypt", "src/fpe/ff3.c:WBCRYPTO_ff3_encrypt", "src/fpe/ff3.c:WBCRYPTO_ff3_decrypt", "src/fpe_app/phone.c:aux_fpe_phone", "src/fpe_app/idcard.c:aux_fpe_idcard", "src/fpe_app/cn_utf8.c:aux_fpe_cn"]}
{"id": "C142", "title": "What somebody without the key can make of a CBC ciphertext", "statement": "For every key and message sent with CBC: bits flipped in the IV flip exactly the same bits of the first block received, bits flipped in a ciphertext block flip exactly the same bits of the next block received and spoil only the block itself; any end of a ciphertext with the block before as IV is received as the end of the message, and the beginning of one ciphertext with the end of another as the beginning and end of the messages with one computable block between. From one known message block an IV can be computed for which one ciphertext block is received as any text of 1 to 15 bytes, and a ciphertext of any length with any chosen blocks in every second place. All these calls return 1. Two ciphertext blocks of one key are equal exactly if the xor of the message blocks is the xor of the ciphertext blocks before them.", "quantifier": "for every block cipher with its inverse, every IV, message, place, bit pattern, target text and list of target blocks, with lengths below 2^31", "why_tests_cant": "Quantifies over all keys, messages and forgeries; the tests decrypt only what was encrypted.", "anchors": ["src/modes/cbc128.c:WBCRYPTO_cbc128_encrypt", "src/modes/cbc128.c:WBCRYPTO_cbc128_decrypt", "src/sm4/sm4_modes.c:WBCRYPTO_sm4_cbc_decrypt", "src/wbsm4/wbsm4_modes.c:WBCRYPTO_wbsm4_cbc_decrypt", "src/utils/padding.c:WBCRYPTO_padding_pkcs7_separate_length"]}
{"id": "C143", "title": "What somebody without the key can make of an encrypted file", "statement": "For every file encrypted with GCM (any block cipher, any state of the context, or a white-box context of the ee mode): bits flipped in the body are exactly the bits flipped in what the file is decrypted to; cut anywhere, with the length field changed to match and any 16 bytes for the tag, it is decrypted to the beginning of the text; who knows what is in one file makes a file that is decrypted to any text not longer than it, and reads every other file not longer that was made in the same state. Every one of these decryptions returns 1. In the masked white-box mode cutting works alike, and a change of the body changes exactly the same bytes of the text, each by a fixed linear map.", "quantifier": "for every cipher, context state, key, IV, AAD, set of white-box tables, text below 2^31 bytes, change, place of the cut, target text and file system", "why_tests_cant": "Quantifies over all keys, files and forgeries; the tests decrypt only files that were encrypted.", "anchors": ["src/modes/gcmfile.c:WBCRYPTO_gcmfile_encrypt", "src/modes/gcmfile.c:WBCRYPTO_gcmfile_decrypt", "src/wbaes/wbaes_wbgcm_ee_file.c:WBCRYPTO_wbaes_wbgcmfile_ee_encrypt", "src/wbaes/wbaes_wbgcm_ee_file.c:WBCRYPTO_wbaes_wbgcmfile_ee_decrypt", "src/wbaes/wbaes_wbgcm_mask_file.c:WBCRYPTO_wbaes_wbgcmfile_mask_decrypt"]}
{"id": "C144", "title": "Where collisions of SM3 digests come from and what follows from one", "statement": "Two different messages below 2^61 bytes, given to the context in whatever pieces, that have the same digest contain two different inputs (chaining value and block, both found on the way through the padded messages) for which the compression function of the standard has the same value. From 2^61 bytes on this protection is gone: a multiple of 2^61 bytes in front of a message does not show in its padding. For every chaining value two colliding blocks exist; t of them, found one after the other, give 2^t different messages of 64 t bytes with the same digest, whatever follows them. A collision of messages of equal length stays one behind their padding with any text appended.", "quantifier": "for every pair of messages, division into updates, collision finder, number t and appended text", "why_tests_cant": "A statement about all pairs of messages with equal digests; no such pair is known, so no test can exercise it.", "anchors": ["src/sm3/md32_common.h:HASH_FINAL", "src/sm3/md32_common.h:HASH_UPDATE", "src/sm3/sm3.c:sm3_block_data_order"]}
{"id": "C145", "title": "One key in several modes", "statement": "Whoever gets tags of the empty message under IVs of their choice computes the block cipher at every block from two of them (one under the empty IV, one under an IV of 16 bytes), in fresh and used contexts, unless the hash key is zero. Whoever gets CBC ciphertexts of single blocks, under whatever IVs, computes the block cipher at every block from one of them. Either is enough to read and to make every GCM message with its tag under that key, and to decrypt whatever was encrypted with FF1 or FF3 under it, although neither service ever decrypts.", "quantifier": "for every block cipher, key, IV, block, history of the context, GCM message, tweak, radix and numeral string", "why_tests_cant": "Quantifies over all keys and all blocks; no test uses one key in two modes.", "anchors": ["src/modes/gcm128.c:WBCRYPTO_gcm_setiv", "src/modes/gcm128.c:WBCRYPTO_gcm_finish", "src/modes/cbc128.c:WBCRYPTO_cbc128_encrypt", "src/sm4/sm4_modes.c:WBCRYPTO_sm4_cbc_encrypt", "src/fpe/ff1.c:WBCRYPTO_ff1_decrypt", "src/fpe/ff3.c:WBCRYPTO_ff3_decrypt"]}
{"id": "C146", "title": "File encryptions at the same time", "statement": "Any number of calls of the file encryptions (GCM over any block cipher, white-box GCM in either mode, also mixed) may run at the same time, each with its own context, if no output or temporary file (the output path with \".tmp\") of one is a file of another and no input is written: under every schedule of their file operations each call that got enough steps returns 1, its output is what it would have left if it had run alone (for block ciphers and for white-box contexts with external encodings tag, size and ciphertext of its own input under its own key), its temporary file is gone, and no other file changes. If two calls share the output path there is a schedule under which both return 1 and the file has tag and size of one and the ciphertext of the other; for inputs of one length decryption accepts it and does not restore the input. If the output of one call is \"a.tmp\" and that of a later one is \"a\", both return 1 and the first result is deleted.", "quantifier": "for every number of calls, every block cipher, IV, additional data, input, path and file system, and every schedule", "why_tests_cant": "Quantifies over all interleavings of any number of calls; tests run one call at a time.", "anchors": ["src/modes/gcmfile.c:WBCRYPTO_gcmfile_encrypt", "src/wbaes/wbaes_wbgcm_ee_file.c:WBCRYPTO_wbaes_wbgcmfile_ee_encrypt", "src/wbaes/wbaes_wbgcm_mask_file.c:WBCRYPTO_wbaes_wbgcmfile_mask_encrypt", "src/modes/gcmfile.c:WBCRYPTO_gcmfile_decrypt"]}
{"id": "C147", "title": "Encrypted columns", "statement": "A column of phone numbers, identity cards, names or addresses encrypted by the MySQL function with one sample has each value as often as the plain column, whatever memory each call finds, so joins, groupings and unique indexes keep their meaning and frequencies stay visible. Whoever may call the function needs neither key nor decryption to undo it: the encrypted value, given to the function again and again with the same sample, becomes the plain one within 10^k calls in all, k the number of hidden digits (20736^k for hidden characters of names and addresses). The same holds for WBCRYPTO_fpe_encrypt_phone_with_sample under FF1 and FF3 and every key, and for the FF1 and FF3 engines themselves within radix^length calls.", "quantifier": "for every number, card, name and address of the forms the function accepts, every sample, every column, every state of memory at every call, every key and both engines of the library", "why_tests_cant": "Quantifies over whole columns, all samples and all memory, and bounds a cycle of up to 10^11 calls; tests encrypt single values.", "anchors": ["udf/mysql8.cpp:fpe", "udf/mysql5.cpp:fpe", "src/fpe_app/phone.c:WBCRYPTO_fpe_encrypt_phone_with_sample"]}
