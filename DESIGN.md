# Formal model of wbcrypto-mode in Lean 4

## Approach

The C sources under `/repo` are modelled function by function as total, computable Lean functions.
A definition always carries a comment with the file and lines it models; simplifications are named there.

Conventions of the model:

* `Byte = BitVec 8`; C `uint32_t`/`uint64_t` are `BitVec 32`/`BitVec 64`; C `int` conversions are explicit.
* A 16-byte block is `Vector Byte 16`; messages, buffers and file contents are `List Byte`.
* Undefined behaviour (access outside an object, use of an uninitialised value, use after realloc, `fclose(NULL)`,
  failing `assert`) is a distinct outcome: functions that can reach it return `Option`, `none` meaning "undefined".
  Where memory is read uninitialised but the value only flows through, the memory content is an explicit argument
  (`junk`) that theorems quantify over.
* Block ciphers passed as function pointers (`block128_f`) are arbitrary functions `Block -> Block`.
  Every cipher in the library always reports success; the failure branch of `MPI_CHK` is modelled separately (Model/CipherFail, C131).
* Random choices (`cus_random`, `rand`) are arguments (arbitrary streams); theorems hold for all of them.
* Files are `List Byte`; a sequence of file operations is a log when crash points matter.
* OpenSSL bignums are natural numbers; `(unsigned) ceil(k * log2(radix))`, computed by libm in FF1/FF3, is a
  parameter `lg`. Most theorems assume only that it is not below the exact value. C97 proves that it is the exact value for
  up to 2^20 digits, from IEEE 754 binary64: `log2` and the product are rounded to a neighbouring double (in any mode; exact
  where the result is a double), `ceil` and the conversion are exact. This is what is assumed about libm.

Specifications (`Verif/Spec/*.lean`) are written from the standards (NIST SP 800-38A/D/G, GB/T 32905,
GB/T 32907, FIPS-197) without use of the model's helper functions.  Property theorems are in
`Verif/Props/*.lean`, named `Cxx_...` after the property in `properties.jsonl`, with concrete `example`s beside
them that meet the hypotheses.  If the code violates a property, the theorem states exactly when it holds, or proves
the negation with a witness.

## Trusted base

* Lean 4 kernel and the three standard axioms `propext`, `Classical.choice`, `Quot.sound` (every property theorem
  depends on a subset of these three; checked by `#print axioms`); no axiom is added, no `sorry`, `native_decide` or
  `bv_decide`.  Facts about whole finite tables are decided by the kernel (`decide +kernel`) over the complete table.
* The transcription of C into Lean (by hand, with citations); tables (S-boxes, T-table, `last4`,
  self-equivalence table, matrix `L`) and the unrolled SM3 rounds are copied from the source text by script.
* The simplifications listed above, below and in the comments.
* LP64 little-endian platform (`size_t` 8 bytes, `int` 4 bytes).  C119 treats the byte order as an argument for the white-box
  generators, C120 the byte order and the width of `size_t` for files, key files and FF1; the rest of the code that is modelled computes with shifts, copies bytes, or xors whole words, which is the same on
  both kinds of machines (`HWU*` macros, `GET_UINT32_BE`, the word-wise xor of CBC and GCM).

## Module map

| source in /repo | model | specification | theorems |
|---|---|---|---|
| src/utils/padding.c | Model/Padding | Spec/Padding | Props/Padding |
| src/modes/cbc128.c | Model/Cbc | Spec/Cbc | Props/Cbc |
| src/modes/gcm128.c, modes.h | Model/Gcm | Spec/Gcm | Props/Gcm |
| src/modes/gcm_parallel.c | Model/GcmParallel | Spec/Gcm | Props/GcmParallel |
| src/modes/gcmfile.c | Model/GcmFile | Spec/Gcm | Props/GcmFile |
| src/sm4/sm4.c | Model/Sm4, Sm4Tables | Spec/Sm4 | Props/Sm4 |
| src/sm3/*, md32_common.h | Model/Sm3, Sm3Prog | Spec/Sm3 | Props/Sm3 |
| WBMatrix/src/WBMatrix.c | Model/Matrix, MatrixMore | Spec/Gf2 | Props/Matrix, MatrixMore (Lemmas/Gf2More) |
| WBMatrix/src/random.c | Model/Random | stated in the theorems | Props/Random |
| src/utils/wrandom.c | Model/Shuffle, Wrand | `List.Perm`, fibre counts | Props/Shuffle, Wrand |
| src/utils/keystore.c | Model/Keystore | stated in the theorems | Props/Keystore |
| src/wbsm4/wbsm4.c, wbsm4_gen.c | Model/Wbsm4, Wbsm4Tables | Spec/Sm4 | Props/Wbsm4 |
| src/wbsm4/wbsm4_exkey.c (files) | Model/Wbsm4File | stated in the theorems | Props/Wbsm4File |
| src/se_wbsm4/se_wbsm4.c | Model/SeWbsm4, SeTables | Spec/Sm4 | Props/SeWbsm4 |
| src/wbaes/wbaes.c, wbaes_local.c | Model/Wbaes | Spec/Aes | Props/Wbaes |
| src/wbaes/wbaes_wbgcm_{ee,mask}_{init,mode}.c | Model/WbGcm | Spec/Gcm, Spec/Aes | Props/WbGcm |
| src/wbaes/wbaes_wbgcm_{ee,mask}_file.c | Model/WbGcmFile | Spec/Gcm | Props/WbGcmFile |
| src/aes/aes.c | Model/AesWrap | Spec/Aes, Spec/AesInv | Props/AesWrap |
| src/fpe/*.c | Model/Fpe | Spec/Fpe, Spec/FpeMac | Props/Fpe, Fpe3, FpeNist, FpeMac |
| src/fpe_app/{phone,idcard,cn_utf8,utf8_util}.c | Model/FpeApp | Spec/FpeApp | Props/FpeApp, FpeCn |
| src/{sm4,aes,wbsm4,wbaes}/*_modes.c | Model/Api | Spec/Cbc, Spec/Gcm, Spec/Fpe | Props/Api |
| src/modes/cbc128.c (lengths; overlapping buffers) | Model/Cbc, CbcMem | Spec/Cbc | Props/CbcLen, CbcMem, CbcMemMore |
| src/modes/gcm128.c (overlapping buffers) | Model/GcmMem | Spec/Gcm | Props/GcmMem |
| src/wbsm4/wbsm4_exkey.c (bytes), cleared contexts | Model/Wbsm4Bytes | Spec/Sm4 | Props/Wbsm4Bytes |
| udf/mysql5.cpp, udf/mysql8.cpp | Model/Udf | Spec/FpeApp, Spec/Sm4 | Props/Udf |
| key extraction from the tables of wbsm4_gen.c, wbaes.c, se_wbsm4.c and the white-box GCM contexts (no code: an attack) | Model/Wbsm4, Wbaes, SeWbsm4, WbGcm | Spec/WbExtract, WbaesExtract, SeExtract | Props/WbExtract, WbaesExtract (Lemmas/AesSpan), SeExtract, WbGcmExtract |
| init, key and free functions of all contexts, allocations of CBC and the parallel mode | Model/Heap | Spec/Ownership | Props/Heap |
| seeding of the random numbers from the clock, order of the draws in all white-box generators | Model/Seed | (statements only) | Props/Seed |
| gcm128.c, security of tags | Model/Gcm | Spec/GcmAuth | Props/GcmAuth (Lemmas/GfField: GHASH multiplication is a field) |
| wbaes_wbgcm_{ee,mask}_mode.c in use, over one memory | Model/WbGcm, Model/WbGcmMem | Props/WbGcmUse (`traceOf`) | Props/WbGcmUse |
| src/fpe_app as NIST FF1 / FF3 | Model/FpeApp, Model/FpeAppInit | Spec/FpeAppNist | Props/FpeAppNist |
| FF3 beyond its length limit | Model/Fpe, Model/FpeApp | Spec/Ff3Long | Lemmas/FeistelPair, Props/Ff3Long, Props/Ff3LongApp |
| what FPE tags give away | Model/Fpe | Spec/FpeMac | Props/FpeMacWeak |
| FF3 under related tweaks | Model/Fpe | Spec/Ff3Slide | Props/Ff3Slide, Props/Ff3SlideMore |
| byte counts of FPE with doubles | Model/Fpe, Model/FpeApp | Spec/Float64 | Lemmas/LogApprox, Props/FpeFloat |
| FPE of characters that are no numerals | Model/Fpe, Model/FpeApp | Spec/FpeChars | Lemmas/FeistelFree, Props/FpeChars, Props/FpeCharsApp |
| FPE of fewer than two characters | Model/Fpe, Model/FpeApp | Spec/FpeShort | Props/FpeShort |
| arguments key and keylen of all context generators | Model/KeyArg | Spec/Aes, Spec/Sm4 | Props/KeyArg |
| IVs of gcm128.c | Model/Gcm | Spec/GcmIv | Props/GcmIv |
| keys a GCM tag fits (gcm128.c) | Model/Gcm | Spec/GcmAuth | Props/GcmCommit |
| src/fpe_app/init.c | Model/FpeAppInit | Spec/Aes, Spec/Sm4 | Props/FpeAppInit |
| length after CBC decryption | Model/Cbc, Model/Padding | Spec/Cbc | Props/CbcOracle |
| SM3 contexts used again | Model/Sm3 | Spec/Sm3 | Props/Sm3Reuse |
| distribution of the random matrices | Model/Matrix, Model/Seed | Mathlib's general linear group | Props/MatrixRandom |
| table lookups of SM4 | Model/Sm4Trace | Spec/Sm4, Spec/WbExtract | Props/Sm4Trace |
| table lookups of GHASH | Model/GcmTrace | Spec/Gcm, Spec/GcmAuth | Props/GcmTrace |
| requests for memory that are refused | Model/Oom | answers to requests as an argument | Props/Oom |
| FPE over one memory | Model/FpeMem | Spec/FpeApp | Props/FpeMem |
| FPE MAC contexts over many calls | Model/FpeMacCtx | Spec/FpeMac | Props/FpeMacCtx |
| White-box SM4 key files on faulty devices | Model/Wbsm4Disk | - | Props/Wbsm4Disk |
| GCM files on faulty devices, large files, reused contexts | Model/GcmFileDisk | - | Props/GcmFileMore |
| GCM lengths beyond int | Model/GcmParallelLen | - | Props/GcmLen |
| samples of other lengths, results as strings | Model/FpeApp | Spec/FpeApp | Props/FpeSample |
| GCM calls in any order | Model/Gcm | Spec/Gcm, stepsBlocks in Props/GcmOrder | Props/GcmOrder |
| CBC over several calls | Model/Cbc | Spec/Cbc, misread in Props/CbcIv | Props/CbcIv |
| separation of FPE calls | Model/Fpe, Model/FpeApp | Spec/Fpe, Spec/FpeAppNist | Props/FpeSeparate |
| parity of FPE | Model/Fpe | Spec/Fpe | Props/FpeEven |
| white-box GCM files: several files, large files, full devices | Model/WbGcmFile, Model/WbGcmFileDisk | Spec/Gcm | Props/WbGcmFileMore |
| white-box ciphers for both byte orders | Model/Endian | Spec/Endian | Lemmas/Endian, Props/Endian, Props/EndianSe, Props/EndianAes |
| files, key files and FF1 for both byte orders and word sizes | Model/EndianFile | Spec/Endian | Props/EndianFile, Props/EndianKey |
| the example programs of docs/ | Model/Docs | Spec/Modes, Spec/Fpe, Spec/FpeApp | Props/Docs, Props/DocsCn |
| the test programs, with the code under test as an argument | Model/Tests | — (first zero byte, first 0xFF) | Props/Tests |
| GCM messages longer than the counter | Model/Gcm | Spec/Gcm | Props/GcmLong |
| src/fpe compiled with NDEBUG | Model/FpeRelease | Spec/Fpe, Spec/FpeShort | Props/FpeRelease |
| src/wbsm4/wbsm4.c, src/se_wbsm4/se_wbsm4.c with a record of their lookups | Model/WbTrace | Spec/WbTrace | Props/Sm4Span, Props/WbTrace, Props/WbTraceMore |
| src/modes/cbc128.c with a record of its word accesses | Model/CbcAlign | Spec/Align | Props/CbcAlign |
| src/modes/cbc128.c with the IV in the memory of the text | Model/CbcIvMem | (Spec/Cbc) | Props/CbcIvMem |
| src/wbaes/wbaes.c with a record of its lookups | Model/WbaesTrace | Spec/WbaesTrace | Props/WbaesTrace |
| src/modes/gcm128.c, one context and several threads | Model/GcmShared | stated in Props | Props/GcmShared |
| src/fpe_app compiled with NDEBUG | Model/FpeAppRelease | stated in Props | Props/FpeAppRelease |
| src/modes with a block cipher that can fail (error.h `WBCRYPTO_MPI_CHK`) | Model/CipherFail | Spec/Gcm, Spec/Cbc | Props/CipherFail, Props/CipherFailFile, Props/CipherFailCbc |
| test/*_perform.c, test/fpe_peform.c (not the ECB loops and the clock) | Model/Perform | Spec/Gcm, Spec/Cbc, Spec/FpeApp | Props/Perform, Props/PerformMore |
| src/modes/gcm128.c `WBCRYPTO_gcm_finish` with `len > 16`, memory as laid out by modes.h | Model/GcmTagLong | Spec/Gcm | Props/GcmTagLong |
| src/fpe/ff1_cmac.c, ff3_gmac.c: `ctx->tag` written by calls and read by `finish` of several threads | Model/FpeMacShared | in the statements | Props/FpeMacShared |
| src/fpe/ff1.c, ff3.c with a block cipher that reports failure | Model/FpeFail | Spec/Fpe | Props/FpeFail |
| src/fpe/ff1_cmac.c, ff3_gmac.c with a block cipher that reports failure | Model/FpeMacFail | Spec/Fpe, Spec/FpeMac | Props/FpeMacFail |
| WBMatrix/src/WBMatrix.c genPermutation4, genPermutation8: which permutations come out | Model/Matrix, Model/Seed | Props/Matrix (IsPerm) | Props/PermRandom, Props/SeedNumbers |
| src/utils/wrandom.c shuffle and src/wbsm4/wbsm4_gen.c: for how many random choices generation is defined | Model/Shuffle, Model/Wbsm4 | Props/Wrand (Adjacent) | Props/DummyCount |
| src/wbaes/wbaes_wbgcm_mask_mode.c: what an onlooker learns from known messages under one IV | Model/WbGcm | Spec/Gcm, Spec/Aes | Props/MaskKnown |
| src/fpe_app/phone.c, idcard.c, cn_utf8.c with a cipher that reports failure | Model/FpeAppFail | Spec/FpeApp, Spec/Fpe | Props/FpeAppFail |
| src/fpe/ff1.c, ff3.c and src/fpe_app with a cipher that misbehaves in any way | Model/FpeFail, Model/FpeAppFail | Spec/FpeApp, Spec/Fpe | Props/FpeAnyFault |
| src/modes/cbc128.c and the wrappers, ciphertexts changed or made without the key | Model/Cbc, Model/Padding | Spec/Cbc, Spec/Padding | Props/CbcForge |
| file encryption of src/modes/gcmfile.c and of the white-box modes, files changed or made without the key | Model/GcmFile, Model/WbGcmFile | Spec/Gcm | Props/FileForge |
| SM3, collisions | Model/Sm3 | Spec/Sm3 | Props/Sm3Collide |
| one key in GCM, CBC, FF1 and FF3 | Model/Gcm, Model/Cbc, Model/Fpe | Spec/Gcm, Spec/Cbc | Props/OneKey |
| src/modes/gcmfile.c, wbaes_wbgcm_ee_file.c, wbaes_wbgcm_mask_file.c: several calls at once | Model/FileThreads | Spec/Gcm | Props/FileThreads |
| udf/mysql8.cpp, mysql5.cpp, columns | Model/Udf, Model/FpeApp | Spec/FpeApp | Props/UdfTable |

`Verif/Basic`, `Verif/Chunks`, `Verif/Model/Mem` hold byte, block and buffer primitives; `Verif/Lemmas/*` hold auxiliary
proofs.

## Modelling choices worth knowing

* `x << 24` and `x << 28` of a promoted byte are signed shifts in C; they are read as the 32-bit pattern every usual
  compiler produces.
* White-box tables: every library call that makes a random object reseeds its generator, so each gets its own arbitrary
  stream.  The columns of a white-box AES round touch disjoint bytes; the model computes them side by side.
  `expandKey` and the white-box AES generator ignore `keylen`.
* WBMatrix repeats the same text for sizes 4 to 64; the model is generic in the size, with one instance per size.
  The 128-bit functions are different text (they work on 64-bit words and leave out one word of each row of the working
  matrix in parts of the loops); they have their own model and are proved equal to the generic one.
* `gcm_parallel.c`: sequentially consistent interleavings of single steps of any number of threads with any assignment
  of iterations to threads.
* Several file encryptions at once (Model/FileThreads): interleavings of single file operations; every `fread` and `fwrite`
  reaches the file at once, and use of an open file that another call has removed is left out (`none`).
* `fpe_app`: the five cipher branches only choose the block function `E`; the variable length arrays start with arbitrary
  contents; `slack` is the number of bytes behind `ans` that may be overwritten without harm (0 in the C language);
  `isdigit` etc. are those of the "C" locale.
* OpenSSL's AES is modelled by its documented algorithm (a schedule of eleven round keys used by the cipher, or by the
  equivalent inverse cipher).
* MySQL functions: all string arguments are objects with contents behind the given length; null pointers are undefined;
  the size of the error and result buffers is a parameter (1 and 255 in the server).
* `fread` of one element from a short file copies the bytes there are and leaves the rest as it was.

## Defects found (all proved as theorems about the model)

| property | defect |
|---|---|
| C02, C04 | block-aligned messages get no padding; stripping then removes data bytes when the last byte is 1..16 |
| C03 | the padding buffer is used through a stale pointer when `realloc` moves it |
| C08 | CBC decryption of an unaligned length reads past the input |
| C14 | GCM calls with an unaligned piece in the middle differ from one call |
| C16 | `setiv` keeps the old AAD length, so a reused context without AAD gives a wrong tag |
| C18 | inputs from 2^31 bytes on: success reported, nothing or only part encrypted |
| C21 | data race on the shared inner index of the parallel mode loses output bytes |
| C22 | parallel decryption authenticates the plaintext |
| C23 | parallel mode with empty input reads a block outside the input |
| C25 | file decryption never compares the tag |
| C26 | truncated files of 17 to 23 bytes can be accepted |
| C37 | dummy rounds use never-initialised tables; adjacent dummy groups index outside the arrays |
| C39 | a key file with more rounds than the context overflows the heap |
| C42 | ee mode: with neither AAD nor message the tag is the encoded E(J0) |
| C43 | mask mode: sender and receiver tags disagree |
| C44 | FF1 and FF1-CMAC with an empty tweak abort the process when the numbers of a half need 16j+15 bytes (67 to 72 decimal digits): `tweaklen + pad - 1 <= Qlen` is computed in `unsigned int` and the left side wraps |
| C46 | FF1 with characters that are no digits of the radix overflows a heap buffer |
| C49, C52 | FF3 reads 8 (GMAC: 16) tweak bytes whatever the tweak length |
| C51 | FF1-CMAC indexes by the round number, at most 2^80 tags; with one MAC block the tag is uninitialised memory |
| C54-C56 | the result array is one byte too short in every call; FF3 with a short tweak reads outside it |
| C55 | the empty card number reads index -1 |
| C56 | characters outside U+4E00..U+9EFF leave digits uninitialised and are lost |
| C60 | short key files and full devices are reported as success; a missing file leads to `fclose(NULL)` |
| C61 | AES wrapper decrypts with the encryption schedule; short keys are over-read |
| C62 | encrypting a file onto itself destroys it and reports success |
| C63 | missing or short input files close uninitialised `FILE` pointers |
| C67 | the wbsm4 context of the application layer uses a dummy group and can be wrong; short keys are completed with uninitialised bytes |
| C69 | `wbsm4_cbc_decrypt` calls the block function of the context: with the context used for encryption it encrypts again and reports success |
| C70 | GCM over a decryption-mode wbsm4 context is GCM under the inverse cipher, silently |
| C73 | white-box GCM file decryption never compares the tag: any file with a matching size field is accepted |
| C75 | the shuffle never moves the first element anywhere but last; more than 32 dummy groups always leave the arrays, fewer do with some random numbers |
| C76 | GCM with the output starting inside the input gives wrong data and reports success |
| C77 | the exported byte stream of a wbsm4 key holds pointers instead of tables; its length field is ignored |
| C78 | contexts never filled (or cleared) still encrypt: GCM emits the plaintext |
| C79 | MySQL functions: error texts are copied into a one-byte flag, results over 255 bytes overflow, strings are taken to be terminated, the key is in the source, a row longer than the length announced at the start overflows the buffer, mysql5 does not check the length of the sample |
| C80, C81, C85, C86 | no external encodings on the first round: the tables (and the exported key file) of white-box SM4, AES, SM4 from self-equivalences and both white-box GCM modes give away the key for every choice of random numbers |
| C86 | a masked encryption context also decrypts, a masked decryption context also encrypts: the modes xor a key stream and each context holds the matrices that undo the other's layer |
| C83 | CBC decryption of 2^31 bytes and more: success, but one block or only the low 32 bits of the length decrypted; unaligned lengths over-read; length 0 reads before the output |
| C84 | CBC decryption of two or more blocks into a buffer that starts 1-31 bytes before or anywhere inside the ciphertext: wrong plaintext, success; one block: right plaintext, wrong IV handed back |
| C82 | `MatrixcomM4to8` does not mask its second matrix: rows above 15 mix the halves (matrices made by the library have none) |
| C87 | every context but those of format preserving encryption and white-box GCM is lost when released; CBC encryption loses its padded copy in every call, the parallel mode its counter blocks; refused `init` calls lose one object; `ee_free(NULL)` is undefined |
| C88 | both white-box SM4 generators leave a plain SM4 context with the round keys allocated; the SM4 key schedule frees its copy of the key uncleared; `gcmfile_free` leaves the hash key; each MySQL row leaves a context with round keys |
| C89 | every white-box context is a function of the key, a counter that starts at 0 and the seconds at which it was made; the nibble encodings depend on one second only; matrices repeat between contexts made within 30 seconds; both masks of the masked GCM are normally equal |
| C90 | IVs are not remembered or compared: two messages under one IV give the xor of the plaintexts and leave few hash keys, and with a hash key (which white-box GCM contexts keep in the clear, C86) all tags under an IV follow from one |
| C91 | the white-box modes return -1 where the plain mode returns 0, so a caller testing `!ret` accepts a refused call; with the output after the input in one buffer a wrong byte is produced and success reported |
| C92 | FPE applications: FF3 runs the cipher under the key itself, so it is the standard's FF3 for the byte-reversed key; it uses eight shown characters only; without sample every number has the same tweak |
| C93 | FF3: no length limit; beyond it the later digits of each half appear in the ciphertext, and FF3-GMAC ciphertexts can be changed without changing the tag |
| C94 | FF3-GMAC: two tags of a message under tweaks that differ in bytes 8-15 give the hash key; FF1-CMAC: fewer than 2^58 tags |
| C95 | FF3 (and FF3 in the applications) takes tweaks with all 64 bits free: flipping two bits of the tweak exchanges its first and last four rounds |
| C96 | characters are not checked against the radix: capital letters are taken for other letters, separators overflow a heap buffer, and what is encrypted without overflow decrypts to another string; this includes identity cards with a lower-case `x` |
| C98 | no FPE function checks the length: fewer than two characters (FF1) or none (FF3) abort the process; FF3 moves a single hidden digit by an amount common to all digits and to all tweaks with the same bytes 4-7 |
| C99 | the AES contexts ignore `keylen`: keys in objects shorter than 16 bytes are read past the end, bytes behind a short key take part, and longer keys silently mean AES-128; an empty SM4 key is accepted and means a constant |
| C100 | `gcm_setiv` accepts an empty IV, whose tags give the hash key away; `setiv` may be left out without any error; the bit length of an IV is kept modulo 2^32, so very long IVs collide for every key |
| C101 | a tag fits as many keys as wanted: for any keys a ciphertext with any beginning can be completed to one accepted under all of them (inherent to GCM; nothing in the library binds the key) |
| C102 | the length after CBC decryption is taken from one byte without checking the padding; sixteen lengths give the last byte of any block |
| C103 | `sm3_final` does not reset the context; a second message without `sm3_init` gives a digest of neither message. `sm3_transform` does not count its block |
| C104 | the random invertible matrices are not uniform, and at most 2^32 of them can come out |
| C105 | SM4 looks up tables at entries that depend on the key; the entries of four rounds, or of the key schedule alone, give the key |
| C106 | `gcm_mult` looks up tables at the nibbles of its argument; the lookups for one AAD of more than 16 bytes give the hash key |
| C107 | apart from the structure itself no result of `malloc` is tested: out of memory is a null pointer dereference in every function that encrypts or makes tables; `WBCRYPTO_fpe_mac_init`, `WBCRYPTO_gcmfile_init` and the white-box SM4 and mask contexts are returned incomplete |
| C108 | `aux_fpe_cn` uses `memcpy` where text and result may be the same object; overlapping phone and card numbers are smeared; an overlapping card number loses its `X` |
| C109 | `finish` before the first call delivers uninitialised memory with success; it ignores the announced length; the tag covers only the latest call; nothing compares tags |
| C110 | key files are not checked for integrity; a failed load destroys the context; announced rounds are trusted; success is reported for a file cut off by a full device; a file that cannot be opened leads to `fclose(NULL)` |
| C111 | files of 2^31 bytes or more can be encrypted but not decrypted; a second file encrypted after one `setiv` is decrypted wrongly with return value 1; success is reported on a full device; a file that cannot be created leads to `fclose` of an invalid pointer |
| C112 | a message of 2^32 q + k bytes is sealed as its first k bytes with return value 1; the parallel functions are undefined for most lengths whose residue is 2^31 or more |
| C113 | a sample shorter than the number is read beyond its end, and what lies there decides which digits are encrypted; a short sample for Chinese text makes the ciphertext depend on uninitialised memory and loses the rest of the text; a long one writes outside an array; no application function terminates its result |
| C114 | a second aad call keeps the hash but overwrites the length, AAD in pieces therefore has a wrong tag and pieces with zeros behind them collide; finish changes the hash, a second call gives another tag and three tags reveal the hash key |
| C115 | encryption does not move the IV forward but decryption does: a sender that keeps the variable repeats the IV, and the receiver misreads the first block of every message but the first |
| C116 | FF3 does not separate radixes and lengths (as in the withdrawn standard); the applications do not separate phone numbers from identity cards nor samples with stars at different places |
| C117 | odd radixes give only half of the permutations (a property of the standard, too) |
| C118 | the file functions of the white-box modes never look at the result of a write; a second file with one context decrypts wrongly with return value 1; files of 2^31 bytes and more are undefined in decryption |
| C119 | `MatrixcomM8to32`, `VectorcomV8to32` and `randV32` write through pointers to smaller types: on a big-endian machine white-box SM4 and AES are other ciphers (WBMatrix.c) |
| C120 | the size field of encrypted files is written in the byte order and width of the machine but read lowest byte first: a big-endian machine rejects its own files, and files do not move between 32 and 64 bits (gcmfile.c 61-64 and 129-137); key files carry no byte order, so a foreign one is a write out of bounds (wbsm4_exkey.c 64) |
| C121 | the documented CBC call with a buffer as large as the message fails for unaligned messages and the program goes on with an uninitialised length (call-sm4.md); the GCM example overwrites the tag it should compare; the FPE example writes the terminator behind its buffer and reads outside an empty FF3 tweak (call-fpe.md); FF3 as documented for the application functions is undefined; the address example loses the end of the text unless the old buffers are reused (call-fpe-app.md); the key import says its round parameter does not matter (call-wbsm4.md) |
| C122 | the tests compare binary data with strncmp and files through a char (test_utils.c 15 and 20-34), so test_aes would accept a decryption to zeros and file comparison does not end where char is unsigned; se_wbsm4_test.c 26 decrypts with the wrong context and always fails; fpe_test.c and fpe_mac_test.c use too short tweaks and print tags as strings |
| C123 | nothing limits the data encrypted under one IV: beyond 2^36 bytes the key stream repeats and the mask of the tag is given away (gcm128.c 184 and 233) |
| C124 | input checks of FF1 are assertions only: a release build accepts single digits and shifts them by a constant (ff1.c 133), a debug build stops on an empty tweak the standard allows (ff1.c 66) |
| C125 | the cache lines touched by white-box SM4 encryptions give the key: the encoding at the S-box tables is affine byte by byte (wbsm4.c 73, se_wbsm4.c 113) |
| C126 | CBC accesses byte arrays of the caller as `size_t` (cbc128.c 20, 67, 82) and FF1 stores an `unsigned int` at `P + 3` (ff1.c 58): undefined for arrays that are not aligned, and for FF1 on big-endian machines always |
| C127 | decryption writes over the IV of the caller (cbc128.c 78, 89) while encryption does not; with the output starting at the IV the plaintext is lost and success is returned |
| C128 | the addresses read by white-box AES give away its key: the tables are encoded with linear maps and nibble permutations, so the upper nibble of an entry number of the second round is a fixed function of a linear function of the S-box output |
| C129 | a GCM context keeps its counter in the context without any lock: threads that share a context can use the same counter block twice, which gives away the xor of their texts, and produce a tag nobody can check |
| C130 | in a build without assertions FF1 hides a single digit of a phone number or card by a shift that is the same for all numbers with the same shown characters; a build with assertions stops |
| C131 | if the block cipher reports failure, gcmfile_encrypt/_decrypt and the parallel functions return 1 all the same, the file losing up to 128 bytes of plaintext for good; CBC encryption may leave a plaintext block readable and reports the full length; GCM cannot be continued; CBC decryption leaves the old IV only with separate buffers |
| C132 | file_encrypt_perform.c times nine decryptions out of ten of a file that the context cannot decrypt any more; with 4-byte pointers it measures three files of six; test_aes_fpe and test_ff3_gmac read beyond their one-byte tweak; the FPE programs never decrypt what they encrypted |
| C133 | gcm_finish accepts tag lengths above 16: longer tags contain the counter, addresses of the process and GHASH state; 48 bytes reveal the hash key; tags of 17 to 32 bytes are rejected by a receiver in another process |
| C134 | the tag of an FPE MAC context is kept in the context and not returned by the call: threads that share it read tags of other calls or mixtures, so a forged text can be accepted with the tag of a genuine one |
| C135 | the FPE functions ignore the result of the block cipher and return 1: with a failing cipher they deliver a text that is the plaintext up to a shift by stack contents, or the plaintext itself; decryption returns the ciphertext |
| C136 | ff3_gmac ignores the result of gmac_gen_H: if the first block cipher call fails, the tag is zero for every text and the functions return 1; ff1_cmac ignores all results: with a failing cipher the tag is a sum of stack contents |
| C137 | all nibble encodings of a context come from one 32-bit seed: at one place at most 2^32 of the 16! permutations are possible, and some permutation occurs nowhere in any context |
| C138 | with six or more groups of dummy rounds WBCRYPTO_wbsm4_gen_table leaves its arrays for more than half of the random choices |
| C139 | the masks of the masked GCM mode are linear and the same in every block and under every IV: two messages under one IV give them away |
| C140 | the applications report success when every cipher call failed; with a zero stack the encrypted text is the plaintext |
| C141 | one failing cipher call during FPE encryption can make two texts encrypt to the same ciphertext, and the function returns 1 |
| C142 | CBC decryption returns 1 for every ciphertext of whole blocks: messages can be changed, cut, joined and, from one known block, forged without the key |
| C143 | encrypted files can be changed bit by bit, cut, and, from one known text, replaced by any text without the key: decryption returns 1 |
| C144 | t collisions of the compression function give 2^t messages with the same SM3 digest; the length in the padding is modulo 2^61 bytes (both as in the standard) |
| C145 | IVs of any length are accepted, also the empty one: tags of empty messages give the block cipher everywhere; so do CBC ciphertexts. A key used in CBC or for such tags is of no use in GCM or FPE |
| C146 | the temporary file has a fixed name next to the output and nothing is locked: two calls with one output mix their results and both report success; encrypting to `a` deletes a file `a.tmp` |
| C147 | the MySQL function is deterministic under one key and has no tweak besides the shown characters: frequencies stay visible, and repeated calls decrypt; with two hidden digits a hundred calls suffice |

## Not modelled

`malloc` fails only in Model/Oom; everywhere else it succeeds.
Failure of the allocations inside OpenSSL and of variable length arrays, `printf` diagnostics, timing, the MySQL server, CMake,
test programs that only print (the ones that compare something are in Model/Tests, the ones that measure in Model/Perform, the
example programs of the documentation in Model/Docs),
OpenSSL internals (AES, BIGNUM) and the C library file functions beyond their contract.

## Wrong programs

`seeded/LOG.jsonl` records experiments in which a definition of the model was replaced by a wrong (or repaired) one in a
scratch copy.  A theorem is counted as failed if its proof, or a lemma it uses, no longer compiles.

## Per property plan

| id | modelled | proof idea |
|----|----------|-----------|
| C01, C02 | padding.c on byte lists | list lemmas, case split on length mod 16 and last byte |
| C03-C08 | cbc128.c with explicit buffers and bounds checks, both alias cases | induction over blocks, loop invariant on buffer |
| C09 | gcm_mult, table construction | linearity over xor; nibble step = four shift-and-reduce steps |
| C10-C14, C16-C19 | gcm128.c context functions | induction over message, refinement to SP 800-38D |
| C15 | counter increment bytewise | refinement to 32-bit addition, injectivity |
| C20-C23 | gcm_parallel.c as interleaving of per-byte steps with private / shared index | invariant over schedules; explicit bad schedule |
| C24-C26, C62, C63 | gcmfile.c as list of file operations | chunk lemma from C14; prefix argument |
| C27, C28 | md32_common.h / sm3.c | buffer invariant; unrolled rounds = standard's loop |
| C29-C31 | sm4.c | Feistel-like round is an involution up to swap; table by kernel evaluation over 256 entries |
| C32 | key padding | list lemmas |
| C33-C35, C64 | WBMatrix.c generators, inversion | invariant: product of logged elementary operations; Gaussian elimination |
| C36-C38 | wbsm4 generator and evaluator | encodings cancel round by round |
| C39 | wbsm4_exkey.c as byte stream codec | parser/printer round trip, truncation by length |
| C40 | se_wbsm4 | as C36, self-equivalence table checked over all entries by the kernel |
| C41 | wbaes.c | nibble encodings and mixing bijections cancel |
| C42, C43 | wbgcm ee / mask | refinement to gcm model; witness for mismatch |
| C44-C50, C65, C66 | ff1.c, ff3.c, fpe_locl.c | Feistel inversion; digits codec; equality with SP 800-38G |
| C51, C52 | ff1_cmac.c, ff3_gmac.c | same rounds produce same MAC inputs; xor accumulation is order independent |
| C53-C57 | fpe_app | split/merge by mask; UTF-8 arithmetic |
| C58 | wrandom.c | swap preserves permutation |
| C59 | random.c | quadratic residues modulo a prime = 3 mod 4 |
| C60, C61, C67 | keystore.c, aes.c, fpe_app/init.c | direct, with the library contract |
| C68-C72 | *_modes.c | composition of the mode theorems with the cipher theorems |
| C73 | wbgcm file functions | the file proof of C24 over the white-box context |
| C74 | wrandom.c number generators | xor with an injective part: fibres are cosets |
| C75 | wrandom.c shuffle | each exchange fixes one place from the back; pigeonhole for dummy groups |
| C76 | gcm128.c over one memory | the loop reads each byte before or after it is written; induction on bytes |
| C77 | wbsm4_exkey.c bytes | layout of the structure; heap as partial map of addresses |
| C78 | context_init, context_free | zero tables give zero rounds; then GCM and CBC specifications |
| C79 | udf | C53-C56 with C67; case analysis of the calls for the undefined cases |
| C80 | key extraction, white-box SM4 | tables composed with the next round's decoding cancel the encodings: the derivative of the S-box finds each byte of a round key; invert the schedule |
| C81 | key extraction, white-box AES | right key: an additive map from 8 to 4 bits has a kernel; wrong key: differences of the fractional linear map span all of GF(2)^8 (Lemmas/AesSpan, a check over all d and w reduced by scaling), so a period would force the encoding to be zero |
| C82 | WBMatrix.c, 128 bits and helpers | the words left out are zero (forward) or never read again (backward); induction on blocks |
| C83 | cbc128.c, lengths | signed 32-bit conversion; tail lemma |
| C84 | cbc128.c, one memory | induction on blocks; for each unsafe distance a memory with a single one that the wrong order of loads and stores loses |
| C85 | key extraction, SM4 from self-equivalences | the state after n rounds is the SM4 state under known-to-be-injective affine maps; a guess is right exactly if the new word stays constant over all input bytes (same lemma as C80) |
| C86 | white-box GCM contexts | C81 for arbitrary output encodings of the last round; the rest from C43 applied to the ciphertext, since counter mode is its own inverse |
| C87 | init and free functions over a heap of objects | the heap is the concatenation of the objects of each call; releasing changes one segment |
| C88 | contents of the objects left | closed form of the heap after each call; the key schedule run backwards |
| C89 | seeding and draw order with the clock as an argument | two runs side by side with a budget of clock readings; inverse permutations do not depend on what the array held |
| C90 | gcm128.c | GHASH is evaluation of a polynomial in the hash key; roots in an integral domain. Field: commutativity and associativity from bilinearity on basis elements, inverses from a^(2^128) = a (checked for x by 128 squarings) and because 0 and 1 are the only idempotents (a linear map undoing e -> e^2 + e, checked on basis elements by the kernel) |
| C91 | wbaes_wbgcm_*_mode.c | simulation relation between a white-box context and a plain one, kept by every call; the loops of GcmMem with a lookup in place of the xor |
| C92 | fpe_app | C65, C66 for the engine, then the split and merge lemmas of C53-C56 |
| C93 | ff3.c, ff3_gmac.c, cn_utf8.c | two rounds at a time as a permutation of pairs of numbers; sums of round outputs are below 2^130; count of numbers whose leading twelve bytes change |
| C94 | ff3_gmac.c, ff1_cmac.c | linearity of GHASH multiplication and C90's field; xor of ten values by the set of those occurring an odd number of times |
| C95 | ff3.c | the round number only enters byte 3 of each tweak half, so rounds 4-7 are rounds 0-3 of the flipped tweak |
| C96 | fpe_locl.c, ff1.c, ff3.c, phone.c, idcard.c | the first two rounds reduce both halves; numerals that lead to the same state are found by undoing them |
| C97 | ff1.c, ff3.c, ff1_cmac.c, ff3_gmac.c | two neighbouring fractions for each logarithm, certified by comparing powers in the kernel, keep its multiples away from integers by more than the rounding errors |
| C98 | ff1.c, ff3.c, ff1_cmac.c, ff3_gmac.c, phone.c, idcard.c, cn_utf8.c | equal pointers fail the assertion in the first round; with an empty right half the odd rounds do nothing and the even ones add constants |
| C99 | padding.c, sm4.c, wbsm4_gen.c, se_wbsm4.c, aes.c, wbaes.c, wbaes_wbgcm_*_init.c | C30, C36, C40, C41, C42, C43 with the key read from an object |
| C100 | gcm128.c | the first counter block as a polynomial in the hash key, roots as in C90; C15 for the prefixes |
| C101 | gcm128.c | interpolation: the last k blocks are the coefficients of a polynomial with prescribed values at k hash keys |
| C102 | cbc128.c, padding.c, *_modes.c | the reported length as a function of one byte; a table over all bytes; counting for the lower bound |
| C103 | md32_common.h | the buffer invariant with an offset in the length; the context made of a digest satisfies it |
| C104 | WBMatrix.c, random.c | bijection to Mathlib's GL_n over ZMod 2 and its cardinality; counting fibres |
| C105 | sm4.c | the functions with a record of their lookups; rounds and key schedule undone |
| C106 | gcm128.c | the functions with a record of their lookups; the field is a domain |
| C107 | all functions that allocate | computations with a stream of answers of `malloc`; a null pointer that is used is undefined |
| C108 | fpe_app, ff1.c, ff3.c | text and result as offsets into one buffer |
| C109 | init.c, ff1_cmac.c, ff3_gmac.c | the context as a state over a series of calls |
| C110 | wbsm4_exkey.c | any file content; stream buffer and device with limited room |
| C111 | gcmfile.c | any length; contexts as state; stream buffer and device with limited room |
| C112 | gcm128.c, gcm_parallel.c | whole calls as a relation between arguments and outcomes |
| C113 | phone.c, idcard.c, cn_utf8.c | the sample as arbitrary memory |
| C114 | gcm128.c aad, encrypt, decrypt, finish | any sequence of calls |
| C115 | cbc128.c, the IV passed from call to call | induction over messages; byte by byte attack |
| C116 | ff1.c, ff3.c, phone.c, idcard.c | injectivity of the encodings |
| C117 | ff1.c, ff3.c | a round adds a number to one half modulo an odd number, so its odd power is the identity and its sign is 1 |
| C118 | wbaes_wbgcm_ee_file.c, wbaes_wbgcm_mask_file.c | a relation between white-box and plain contexts that every call and file keeps; streams with `comb` for the masked mode; the stream buffers of C111 |
| C119 | WBMatrix.c and the white-box generators | the byte order as an argument of the functions that depend on it; generalised Feistel networks (inverse, one round that differs); the 2039 self-equivalences have different matrices (bit set over the first two rows) |
| C120 | gcmfile.c, the white-box file functions, wbsm4_exkey.c, ff1.c, ff1_cmac.c | byte order and `sizeof(size_t)` as an argument; the size read as a number from either end; both branches of FF1 |
| C121 | docs/call-*.md | the calls in the order of the documents, buffers of the documented sizes set to zero, each call with its own garbage memory |
| C122 | test/*.c except the programs that compare nothing | the tests as functions of the implementation, passing characterised exactly |
| C123 | gcm128.c fed with any number of pieces | counter values modulo 2^32, tag from C114 |
| C124 | the eight FPE functions without their assertions | rounds with distinct pointers are equal; one numeral computed directly |
| C125 | lookups of both white-box SM4 schemes | a guess is right iff a change of one byte cancels in the next round; the differences of the S-box in every direction span all bytes and are 127, so no visible bit or cache line hides it |
| C126 | addresses of word accesses of CBC | traced loops; alignment of a block is alignment of its words |
| C127 | IV in the memory of the text | loops with `iv` as an address, related to those of C84 |
| C128 | lookups of white-box AES | state after round 1 (C41) and the period test of C81 on upper nibbles of entry numbers; tables that do not begin with a cache line are left out |
| C129 | gcm128.c, interleaved statements | number of increments = counter blocks used + threads waiting; counting for the converse; serialisation invariant under a lock; statements are indivisible in the model |
| C130 | fpe_app with the engines of Model/FpeRelease | monotonicity of the application functions in the engine, for all buffers; C124 for the engines |
| C131 | modes with a cipher that fails by a pattern given as an argument | induction over the pieces with the calls before the failing one succeeding, then C10/C03 for what was processed |
| C132 | the loops of the measuring programs | induction over the calls with the counter of the context as the state; C10, C15, C40 for one file, C47–C54, C03 for one call |
| C133 | the bytes of the context structure from base_ectr on | index arithmetic, the state after one message (C10, C12), roots of the GHASH polynomial (C90) |
| C134 | an interleaving machine for the copying of the tag | an invariant on who wrote each piece; explicit schedules for the negative part |
| C135 | rounds with the buffer as state and numbered calls | simulation by Feistel rounds with a constant round function; rounds add up |
| C136 | the failing rounds of C135 with a tag | two machines side by side, calls renumbered by a strictly increasing map; tag as invariant |
| C137 | the shuffle as a bijection between remainders and permutations; draws as stretches of one stream | positions below the loop index are final; counting fibres; matrices read exactly the numbers they count |
| C138 | choices of a shuffle counted | induction on the last entry; arrangements without neighbours listed; Pascal's rule |
| C139 | ciphertext difference is linear in the message difference | byte formula of counter mode; matrices from eight unit vectors |
| C140 | format and value of what the applications write when the cipher does nothing | C135 for the hidden characters, then the frame lemmas of C54 to C57 |
| C141 | format for every behaviour of the cipher; decryption a permutation | the numbers added in a run as a function of the round; for decryption the round function with call numbers computed from the lengths |
| C142 | what a changed or forged ciphertext is received as | the receiver's view (return value, reported length, buffer) as textbook CBC and stripping; then block by block |
| C143 | what a changed or forged file is decrypted to | both sides as counter mode between file contents, for plain and white-box contexts at once; then xor of the texts |
| C144 | SM3 collisions | the digest as the chaining value of the padded message (C27, C28); back from the end block by block; the length field is injective below 2^61 bytes; pigeonhole for the existence of collisions |
| C145 | one key in several modes | the IV that leads to a given counter block is found by dividing twice by the hash key; C13, C44, C47 with the cipher computed from the answers |
| C146 | file encryptions at the same time | a step reads and writes only the files of its call; a run with files apart is, for each call, its run alone (C24, C73); the two mixing schedules are followed step by step |
| C147 | encrypted columns | the call is a function with a left inverse (C53-C56, C79) on the finite set of texts that agree where the sample shows them; among one more iterates than there are such texts two agree, and injectivity takes them back to the start |
