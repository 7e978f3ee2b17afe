import Verif.Model.Api
import Verif.Model.FpeApp
import Verif.Model.Wbsm4File

/-!
Model of the programs that the documentation shows: `/repo/docs/call-sm4.md`, `/repo/docs/call-wbsm4.md`,
`/repo/docs/call-fpe.md`, `/repo/docs/call-fpe-app.md` and (the same calls through SQL) `/repo/udf/README.md`.

* The documents give literal data of one size; here keys, messages, tweaks, numbers, texts and samples are arguments, and the
  buffers have the sizes the documents derive from them (`cipher` as large as `msg`) or the size is an argument.
* None of the programs looks at a return value.  A variable that is read although no call has written it
  (`size_t use_len;`) is `none`.
* `printf("%s")` reads a string: `cstr`, `none` without a terminator.
* Identifiers the documents misspell (`msg1024` for `msg_cbc`, `aes_ctx` in the SM4 example) are taken as meant.
-/
set_option autoImplicit false

namespace Verif.Model

/-- `unsigned char buf[n] = {0}`. -/
def zeroBuf (n : Nat) : List Byte := List.replicate n 0

/-- The CBC example (call-sm4.md lines 27-41, call-wbsm4.md lines 46-60): `cipher` and `plain` are as large as the message ("定义与msg相同大小空间的cipher"),
`use_len` is not initialised; both calls get `&use_len` and the same `iv` array.  Result: `plain` and `use_len` at the end. -/
def docCbc (E D : Block → Block) (msg : List Byte) (iv : Block) : Option (List Byte × BitVec 64) :=
  (cbcEncryptWrapper E false msg (zeroBuf msg.length) msg.length iv).bind fun c =>
  c.useOlen.bind fun n =>
  (cbcDecryptWrapper D c.out n.toNat (zeroBuf msg.length) msg.length c.ivec).bind fun p =>
  some (p.out, p.useOlen.getD n)

/-- The GCM example (call-sm4.md lines 45-78, call-wbsm4.md lines 66-101).  `travel` is what happens to the ciphertext between the two
halves.  Both calls of `WBCRYPTO_gcm_finish` write to `tag_gcm`.  Result: `plain_gcm` and `tag_gcm` at the end. -/
def docGcm (E : Block → Block) (iv aad msg : List Byte) (travel : List Byte → List Byte) : Option (List Byte × List Byte) :=
  let enc := gcmAad (gcmSetiv (gcmInit E) iv) aad
  (gcmEncrypt enc msg (zeroBuf msg.length) msg.length).bind fun r =>
  (gcmFinish r.ctx 16).bind fun t =>
  let tag := t.1
  let cipher := travel r.out
  let dec := gcmAad (gcmSetiv (gcmInit E) iv) aad
  (gcmDecrypt dec cipher (zeroBuf msg.length) msg.length).bind fun r' =>
  (gcmFinish r'.ctx 16).bind fun t' =>
  some (r'.out, t'.1 ++ tag.drop 16)

/-- The FF1 half of the FPE examples (call-fpe.md lines 40-44, 78-82); `cap` is the size of `cipher` and `plain`. -/
def docFf1 (E : Block → Block) (lg : Nat → Nat → Nat) (tweak : List Byte) (radix : Nat) (input : List Byte) (cap : Nat) :
    Option (List Byte × List Byte) :=
  (fpeInit tweak radix E).bind fun ctx =>
  (ff1Encrypt ctx lg (input ++ [0]) (zeroBuf cap)).bind fun cipher =>
  (ff1Decrypt ctx lg cipher (zeroBuf cap)).bind fun plain =>
  some (cipher, plain)

/-- The FF3 half (call-fpe.md lines 46-49, 84-87), with the buffers as the FF1 half has left them. -/
def docFf3 (E : Block → Block) (lg : Nat → Nat → Nat) (tweak : List Byte) (radix : Nat) (input cipher plain : List Byte) :
    Option (List Byte × List Byte) :=
  (fpeInit tweak radix E).bind fun ctx =>
  (ff3Encrypt ctx lg (input ++ [0]) cipher).bind fun cipher =>
  (ff3Decrypt ctx lg cipher plain).bind fun plain =>
  some (cipher, plain)

/-- The whole FPE example (call-fpe.md lines 15-51, 53-89). -/
def docFpe (E : Block → Block) (lg : Nat → Nat → Nat) (tweak : List Byte) (radix : Nat) (input : List Byte) (cap : Nat) :
    Option (List Byte × List Byte) :=
  (docFf1 E lg tweak radix input cap).bind fun b => docFf3 E lg tweak radix input b.1 b.2

/-- A function of the `fpe_app` interface: text, sample and output buffer. -/
abbrev AppFn := List Byte → List Byte → List Byte → Option (List Byte)

/-- The four calls of the application examples and what they print (call-fpe-app.md lines 15-40, 53-78, 91-116; udf/README.md
makes the same calls one by one): encrypt and decrypt without, then with a sample, all in the same two buffers of `cap` bytes.
`enc i` and `dec i` are the functions with the uninitialised memory the `i`-th call finds. -/
def docApp (enc dec : Nat → AppFn) (text sample : List Byte) (cap : Nat) : Option (List (List Byte)) :=
  (enc 0 (text ++ [0]) [0] (zeroBuf cap)).bind fun cipher =>
  (cstr cipher).bind fun s1 =>
  (dec 1 cipher [0] (zeroBuf cap)).bind fun plain =>
  (cstr plain).bind fun s2 =>
  (enc 2 (text ++ [0]) (sample ++ [0]) cipher).bind fun cipher =>
  (cstr cipher).bind fun s3 =>
  (dec 3 cipher (sample ++ [0]) plain).bind fun plain =>
  (cstr plain).bind fun s4 =>
  some [s1, s2, s3, s4]

/-- The telephone number example (call-fpe-app.md lines 7-41): `cipher[20]`, `plain[20]`. -/
def docPhone (app : FpeApp) (lg : Nat → Nat → Nat) (mem : Nat → AppMem) (text sample : List Byte) :
    Option (List (List Byte)) :=
  docApp (fun i => encryptPhone app lg (mem i)) (fun i => decryptPhone app lg (mem i)) text sample 20

/-- The identity number example (call-fpe-app.md lines 45-79): `cipher[20]`, `plain[20]`. -/
def docIdcard (app : FpeApp) (lg : Nat → Nat → Nat) (mem : Nat → AppMem) (text sample : List Byte) :
    Option (List (List Byte)) :=
  docApp (fun i => encryptIdcard app lg (mem i)) (fun i => decryptIdcard app lg (mem i)) text sample 20

/-- The address example (call-fpe-app.md lines 83-117): `cipher[100]`, `plain[100]`. -/
def docCn (app : FpeApp) (lg : Nat → Nat → Nat) (mem : Nat → AppMem) (text sample : List Byte) :
    Option (List (List Byte)) :=
  docApp (fun i => encryptCn app lg (mem i)) (fun i => decryptCn app lg (mem i)) text sample 100

/-- The key exchange example (call-wbsm4.md lines 155-177): the sender's context goes to a file, the receiver makes a context with
`WBCRYPTO_wbsm4_context_init(mode, dummyrounds)` ("此次初始化的参数不影响": the parameters of this call do not
matter), which has room for `32 + 4 * dummyrounds` rounds (wbsm4.c lines 3-45) and contents `found`, and reads the file. -/
def docImport (sender : Wbsm4Mem) (dummyrounds : Nat) (found : Wbsm4Mem) : Option (Bool × Wbsm4Mem) :=
  file2key (32 + 4 * dummyrounds) found (key2file sender)

end Verif.Model
