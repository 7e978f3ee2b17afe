import Verif.Model.AesWrap
import Verif.Model.Docs
import Verif.Model.FpeMacCtx
import Verif.Model.GcmFile
import Verif.Model.SeWbsm4
import Verif.Model.Sm3
import Verif.Model.Wbaes

/-!
Model of the test programs (`/repo/test/*_test.c`, `test_utils.c`): the two comparisons they decide by, and the programs as
functions of the code under test, so that one can ask which wrong code they would accept.

* `WBCRYPTO_MPI_CHK(x)` leaves the test with 0 if `x` is 0 (conf.h).  The result of a test is `some true` (pass), `some false` (failed)
  or `none` (undefined).
* What the programs print with `TEST_print_state` has no influence and is left out; `printf("%s")` reads a string (`cstr`).
* The performance programs (`*_perform.c`, `fpe_peform.c`) compare nothing; they are in Model/Perform. `wbaes_wbgcm_ee_test.c` and
  `wbaes_wbgcm_mask_test.c` print results, compare nothing either and are left out.
-/
set_option autoImplicit false

namespace Verif.Model

/-- `strncmp(a, b, n) == 0` on objects with the bytes `a` and `b`: stops at the first difference, after a zero byte in both, or
after `n` bytes; `none` if it gets behind the end of one of them. -/
def strncmpEq : Nat → List Byte → List Byte → Option Bool
  | 0, _, _ => some true
  | n + 1, a :: as, b :: bs => if a ≠ b then some false else if a = 0 then some true else strncmpEq n as bs
  | _ + 1, _, _ => none

/-- `TEST_cmp_values` (test_utils.c lines 14-16). -/
def testCmpValues (a b : List Byte) (len : Nat) : Option Bool := strncmpEq len a b

/-- `WBCRYPTO_MPI_CHK` (conf.h): go on only if the comparison gave 1. -/
def mpiChk (x : Option Bool) (rest : Option Bool) : Option Bool := x.bind fun ok => if ok then rest else some false

/-! ### block ciphers -/

/-- Key and message of aes_test.c and wbaes_test.c (lines 4-8). -/
def tvAes : Block := #v[0x00, 0x01, 0x02, 0x03, 0x04, 0x05, 0x06, 0x07, 0x08, 0x09, 0x0a, 0x0b, 0x0c, 0x0d, 0x0e, 0x0f]
/-- `expect_cipher` of aes_test.c and wbaes_test.c (lines 10-11). -/
def tvAesCipher : Block :=
  #v[0x0A, 0x94, 0x0B, 0xB5, 0x41, 0x6E, 0xF0, 0x45, 0xF1, 0xC3, 0x94, 0x58, 0xC6, 0x53, 0xEA, 0x5A]
/-- Key and message of sm4_test.c, wbsm4_test.c and se_wbsm4_test.c (lines 4-8). -/
def tvSm4 : Block := #v[0x01, 0x23, 0x45, 0x67, 0x89, 0xab, 0xcd, 0xef, 0xfe, 0xdc, 0xba, 0x98, 0x76, 0x54, 0x32, 0x10]
/-- `expect_cipher` of the three (lines 10-11). -/
def tvSm4Cipher : Block :=
  #v[0x68, 0x1e, 0xdf, 0x34, 0xd2, 0x06, 0x96, 0x5e, 0x86, 0xb3, 0xe9, 0x4f, 0x53, 0x6e, 0x42, 0x46]

/-- The common body of `test_aes` (aes_test.c lines 12-29), `test_sm4` (sm4_test.c lines 13-31) and the two `test_wbsm4`
(wbsm4_test.c lines 13-35, se_wbsm4_test.c lines 13-33): encrypt, compare with the expected ciphertext, decrypt, compare with the message. -/
def testBlock (E D : Block → Block) (msg expect : Block) : Option Bool :=
  mpiChk (testCmpValues (E msg).toList expect.toList 16) <|
  mpiChk (testCmpValues msg.toList (D (E msg)).toList 16) (some true)

/-- `test_aes` for an arbitrary implementation. -/
def testAes (E D : Block → Block) : Option Bool := testBlock E D tvAes tvAesCipher
/-- `test_sm4` for an arbitrary implementation. -/
def testSm4 (E D : Block → Block) : Option Bool := testBlock E D tvSm4 tvSm4Cipher
/-- `test_wbaes` (wbaes_test.c lines 13-25) for an arbitrary implementation. -/
def testWbaes (E : Block → Block) : Option Bool :=
  mpiChk (testCmpValues (E tvAes).toList tvAesCipher.toList 16) (some true)

/-- `test_wbsm4` of wbsm4_test.c: two contexts with one group of dummy rounds each. -/
def testWbsm4 (r r' : Wbsm4Rnd) (junk junk' : Nat → WbRound) : Option Bool :=
  (wbsm4GenTable r junk .encrypt 1 tvSm4.toList).bind fun enc =>
  (wbsm4GenTable r' junk' .decrypt 1 tvSm4.toList).bind fun dec =>
  testSm4 (wbsm4Encrypt enc) (wbsm4Decrypt dec)

/-- `test_wbsm4` of se_wbsm4_test.c: line 26 decrypts with `wbsm4_ctx_enc`; `wbsm4_ctx_dec` is generated and not used. -/
def testSeWbsm4 (r : SeRnd) : Option Bool :=
  testSm4 (seEncrypt (seGenTable r .encrypt tvSm4.toList)) (seDecrypt (seGenTable r .encrypt tvSm4.toList))

/-! ### SM3 -/

/-- `msg1`, `msg2` (sm3_test.c lines 5 and 12-19). -/
def tvSm3Msg1 : List Byte := [0x61, 0x62, 0x63]
def tvSm3Msg2 : List Byte := (List.replicate 16 [0x61, 0x62, 0x63, 0x64]).flatten
/-- `expect_hash1`, `expect_hash2` (sm3_test.c lines 7-10 and 21-24). -/
def tvSm3Hash1 : List Byte := [0x66, 0xc7, 0xf0, 0xf4, 0x62, 0xee, 0xed, 0xd9, 0xd1, 0xf2, 0xd4, 0x6b, 0xdc, 0x10, 0xe4, 0xe2,
  0x41, 0x67, 0xc4, 0x87, 0x5c, 0xf2, 0xf7, 0xa2, 0x29, 0x7d, 0xa0, 0x2b, 0x8f, 0x4b, 0xa8, 0xe0]
def tvSm3Hash2 : List Byte := [0xde, 0xbe, 0x9f, 0xf9, 0x22, 0x75, 0xb8, 0xa1, 0x38, 0x60, 0x48, 0x89, 0xc1, 0x8e, 0x5a, 0x4d,
  0x6f, 0xdb, 0x70, 0xe5, 0x38, 0x7e, 0x57, 0x65, 0x29, 0x3d, 0xcb, 0xa3, 0x9c, 0x0c, 0x57, 0x32]

/-- `test_sm3` (sm3_test.c lines 26-46) for an arbitrary hash function; the third digest, of `WBCRYPTO_sm3`, is printed only. -/
def testSm3 (H : List Byte → List Byte) : Option Bool :=
  mpiChk (testCmpValues (H tvSm3Msg1) tvSm3Hash1 32) <| mpiChk (testCmpValues (H tvSm3Msg2) tvSm3Hash2 32) (some true)

/-! ### files -/

/-- Whether plain `char` is signed (x86) or unsigned (ARM, POWER). -/
inductive CharSign where
  | signed
  | unsigned

/-- `char ch = fgetc(f)` on a file with the remaining bytes `f`: the value of `ch`; at the end of the file `EOF`, that is -1, is stored. -/
def fgetcChar : CharSign → List Byte → Int
  | .signed, [] => -1
  | .signed, b :: _ => b.toInt
  | .unsigned, [] => 255
  | .unsigned, b :: _ => b.toNat

/-- The loop of `TEST_cmp_files` (test_utils.c lines 26-34), at most `k` passes; `none`: not finished by then. -/
def cmpLoop (s : CharSign) : Nat → List Byte → List Byte → Option Bool
  | 0, _, _ => none
  | k + 1, f1, f2 =>
    if fgetcChar s f1 ≠ fgetcChar s f2 then some false
    else if fgetcChar s f1 ≠ -1 ∨ fgetcChar s f2 ≠ -1 then cmpLoop s k f1.tail f2.tail
    else some true

/-- `TEST_cmp_files` (test_utils.c lines 18-38). -/
def testCmpFiles (s : CharSign) (k : Nat) (f1 f2 : Option (List Byte)) : Option Bool :=
  match f1, f2 with
  | some a, some b => cmpLoop s k a b
  | _, _ => some false

/-- `WBCRYPTO_TEST_FIN_PATH`, `_FENC_PATH`, `_FDEC_PATH` (test_local.h lines 10-12), without the common directory. -/
def tvFin : Path := "test-enc-file.txt".toList
def tvFenc : Path := "test-enc-file.enc.txt".toList
def tvFdec : Path := "test-enc-file.dec.txt".toList

/-- `test_aes_gcmfile`, `test_sm4_gcmfile`, `test_wbaes_gcmfile`, `test_wbsm4_gcmfile` (file_encrypt_test.c lines 12-141): encrypt,
decrypt, compare the input with the decrypted file (`TEST_cmp_handle_files`, test_utils.c lines 40-45); the return values of the file
functions are ignored.  Outer `none`: undefined; inner: the comparison has not ended after `k` bytes. -/
def testGcmfile (s : CharSign) (k : Nat) (E : Block → Block) (iv aad : List Byte) (junk : Vector Byte 4) (fs : FS) :
    Option (Option Bool) :=
  (gcmfileEncrypt (gcmAad (gcmSetiv (gcmInit E) iv) aad) junk fs tvFin tvFenc).bind fun r =>
  let fs1 := applyOps fs r.log
  (gcmfileDecrypt (gcmAad (gcmSetiv (gcmInit E) iv) aad) fs1 tvFenc tvFdec).bind fun r2 =>
  let fs2 := applyOps fs1 r2.log
  some (testCmpFiles s k (fs2 tvFin) (fs2 tvFdec))

/-! ### FPE -/

/-- `const char tweak[] = "12345"` with `sizeof(tweak)`: six bytes (fpe_test.c and fpe_mac_test.c line 14). -/
def tvTweak : List Byte := [0x31, 0x32, 0x33, 0x34, 0x35, 0]
/-- `"13888888888"` (fpe_test.c line 15). -/
def tvPhone : List Byte := [0x31, 0x33, 0x38, 0x38, 0x38, 0x38, 0x38, 0x38, 0x38, 0x38, 0x38]

/-- The four functions of fpe_test.c (lines 9-109), which are the documented example with `cipher[20]`; they print and
compare nothing. -/
def testFpe (E : Block → Block) (lg : Nat → Nat → Nat) (radix : Nat) : Option (List Byte × List Byte) :=
  docFpe E lg tvTweak radix tvPhone 20

/-- `test_ff1_cmac` (fpe_mac_test.c lines 6-37), with tweak and number as arguments: `junk`, `junk'` are the contents of `cn_1` in the two
calls, `found`, `found'` of the contexts' tags, `tag`, `tag'` of the arrays `tag_enc[16]`, `tag_dec[16]`, which are printed with `%s`. -/
def testCmac (E : Block → Block) (lg : Nat → Nat → Nat) (tweak : List Byte) (radix : Nat) (input : List Byte)
    (found found' : Block) (junk junk' : Nat → Block) (tag tag' : Block) : Option Bool :=
  (macInit found tweak radix E).bind fun enc =>
  (macCall lg enc (.cmacEnc junk (input ++ [0]) (zeroBuf 20))).bind fun c =>
  (cstr c.1).bind fun _ =>
  (cmacFinish c.2 tag.toList 0).bind fun t =>
  (cstr t.1).bind fun _ =>
  (macInit found' tweak radix E).bind fun dec =>
  (macCall lg dec (.cmacDec junk' c.1 (zeroBuf 20))).bind fun p =>
  (cstr p.1).bind fun _ =>
  (cmacFinish p.2 tag'.toList 0).bind fun t' =>
  (cstr t'.1).bind fun _ =>
  mpiChk (testCmpValues t.1 t'.1 16) (some true)

/-- `test_ff3_gmac` (fpe_mac_test.c lines 39-70), likewise. -/
def testGmac (E : Block → Block) (lg : Nat → Nat → Nat) (tweak : List Byte) (radix : Nat) (input : List Byte)
    (found found' : Block) : Option Bool :=
  (macInit found tweak radix E).bind fun enc =>
  (macCall lg enc (.gmacEnc (input ++ [0]) (zeroBuf 20))).bind fun c =>
  (cstr c.1).bind fun _ =>
  (gmacFinish c.2 zeroBlock.toList 0).bind fun t =>
  (cstr t.1).bind fun _ =>
  (macInit found' tweak radix E).bind fun dec =>
  (macCall lg dec (.gmacDec c.1 (zeroBuf 20))).bind fun p =>
  (cstr p.1).bind fun _ =>
  (gmacFinish p.2 zeroBlock.toList 0).bind fun t' =>
  (cstr t'.1).bind fun _ =>
  mpiChk (testCmpValues t.1 t'.1 16) (some true)

end Verif.Model
