import Verif.Model.Cbc
import Verif.Model.FpeApp
import Verif.Model.GcmFile
import Verif.Model.WbGcmFile

/-!
Model of the programs that measure (`/repo/test/file_encrypt_perform.c`, `fpe_peform.c`, `fpe_mac_perform.c`, `fpe_app_perform.c`, and
the modes in `wbaes_perform.c` and `wbsm4_perform.c`). The clocks and what is printed are left out: printing has no influence on
the calls. What the programs compute and throw away is kept, so that one can ask what has been measured.

`ecb_perform.c` and the first function of the other two only call a block cipher in a loop and are left out, as are the loops over
`WBCRYPTO_gcm_parallel_encrypt` (Model/GcmParallel has that function).
-/
set_option autoImplicit false

namespace Verif.Model

/-- `TEST_CYCLE_NUM` (test_local.h line 7). -/
def testCycles : Nat := 10

/-! ### file_encrypt_perform.c -/

/-- The two file functions of a mode, without their return values, which the program ignores. -/
structure FileFns (κ : Type) where
  enc : κ → Vector Byte 4 → FS → Path → Path → Option (κ × List FsOp)
  dec : κ → FS → Path → Path → Option (κ × List FsOp)

/-- `WBCRYPTO_gcmfile_encrypt`, `_decrypt` (gcmfile.c lines 35-172), in `test_aes_gcmfile`, `test_sm4_gcmfile`, `test_wbaes_gcmfile`,
`test_wbsm4_gcmfile`. -/
def gcmFns : FileFns GcmCtx where
  enc c j fs i o := (gcmfileEncrypt c j fs i o).map fun r => (r.ctx, r.log)
  dec c fs i o := (gcmfileDecrypt c fs i o).map fun r => (r.ctx, r.log)

/-- The file functions of the two white-box modes (wbaes_wbgcm_ee_file.c, wbaes_wbgcm_mask_file.c), in `test_wbaes_wbgcmfile_ee` and
`_mask`. -/
def wbFns : FileFns WbGcmCtx where
  enc c j fs i o := (wbgcmfileEncrypt c j fs i o).map fun r => (r.ctx, r.log)
  dec c fs i o := (wbgcmfileDecrypt c fs i o).map fun r => (r.ctx, r.log)

/-- `tmp_enc`, `tmp_dec` (file_encrypt_perform.c lines 45-46), without the common directory. -/
def perfEncPath : Path := "test.enc.txt".toList
def perfDecPath : Path := "test.dec.txt".toList

/-- `testFilePath` (lines 12-14). -/
def perfPaths : List Path := ["test_1KB.txt".toList, "test_10KB.txt".toList, "test_100KB.txt".toList, "test_1MB.txt".toList,
  "test_10MB.txt".toList, "test_100MB.txt".toList]

/-- `j` more turns of the encryption loop (lines 48-50); `junk` are the bytes behind `file_size` in the calls. -/
def perfEncLoop {κ : Type} (F : FileFns κ) (junk : Nat → Vector Byte 4) (inp : Path) : Nat → κ × FS → Option (κ × FS)
  | 0, s => some s
  | j + 1, (c, fs) =>
    (F.enc c (junk j) fs inp perfEncPath).bind fun r => perfEncLoop F junk inp j (r.1, applyOps fs r.2)

/-- `j` more turns of the decryption loop (lines 57-59), and what `tmp_dec` contains after each of them. -/
def perfDecLoop {κ : Type} (F : FileFns κ) : Nat → κ × FS → Option ((κ × FS) × List (Option (List Byte)))
  | 0, s => some (s, [])
  | j + 1, (c, fs) =>
    (F.dec c fs perfEncPath perfDecPath).bind fun r =>
    (perfDecLoop F j (r.1, applyOps fs r.2)).bind fun t =>
    some (t.1, applyOps fs r.2 perfDecPath :: t.2)

/-- The two contexts and the file system. -/
structure PerfState (κ : Type) where
  enc : κ
  dec : κ
  fs : FS

/-- One turn of the outer loop (lines 44-66) for the file `inp`. -/
def perfFile {κ : Type} (F : FileFns κ) (junk : Nat → Vector Byte 4) (inp : Path) (s : PerfState κ) :
    Option (PerfState κ × List (Option (List Byte))) :=
  (perfEncLoop F junk inp testCycles (s.enc, s.fs)).bind fun e =>
  (perfDecLoop F testCycles (s.dec, e.2)).bind fun d =>
  some ({ enc := e.1, dec := d.1.1, fs := applyOps d.1.2 [FsOp.remove perfEncPath, FsOp.remove perfDecPath] }, d.2)

/-- The outer loop over a list of files; for every file what its decryptions gave. -/
def perfFiles {κ : Type} (F : FileFns κ) (junk : Path → Nat → Vector Byte 4) :
    List Path → PerfState κ → Option (PerfState κ × List (List (Option (List Byte))))
  | [], s => some (s, [])
  | p :: ps, s =>
    (perfFile F (junk p) p s).bind fun a =>
    (perfFiles F junk ps a.1).bind fun b => some (b.1, a.2 :: b.2)

/-- The function for one mode: the bound of the outer loop is `sizeof(testFilePath) / 8` (line 44), where a pointer has `ptr` bytes;
beyond the six pointers the array is read outside its bounds. -/
def perfProgram {κ : Type} (F : FileFns κ) (ptr : Nat) (junk : Path → Nat → Vector Byte 4) (s : PerfState κ) :
    Option (PerfState κ × List (List (Option (List Byte)))) :=
  if perfPaths.length < perfPaths.length * ptr / 8 then none
  else perfFiles F junk (perfPaths.take (perfPaths.length * ptr / 8)) s

/-! ### format-preserving encryption -/

/-- `n` more calls into the same buffer; the call with `n` to follow is `f n`. -/
def repeatCall (f : Nat → List Byte → Option (List Byte)) : Nat → List Byte → Option (List Byte)
  | 0, out => some out
  | n + 1, out => (f n out).bind (repeatCall f n)

/-- `input` of fpe_peform.c (line 17) and fpe_mac_perform.c (line 12), with its terminator. -/
def perfInput : List Byte := [0x31, 0x32, 0x33, 0x34, 0x35, 0x36, 0x37, 0x38, 0x39, 0x30, 0x31, 0x32, 0x33, 0x34, 0x35, 0x36, 0]

/-- The first two loops of `test_aes_fpe`, `test_wbaes_fpe`, `test_sm4_fpe`, `test_wbsm4_fpe` (fpe_peform.c lines 24-44 and alike):
`TEST_CYCLE_NUM * 64` calls each, all with `input`. -/
def ff1Perform (ctx : FpeCtx) (lg : Nat → Nat → Nat) (out : List Byte) : Option (List Byte) :=
  (repeatCall (fun _ => ff1Encrypt ctx lg perfInput) (testCycles * 64) out).bind
    (repeatCall (fun _ => ff1Decrypt ctx lg perfInput) (testCycles * 64))

/-- The last two loops (fpe_peform.c lines 46-64 and alike). -/
def ff3Perform (ctx : FpeCtx) (lg : Nat → Nat → Nat) (out : List Byte) : Option (List Byte) :=
  (repeatCall (fun _ => ff3Encrypt ctx lg perfInput) (testCycles * 64) out).bind
    (repeatCall (fun _ => ff3Decrypt ctx lg perfInput) (testCycles * 64))

/-- `test_aes_fpe`, `test_wbaes_fpe`, `test_sm4_fpe`, `test_wbsm4_fpe` (fpe_peform.c); `tweak` with `sizeof(tweak)`, `cipher[50] = {0}`. A
`NULL` context is used by the engines (undefined). -/
def fpePerform (E : Block → Block) (lg : Nat → Nat → Nat) (tweak : List Byte) : Option (List Byte) :=
  (fpeInit tweak 10 E).bind fun ctx => (ff1Perform ctx lg (List.replicate 50 0)).bind (ff3Perform ctx lg)

/-- The tweak of `test_aes_fpe` (line 16), of `test_ff1_cmac` and of `test_ff3_gmac` (fpe_mac_perform.c lines 11 and 51): the empty
string, of which `sizeof` counts the terminator. -/
def perfTweakAes : List Byte := [0]
/-- The tweak of the three others (lines 68, 120, 172). -/
def perfTweak : List Byte := perfInput

/-- `test_ff1_cmac` (fpe_mac_perform.c lines 6-42): the decryption loop works on `cipher`; `junk` and `junk'` are what the engines
find in their uninitialised block in the calls. -/
def cmacPerform (E : Block → Block) (lg : Nat → Nat → Nat) (junk junk' : Nat → Nat → Block) :
    Option (List Byte × List Byte) :=
  (fpeInit perfTweakAes 10 E).bind fun ctx =>
  (repeatCall (fun k o => (cmacEncrypt ctx lg (junk k) perfInput o).map (·.1)) (testCycles * 64)
    (List.replicate 50 0)).bind fun cipher =>
  (repeatCall (fun k o => (cmacDecrypt ctx lg (junk' k) cipher o).map (·.1)) (testCycles * 64)
    (List.replicate 50 0)).bind fun plain =>
  some (cipher, plain)

/-- `test_ff3_gmac` (fpe_mac_perform.c lines 44-80). -/
def gmacPerform (E : Block → Block) (lg : Nat → Nat → Nat) : Option (List Byte × List Byte) :=
  (fpeInit perfTweakAes 10 E).bind fun ctx =>
  (repeatCall (fun _ o => (gmacEncrypt ctx lg perfInput o).map (·.1)) (testCycles * 64) (List.replicate 50 0)).bind fun cipher =>
  (repeatCall (fun _ o => (gmacDecrypt ctx lg cipher o).map (·.1)) (testCycles * 64) (List.replicate 50 0)).bind fun plain =>
  some (cipher, plain)

/-- `input` and `sample` of fpe_app_perform.c (lines 16-17 and alike): 13888888888 and 123****1234. -/
def perfPhone : List Byte := [0x31, 0x33, 0x38, 0x38, 0x38, 0x38, 0x38, 0x38, 0x38, 0x38, 0x38]
def perfSample : List Byte := [0x31, 0x32, 0x33, 0x2a, 0x2a, 0x2a, 0x2a, 0x31, 0x32, 0x33, 0x34]

/-- One loop of the functions of fpe_app_perform.c (lines 25-27 and alike), with `cipher[200] = {0}` before the first. -/
def appPerform (app : FpeApp) (lg : Nat → Nat → Nat) (mem : Nat → AppMem) (cipher : List Byte) : Option (List Byte) :=
  repeatCall (fun k => encryptPhone app lg (mem k) (perfPhone ++ [0]) (perfSample ++ [0])) testCycles cipher

/-! ### modes -/

/-- `msg1024` (wbaes_perform.c, wbsm4_perform.c lines 36-40 and alike). -/
def perfMsg : List Byte := (List.range 1024).map (BitVec.ofNat 8)

/-- `n` more calls in `test_wbsm4_cbc_perf`, `test_wbaes_cbc_perf` (wbsm4_perform.c lines 48-51): `iv` is the array that the calls get
and give back; `moved` tells what `realloc` does in each of them. -/
def cbcPerfLoop (E : Block → Block) (moved : Nat → Bool) : Nat → List Byte × Block → Option (List Byte × Block)
  | 0, s => some s
  | n + 1, (out, iv) => (cbcEncrypt E (moved n) perfMsg out 1024 iv).bind fun r => cbcPerfLoop E moved n (r.out, r.ivec)

/-- The whole loop: `TEST_CYCLE_NUM * 1024` calls. -/
def cbcPerform (E : Block → Block) (moved : Nat → Bool) (iv : Block) : Option (List Byte) :=
  (cbcPerfLoop E moved (testCycles * 1024) (List.replicate 1024 0, iv)).map (·.1)

/-- `n` more calls in `test_wbsm4_gcm_perf`, `test_wbaes_gcm_perf` (wbsm4_perform.c lines 81-83), and what `cipher1024` holds after each. -/
def gcmPerfLoop : Nat → GcmCtx × List Byte → Option (List (List Byte))
  | 0, _ => some []
  | n + 1, (c, out) =>
    (gcmEncrypt c perfMsg out 1024).bind fun r => (gcmPerfLoop n (r.ctx, r.out)).bind fun t => some (r.out :: t)

/-- The whole loop for a context with IV and AAD. -/
def gcmPerform (E : Block → Block) (iv aad : List Byte) : Option (List (List Byte)) :=
  gcmPerfLoop (testCycles * 1024) (gcmAad (gcmSetiv (gcmInit E) iv) aad, List.replicate 1024 0)

end Verif.Model
