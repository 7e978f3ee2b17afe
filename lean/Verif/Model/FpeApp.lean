import Verif.Model.Fpe
import Verif.Model.Mem

/-!
Model of `/repo/src/fpe_app` (`phone.c`, `idcard.c`, `cn_utf8.c`, `utf8_util.c`; context:
`/repo/include/wbcrypto/fpe_app.h`).

* The cipher is the block function `E`: the five branches that compare `ctx->cipher` (phone.c lines 31-41 and the
  same in the other files) only differ in the block function that they pass to `WBCRYPTO_fpe_init`.
* The variable length arrays `input`, `tweak` and `ans` start with arbitrary contents (`AppMem`).
  `slack` is the number of bytes behind `ans` that may be written without harm: 0 in the C language; a
  compiler that rounds the array up may leave more.
* Strings are whole buffers including the terminator; reading outside a buffer is `none`.
* `isdigit`, `isupper` and `islower` are those of the "C" locale.
-/
set_option autoImplicit false

namespace Verif.Model

/-- The FPE engine that `ctx->ffx` names. -/
inductive Ffx where
  | ff1
  | ff3
  deriving DecidableEq

/-- The choice of the engine by `ctx->ffx` (phone.c lines 68-74, 80-86; idcard.c lines 78-84, 90-96; cn_utf8.c
lines 108-114, 120-126). -/
def ffxOf (ffx : String) : Ffx := if ffx = "ff1" then .ff1 else if ffx = "ff3" then .ff3 else .ff3

/-- `struct fpe_app_ctx` (fpe_app.h lines 25-29); `E` is the block function of `cipher` with `cipher_ctx`. -/
structure FpeApp where
  E : Block → Block
  ffx : Ffx

/-- Contents of the uninitialised local arrays, and the number of unused bytes behind `ans`. -/
structure AppMem where
  input : Nat → Byte
  tweak : Nat → Byte
  ans : Nat → Byte
  slack : Nat

/-- A variable length array of `n` bytes. -/
def vla (junk : Nat → Byte) (n : Nat) : List Byte := (List.range n).map junk

/-- `fpe_block128_f` (fpe_app.h line 23). -/
abbrev FpeFn := FpeCtx → List Byte → List Byte → Option (List Byte)

/-- `strcmp(sample, "") != 0 && sample[i] != '*'` (phone.c lines 23, 45). -/
def maskShown (sample : List Byte) (i : Nat) : Option Bool :=
  (rdByte sample 0).bind fun c0 =>
  if c0 = 0 then some false else (rdByte sample i).bind fun c => some (c != 0x2a)

/-- `tweak_len` (phone.c lines 10-16, idcard.c lines 16-22). -/
def maskCount (sample : List Byte) (len : Nat) : Option Nat :=
  (rdByte sample 0).bind fun c0 =>
  if c0 = 0 then some 0
  else (List.range len).foldlM (fun t i => (rdByte sample i).bind fun c => some (if c != 0x2a then t + 1 else t)) 0

/-- The variables of the splitting loop. -/
structure SplitSt where
  tweak : List Byte
  input : List Byte
  k : Nat
  j : Nat

/-- One step of the splitting loop (phone.c lines 23-27, idcard.c lines 27-31). -/
def splitStep (text sample : List Byte) (s : SplitSt) (i : Nat) : Option SplitSt :=
  (maskShown sample i).bind fun shown =>
  (rdByte text i).bind fun c =>
  if shown then (wrByte s.tweak s.k c).bind fun t => some { s with tweak := t, k := s.k + 1 }
  else (wrByte s.input s.j c).bind fun t => some { s with input := t, j := s.j + 1 }

/-- One step of the merging loop (phone.c lines 45-49, idcard.c lines 51-55): the output buffer and `j`. -/
def mergeStep (text sample ans : List Byte) (s : List Byte × Nat) (i : Nat) : Option (List Byte × Nat) :=
  (maskShown sample i).bind fun shown =>
  if shown then (rdByte text i).bind fun c => (wrByte s.1 i c).bind fun o => some (o, s.2)
  else (rdByte ans s.2).bind fun c => (wrByte s.1 i c).bind fun o => some (o, s.2 + 1)

/-- `aux_fpe_phone` (phone.c lines 5-56): the buffer `after_phone` afterwards; the result is always 1.
`tweak_len` never exceeds `len`. -/
def auxPhone (app : FpeApp) (mem : AppMem) (phone sample after : List Byte) (block : FpeFn) : Option (List Byte) :=
  (cstr phone).bind fun str =>
  let len := str.length
  (maskCount sample len).bind fun tweakLen =>
  (wrByte (vla mem.input (len - tweakLen + 1)) (len - tweakLen) 0).bind fun input =>
  (wrByte (vla mem.tweak (tweakLen + 1)) tweakLen 0).bind fun tweak =>
  ((List.range len).foldlM (splitStep phone sample) ⟨tweak, input, 0, 0⟩).bind fun s =>
  (fpeInit s.tweak 10 app.E).bind fun ctx =>
  (block ctx s.input (vla mem.ans (len - tweakLen + mem.slack))).bind fun ans =>
  ((List.range len).foldlM (mergeStep phone sample ans) (after, 0)).bind fun o => some o.1

/-- The engine used for encryption (phone.c lines 67-74, idcard.c lines 77-84, cn_utf8.c lines 107-114). -/
def encFn (app : FpeApp) (lg : Nat → Nat → Nat) : FpeFn := fun ctx input output =>
  match app.ffx with
  | .ff1 => ff1Encrypt ctx lg input output
  | .ff3 => ff3Encrypt ctx lg input output

/-- The engine used for decryption (phone.c lines 79-86, idcard.c lines 89-96, cn_utf8.c lines 119-126). -/
def decFn (app : FpeApp) (lg : Nat → Nat → Nat) : FpeFn := fun ctx input output =>
  match app.ffx with
  | .ff1 => ff1Decrypt ctx lg input output
  | .ff3 => ff3Decrypt ctx lg input output

/-- `WBCRYPTO_fpe_encrypt_phone_with_sample` (phone.c lines 66-76); `WBCRYPTO_fpe_encrypt_phone` (lines 58-60)
is the call with `sample = [0]`. -/
def encryptPhone (app : FpeApp) (lg : Nat → Nat → Nat) (mem : AppMem) (phone sample after : List Byte) :
    Option (List Byte) := auxPhone app mem phone sample after (encFn app lg)

/-- `WBCRYPTO_fpe_decrypt_phone_with_sample` (phone.c lines 78-88). -/
def decryptPhone (app : FpeApp) (lg : Nat → Nat → Nat) (mem : AppMem) (phone sample after : List Byte) :
    Option (List Byte) := auxPhone app mem phone sample after (decFn app lg)

/-- `aux_fpe_idcard` (idcard.c lines 8-65).  `idcard[-1]` (the empty string) is outside the buffer. -/
def auxIdcard (app : FpeApp) (mem : AppMem) (idcard sample after : List Byte) (block : FpeFn) : Option (List Byte) :=
  (cstr idcard).bind fun str =>
  (if str.length = 0 then none else rdByte idcard (str.length - 1)).bind fun last =>
  let len := if last = 0x58 then str.length - 1 else str.length
  (maskCount sample len).bind fun tweakLen =>
  ((List.range len).foldlM (splitStep idcard sample)
    ⟨vla mem.tweak (tweakLen + 1), vla mem.input (len - tweakLen + 1), 0, 0⟩).bind fun s =>
  (wrByte s.input (len - tweakLen) 0).bind fun input =>
  (wrByte s.tweak tweakLen 0).bind fun tweak =>
  (fpeInit tweak 10 app.E).bind fun ctx =>
  (block ctx input (vla mem.ans (len - tweakLen + mem.slack))).bind fun ans =>
  ((List.range len).foldlM (mergeStep idcard sample ans) (after, 0)).bind fun o =>
  (rdByte idcard len).bind fun c =>
  if c = 0x58 then wrByte o.1 len 0x58 else some o.1

/-- `WBCRYPTO_fpe_encrypt_idcard_with_sample` (idcard.c lines 75-86); without sample (lines 67-69): `sample = [0]`. -/
def encryptIdcard (app : FpeApp) (lg : Nat → Nat → Nat) (mem : AppMem) (idcard sample after : List Byte) :
    Option (List Byte) := auxIdcard app mem idcard sample after (encFn app lg)

/-- `WBCRYPTO_fpe_decrypt_idcard_with_sample` (idcard.c lines 88-99). -/
def decryptIdcard (app : FpeApp) (lg : Nat → Nat → Nat) (mem : AppMem) (idcard sample after : List Byte) :
    Option (List Byte) := auxIdcard app mem idcard sample after (decFn app lg)

/-! ### UTF-8 helpers -/

/-- `utf8CharToUint32` (utf8_util.c lines 3-8). -/
def utf8ToU32 (a b c : Byte) : BitVec 32 :=
  ((a.zeroExtend 32 &&& 0x0f) <<< 12) ||| ((b.zeroExtend 32 &&& 0x3f) <<< 6) ||| (c.zeroExtend 32 &&& 0x3f)

/-- `utf8Uint32ToChar` (utf8_util.c lines 10-15): the three bytes. -/
def utf8OfU32 (uc : BitVec 32) : List Byte :=
  [((uc >>> 12) ||| 0xe0).truncate 8, (((uc >>> 6) &&& 0x3f) ||| 0x80).truncate 8, ((uc &&& 0x3f) ||| 0x80).truncate 8]

/-- `utf8Uint32ToInt` (utf8_util.c lines 17-19): the difference is converted to `int`. -/
def utf8U32ToInt (uc : BitVec 32) : Int := (uc - 0x4E00).toInt

/-- `utf8IntToUint32` (utf8_util.c lines 21-23). -/
def utf8IntToU32 (uc : Int) : BitVec 32 := BitVec.ofInt 32 (uc + 0x4E00)

/-- `char_to_int` (utf8_util.c lines 45-55). -/
def charToInt (c : Byte) : Int :=
  if 48 ≤ c.toNat ∧ c.toNat ≤ 57 then c.toNat - 48
  else if 65 ≤ c.toNat ∧ c.toNat ≤ 90 then c.toNat - 65 + 10
  else if 97 ≤ c.toNat ∧ c.toNat ≤ 122 then c.toNat - 97 + 10
  else -1

/-- One digit of `utf8IntToCharDuodecimal` (utf8_util.c lines 64-69). -/
def duoChar (r : Nat) : Byte := if r < 10 then BitVec.ofNat 8 (48 + r) else BitVec.ofNat 8 (97 + r - 10)

/-- The first loop of `utf8IntToCharDuodecimal` (utf8_util.c lines 63-72). -/
def duoDigits (num : Nat) : List Byte := if h : num = 0 then [] else duoChar (num % 12) :: duoDigits (num / 12)
  termination_by num
  decreasing_by omega

/-- `utf8IntToCharDuodecimal` (utf8_util.c lines 57-76): the bytes that are written to `result`; none at all when
the number is out of range. -/
def duoEncode (dec : Int) : List Byte :=
  if dec > 20735 ∨ dec < 0 then []
  else duoDigits dec.toNat ++ List.replicate (5 - (duoDigits dec.toNat).length) 0x30

/-- The loop of `utf8CharDuodecimalToInt` (utf8_util.c lines 86-93) for the characters still to be read. -/
def duoLoop : List Byte → Int → Int
  | [], result => result
  | c :: cs, result =>
    if charToInt c = -1 ∨ charToInt c ≥ 12 then 0 else duoLoop cs (result * 12 + charToInt c)

/-- `utf8CharDuodecimalToInt` (utf8_util.c lines 78-95). -/
def duoDecode (duo : List Byte) : Option Int :=
  (cstr duo).bind fun s =>
  if s.length < 3 then some 0
  else
    (rdByte duo 3).bind fun d3 => (rdByte duo 2).bind fun d2 => (rdByte duo 1).bind fun d1 =>
    (rdByte duo 0).bind fun d0 => some (duoLoop [d3, d2, d1, d0] 0)

/-! ### Chinese text -/

/-- Store the bytes `bs` at offset `off`. -/
def wrBytes (buf : List Byte) (off : Nat) (bs : List Byte) : Option (List Byte) :=
  if off + bs.length ≤ buf.length then some (buf.take off ++ bs ++ buf.drop (off + bs.length)) else none

/-- Three bytes at offset `off`. -/
def rd3 (buf : List Byte) (off : Nat) : Option (Byte × Byte × Byte) :=
  (rdByte buf off).bind fun a => (rdByte buf (off + 1)).bind fun b => (rdByte buf (off + 2)).bind fun c => some (a, b, c)

/-- `uc_int` of the character at offset `off` (cn_utf8.c lines 30-31, 37-38). -/
def cnInt (cn : List Byte) (off : Nat) : Option Int :=
  (rd3 cn off).bind fun abc => some (utf8U32ToInt (utf8ToU32 abc.1 abc.2.1 abc.2.2))

/-- The variables of the first loop: arrays and the offsets of `input_p`, `tweak_p` and `ch`. -/
structure CnSplit where
  input : List Byte
  tweak : List Byte
  ip : Nat
  tp : Nat
  ch : Nat

/-- Write the digits of a hidden character (cn_utf8.c lines 30-33, 40-41). -/
def cnHide (s : CnSplit) (uc : Int) : Option CnSplit :=
  (wrBytes s.input s.ip (duoEncode uc)).bind fun b => some { s with input := b, ip := s.ip + 4, ch := s.ch + 3 }

/-- Write the digits of a visible character (cn_utf8.c lines 44-45). -/
def cnShow (s : CnSplit) (uc : Int) : Option CnSplit :=
  (wrBytes s.tweak s.tp (duoEncode uc)).bind fun b => some { s with tweak := b, tp := s.tp + 4, ch := s.ch + 3 }

/-- The first loop with a sample (cn_utf8.c lines 36-48), for the rest of the sample string. -/
def cnSplitLoop (cn : List Byte) (smp : List Byte) (s : CnSplit) : Option CnSplit :=
  match smp with
  | [] => some s
  | c :: rest =>
    (cnInt cn s.ch).bind fun uc =>
    if c = 0x2a then (cnHide s uc).bind fun s => cnSplitLoop cn rest s
    else (cnShow s uc).bind fun s => cnSplitLoop cn (rest.drop 2) s
  termination_by smp.length
  decreasing_by all_goals simp [List.length_drop]; try omega

/-- The first loop without sample (cn_utf8.c lines 29-34). -/
def cnSplitAll (cn : List Byte) (len : Nat) (s : CnSplit) : Option CnSplit :=
  (List.range len).foldlM (fun s _ => (cnInt cn s.ch).bind fun uc => cnHide s uc) s

/-- The variables of the second loop: the output and the offsets `ans_p` and `af_p` (which equals `ori_add`). -/
structure CnMerge where
  out : List Byte
  ap : Nat
  op : Nat

/-- Write an encrypted character (cn_utf8.c lines 72-75, 80-83). -/
def cnPut (ans : List Byte) (s : CnMerge) : Option CnMerge :=
  (duoDecode (ans.drop s.ap)).bind fun uc =>
  (wrBytes s.out s.op (utf8OfU32 (utf8IntToU32 uc))).bind fun o => some ⟨o, s.ap + 4, s.op + 3⟩

/-- Copy a visible character (cn_utf8.c line 86). -/
def cnCopy (cn : List Byte) (s : CnMerge) : Option CnMerge :=
  (rd3 cn s.op).bind fun abc =>
  (wrBytes s.out s.op [abc.1, abc.2.1, abc.2.2]).bind fun o => some ⟨o, s.ap, s.op + 3⟩

/-- The second loop with a sample (cn_utf8.c lines 78-89). -/
def cnMergeLoop (cn ans : List Byte) (smp : List Byte) (s : CnMerge) : Option CnMerge :=
  match smp with
  | [] => some s
  | c :: rest =>
    if c = 0x2a then (cnPut ans s).bind fun s => cnMergeLoop cn ans rest s
    else (cnCopy cn s).bind fun s => cnMergeLoop cn ans (rest.drop 2) s
  termination_by smp.length
  decreasing_by all_goals simp [List.length_drop]; try omega

/-- The second loop without sample (cn_utf8.c lines 71-76). -/
def cnMergeAll (ans : List Byte) (len : Nat) (s : CnMerge) : Option CnMerge :=
  (List.range len).foldlM (fun s _ => cnPut ans s) s

/-- `aux_fpe_cn` (cn_utf8.c lines 9-96).  A negative `tweak_len` makes the size of `tweak` negative (undefined). -/
def auxCn (app : FpeApp) (mem : AppMem) (cn sample after : List Byte) (block : FpeFn) : Option (List Byte) :=
  (cstr cn).bind fun str =>
  (cstr sample).bind fun smp =>
  let len := str.length / 3
  let stars := smp.count 0x2a
  (if smp = [] then some 0 else if stars ≤ len then some (len - stars) else none).bind fun tweakLen =>
  let s0 : CnSplit := ⟨vla mem.input ((len - tweakLen) * 4 + 1), vla mem.tweak (tweakLen * 4 + 1), 0, 0, 0⟩
  (if smp = [] then cnSplitAll cn len s0 else cnSplitLoop cn smp s0).bind fun s =>
  (wrByte s.input ((len - tweakLen) * 4) 0).bind fun input =>
  (wrByte s.tweak (tweakLen * 4) 0).bind fun tweak =>
  (fpeInit tweak 12 app.E).bind fun ctx =>
  (block ctx input (vla mem.ans ((len - tweakLen) * 4 + mem.slack))).bind fun ans =>
  (if smp = [] then cnMergeAll ans len ⟨after, 0, 0⟩ else cnMergeLoop cn ans smp ⟨after, 0, 0⟩).bind fun o =>
  some o.out

/-- `WBCRYPTO_fpe_encrypt_cn_utf8_with_sample` (cn_utf8.c lines 106-116); without sample (lines 98-100):
`sample = [0]`. -/
def encryptCn (app : FpeApp) (lg : Nat → Nat → Nat) (mem : AppMem) (cn sample after : List Byte) :
    Option (List Byte) := auxCn app mem cn sample after (encFn app lg)

/-- `WBCRYPTO_fpe_decrypt_cn_utf8_with_sample` (cn_utf8.c lines 118-128). -/
def decryptCn (app : FpeApp) (lg : Nat → Nat → Nat) (mem : AppMem) (cn sample after : List Byte) :
    Option (List Byte) := auxCn app mem cn sample after (decFn app lg)

end Verif.Model
