import Verif.Model.CipherFail
import Verif.Model.Fpe

/-!
FF1 and FF3 with a block cipher that can report failure (`/repo/src/fpe/ff1.c`, `ff3.c`). `block128_f` returns an `int`, which these
functions do not look at: `(*ctx->block)(P, R, ctx->cipher_ctx)` (ff1.c lines 87, 94, 117 and 238, 245, 267; ff3.c lines 51, 134).
They go on with whatever the output buffer holds, and return 1.

* `R` of the encryption (ff1.c line 68) and `S` of the encryption (ff3.c line 26) are declared before the loop over the rounds and keep their contents
  between the rounds; at the beginning they hold what the stack held (`R0`, `S0`). The decryption functions set `R` and `S` to
  zero in every round (ff1.c line 236, ff3.c line 132).
* `SS` (ff1.c lines 99, 250) is declared inside the loop; at the beginning of round `i` it holds `ss i`.
* The calls are numbered from 0. Everything else is as in `Model/Fpe`.
-/
set_option autoImplicit false

namespace Verif.Model

/-- The output buffer after call `k`, which held `old` before; the result of the call is ignored. -/
def bufF (E : Block → Block) (w : Faults) (k : Nat) (x old : Block) : Block := (callF E w k x old).2

/-- The MAC loop (ff1.c lines 91-96, 242-247); `k` is the number of the next call. -/
def ff1MacLoopF (E : Block → Block) (w : Faults) : Nat → Nat → Block → List Byte → Block
  | 0, _, R, _ => R
  | c + 1, k, R, Q => ff1MacLoopF E w c (k + 1) (bufF E w k (blockAt Q ^^^ R) R) (Q.drop 16)

/-- The key stream loop (ff1.c lines 103-121, 253-270) from `j` on: the bytes stored behind the first sixteen of `S`. -/
def ff1SLoopF (E : Block → Block) (w : Faults) (R : Block) : Nat → Nat → Nat → Block → List Byte
  | 0, _, _, _ => []
  | c + 1, k, j, SS =>
    let SS' := bufF E w k (ff1Ctr j ^^^ R) SS
    SS'.toList ++ ff1SLoopF E w R c (k + 1) (j + 1) SS'

/-- Steps i-iv of one FF1 round for the number `num` (ff1.c lines 76-124, 227-273): `y`, the number of the next call, and `R`. -/
def ff1RoundYF (ctx : FpeCtx) (lg : Nat → Nat → Nat) (w : Faults) (ss : Nat → Block) (n i num : Nat) (kR : Nat × Block) :
    Option (Nat × (Nat × Block)) :=
  let u := floor2 n 1
  let v := n - u
  let b := ff1B lg ctx.radix v
  let d := ff1D b
  let cnt := ceil2 d 4 - 1
  (ff1QBytes ctx.tweak b i num).bind fun Q =>
  let k := kR.1
  let R := bufF ctx.E w k (ff1PBlock ctx.radix u n ctx.tweak.length) kR.2
  let R := ff1MacLoopF ctx.E w (Q.length / 16) (k + 1) R Q
  let k := k + 1 + Q.length / 16
  let S := R.toList ++ ff1SLoopF ctx.E w R cnt k 1 (ss i)
  if d ≤ S.length then some (bin2bn (S.take d), (k + cnt, R)) else none

/-- One round of `WBCRYPTO_ff1_encrypt` (ff1.c lines 72-138). -/
def ff1EncryptRoundF (ctx : FpeCtx) (lg : Nat → Nat → Nat) (w : Faults) (ss : Nat → Block) (n : Nat) (t : FpeSt × (Nat × Block))
    (i : Nat) : Option (FpeSt × (Nat × Block)) :=
  let s := t.1
  let u := floor2 n 1
  let v := n - u
  let q := powUv ctx.radix u v
  let m := if i % 2 = 1 then v else u
  (rdDigits s.out s.b (n - m)).bind fun B =>
  (ff1RoundYF ctx lg w ss n i (str2num B ctx.radix) t.2).bind fun y =>
  (rdDigits s.out s.a m).bind fun A =>
  let c := (str2num A ctx.radix + y.1) % (if m = u then q.1 else q.2)
  (swapPtrs s).bind fun s =>
  (wrDigits s.out s.b (num2str c ctx.radix m)).bind fun out =>
  some ({ s with out := out }, y.2)

/-- One round of `WBCRYPTO_ff1_decrypt` (ff1.c lines 223-286): `R` is zero before the first call (line 236). -/
def ff1DecryptRoundF (ctx : FpeCtx) (lg : Nat → Nat → Nat) (w : Faults) (ss : Nat → Block) (n : Nat) (t : FpeSt × (Nat × Block))
    (i : Nat) : Option (FpeSt × (Nat × Block)) :=
  let s := t.1
  let u := floor2 n 1
  let v := n - u
  let q := powUv ctx.radix u v
  let m := if i % 2 = 1 then v else u
  (rdDigits s.out s.a (n - m)).bind fun A =>
  (ff1RoundYF ctx lg w ss n i (str2num A ctx.radix) (t.2.1, zeroBlock)).bind fun y =>
  (rdDigits s.out s.b m).bind fun B =>
  let c := bnModSub (str2num B ctx.radix) y.1 (if m = u then q.1 else q.2)
  (swapPtrs s).bind fun s =>
  (wrDigits s.out s.a (num2str c ctx.radix m)).bind fun out =>
  some ({ s with out := out }, y.2)

/-- `WBCRYPTO_ff1_encrypt` (ff1.c lines 4-154): result and output buffer. -/
def ff1EncryptF (ctx : FpeCtx) (lg : Nat → Nat → Nat) (w : Faults) (ss : Nat → Block) (R0 : Block) (input output : List Byte) :
    Option (Nat × List Byte) :=
  (cstr input).bind fun str =>
  let n := str.length
  (ff1Assert ctx.tweak.length (ff1B lg ctx.radix (n - floor2 n 1))).bind fun _ =>
  ((List.range 10).foldlM (ff1EncryptRoundF ctx lg w ss n) (fpeStart (str.map mapChar) (floor2 n 1), (0, R0))).bind fun s =>
  (invMapChars s.1.out output).map fun o => (1, o)

/-- `WBCRYPTO_ff1_decrypt` (ff1.c lines 156-302). -/
def ff1DecryptF (ctx : FpeCtx) (lg : Nat → Nat → Nat) (w : Faults) (ss : Nat → Block) (input output : List Byte) :
    Option (Nat × List Byte) :=
  (cstr input).bind fun str =>
  let n := str.length
  (ff1Assert ctx.tweak.length (ff1B lg ctx.radix (n - floor2 n 1))).bind fun _ =>
  ((List.range 10).reverse.foldlM (ff1DecryptRoundF ctx lg w ss n)
    (fpeStart (str.map mapChar) (floor2 n 1), (0, zeroBlock))).bind fun s =>
  (invMapChars s.1.out output).map fun o => (1, o)

/-- Steps i-iii of one FF3 round (ff3.c lines 30-52, 111-134): the call writes to `S`, which is then reversed in place. -/
def ff3RoundSF (ctx : FpeCtx) (lg : Nat → Nat → Nat) (w : Faults) (n i num : Nat) (kS : Nat × Block) : Option (Nat × Block) :=
  let u := ceil2 n 1
  let b := ceil2 (lg ctx.radix u) 3
  (ff3PBytes ctx.tweak b i num).bind fun P =>
  some (kS.1 + 1, revBytes (bufF ctx.E w kS.1 (revBytes (blockAt P)) kS.2))

/-- One round of `WBCRYPTO_ff3_encrypt` (ff3.c lines 29-68). -/
def ff3EncryptRoundF (ctx : FpeCtx) (lg : Nat → Nat → Nat) (w : Faults) (n : Nat) (t : FpeSt × (Nat × Block)) (i : Nat) :
    Option (FpeSt × (Nat × Block)) :=
  let s := t.1
  let u := ceil2 n 1
  let v := n - u
  let q := powUv ctx.radix u v
  let m := if i % 2 = 1 then v else u
  (rdDigits s.out s.b (n - m)).bind fun B =>
  (ff3RoundSF ctx lg w n i (str2numRev B ctx.radix) t.2).bind fun S =>
  let y := bin2bn S.2.toList
  (rdDigits s.out s.a m).bind fun A =>
  let c := (str2numRev A ctx.radix + y) % (if i % 2 = 1 then q.2 else q.1)
  (swapPtrs s).bind fun s =>
  (wrDigits s.out s.b (num2strRev c ctx.radix m)).bind fun out =>
  some ({ s with out := out }, S)

/-- One round of `WBCRYPTO_ff3_decrypt` (ff3.c lines 109-151): `S` is zero before the call (line 132). -/
def ff3DecryptRoundF (ctx : FpeCtx) (lg : Nat → Nat → Nat) (w : Faults) (n : Nat) (t : FpeSt × (Nat × Block)) (i : Nat) :
    Option (FpeSt × (Nat × Block)) :=
  let s := t.1
  let u := ceil2 n 1
  let v := n - u
  let q := powUv ctx.radix u v
  let m := if i % 2 = 1 then v else u
  (rdDigits s.out s.a (n - m)).bind fun A =>
  (ff3RoundSF ctx lg w n i (str2numRev A ctx.radix) (t.2.1, zeroBlock)).bind fun S =>
  let y := bin2bn S.2.toList
  (rdDigits s.out s.b m).bind fun B =>
  let c := bnModSub (str2numRev B ctx.radix) y (if i % 2 = 1 then q.2 else q.1)
  (swapPtrs s).bind fun s =>
  (wrDigits s.out s.a (num2strRev c ctx.radix m)).bind fun out =>
  some ({ s with out := out }, S)

/-- `WBCRYPTO_ff3_encrypt` (ff3.c lines 4-83). -/
def ff3EncryptF (ctx : FpeCtx) (lg : Nat → Nat → Nat) (w : Faults) (S0 : Block) (input output : List Byte) :
    Option (Nat × List Byte) :=
  (cstr input).bind fun str =>
  let n := str.length
  ((List.range 8).foldlM (ff3EncryptRoundF ctx lg w n) (fpeStart (str.map mapChar) (ceil2 n 1), (0, S0))).bind fun s =>
  (invMapChars s.1.out output).map fun o => (1, o)

/-- `WBCRYPTO_ff3_decrypt` (ff3.c lines 85-165). -/
def ff3DecryptF (ctx : FpeCtx) (lg : Nat → Nat → Nat) (w : Faults) (input output : List Byte) :
    Option (Nat × List Byte) :=
  (cstr input).bind fun str =>
  let n := str.length
  ((List.range 8).reverse.foldlM (ff3DecryptRoundF ctx lg w n)
    (fpeStart (str.map mapChar) (ceil2 n 1), (0, zeroBlock))).bind fun s =>
  (invMapChars s.1.out output).map fun o => (1, o)

end Verif.Model
