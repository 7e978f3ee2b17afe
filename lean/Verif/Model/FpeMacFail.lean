import Verif.Model.FpeFail

/-!
FF1-CMAC and FF3-GMAC with a block cipher that can report failure (`/repo/src/fpe/ff1_cmac.c`, `ff3_gmac.c`).

* The result of the block cipher is ignored in ff1_cmac.c lines 17, 118, 126, 138, 162 and 289, 297, 309, 332, and in ff3_gmac.c lines
  137, 234. The functions return 1.
* `gmac_gen_H` looks at it (ff3_gmac.c line 46, `WBCRYPTO_MPI_CHK`) and returns before it writes the tables, which are then zero
  (lines 108, 202); but its own result is ignored (lines 109, 203).
* `K2` is zero before the call (ff1_cmac.c lines 95, 266); `msg` is zero (line 16).
* As in `Model/FpeFail` `R` and `S` keep their contents between the rounds of the encryption (ff1_cmac.c line 99, ff3_gmac.c line 104) and are set
  to zero in every round of the decryption (ff1_cmac.c line 287, ff3_gmac.c line 232).
* `cn_1`, `M_mac` and `SS` (ff1_cmac.c lines 122, 137, 144 and 293, 308, 315) are declared inside the loop; at the beginning of round `i` they
  hold `junk i`, `mm i` and `ss i`.
* The calls are numbered from 0. Everything else is as in `Model/Fpe`.
-/
set_option autoImplicit false

namespace Verif.Model

/-- `K1` of `generate_cmac_sub_keys` (ff1_cmac.c lines 15-22); call 0. -/
def cmacK1F (E : Block → Block) (w : Faults) : Block :=
  let k := bufF E w 0 zeroBlock zeroBlock
  let s := leftShift k
  if k[0] &&& 0x80 ≠ 0 then s.set 15 (s[15] ^^^ 0x87) else s

/-- The MAC loop (ff1_cmac.c lines 123-131, 294-302): `R` and `cn_1`. -/
def cmacLoopF (E : Block → Block) (w : Faults) : Nat → Nat → Block → Block → List Byte → Block × Block
  | 0, _, R, cn, _ => (R, cn)
  | c + 1, k, R, cn, Q =>
    let R := bufF E w k (blockAt Q ^^^ R) R
    cmacLoopF E w c (k + 1) R (if c = 1 then R else cn) (Q.drop 16)

/-- Steps i-iv of one round (ff1_cmac.c lines 107-169, 278-336): `y` and `M_mac`, the number of the next call and `R`. -/
def cmacRoundYF (ctx : FpeCtx) (lg : Nat → Nat → Nat) (w : Faults) (junk mm ss : Nat → Block) (n i num : Nat) (kR : Nat × Block) :
    Option ((Nat × Block) × (Nat × Block)) :=
  let u := floor2 n 1
  let v := n - u
  let b := ff1B lg ctx.radix v
  let d := ff1D b
  let cnt := ceil2 d 4 - 1
  (ff1QBytes ctx.tweak b i num).bind fun Q =>
  let k := kR.1
  let R := bufF ctx.E w k (ff1PBlock ctx.radix u n ctx.tweak.length) kR.2
  let rc := cmacLoopF ctx.E w (Q.length / 16) (k + 1) R (junk i) Q
  let k := k + 1 + Q.length / 16
  let mac := bufF ctx.E w k (cmacLast (cmacK1F ctx.E w) rc.1 rc.2 i) (mm i)
  let S := rc.1.toList ++ ff1SLoopF ctx.E w rc.1 cnt (k + 1) 1 (ss i)
  if d ≤ S.length then some ((bin2bn (S.take d), mac), (k + 1 + cnt, rc.1)) else none

/-- One round of `WBCRYPTO_ff1_cmac_encrypt` (ff1_cmac.c lines 103-183); the first component holds `mac` as well. -/
def cmacEncryptRoundF (ctx : FpeCtx) (lg : Nat → Nat → Nat) (w : Faults) (junk mm ss : Nat → Block) (n : Nat)
    (t : (FpeSt × Block) × (Nat × Block)) (i : Nat) : Option ((FpeSt × Block) × (Nat × Block)) :=
  let s := t.1.1
  let u := floor2 n 1
  let v := n - u
  let q := powUv ctx.radix u v
  let m := if i % 2 = 1 then v else u
  (rdDigits s.out s.b (n - m)).bind fun B =>
  (cmacRoundYF ctx lg w junk mm ss n i (str2num B ctx.radix) t.2).bind fun y =>
  (rdDigits s.out s.a m).bind fun A =>
  let c := (str2num A ctx.radix + y.1.1) % (if m = u then q.1 else q.2)
  (swapPtrs s).bind fun s =>
  (wrDigits s.out s.b (num2str c ctx.radix m)).bind fun out =>
  some (({ s with out := out }, t.1.2 ^^^ y.1.2), y.2)

/-- One round of `WBCRYPTO_ff1_cmac_decrypt` (ff1_cmac.c lines 274-351): `R` is zero before the first call (line 287). -/
def cmacDecryptRoundF (ctx : FpeCtx) (lg : Nat → Nat → Nat) (w : Faults) (junk mm ss : Nat → Block) (n : Nat)
    (t : (FpeSt × Block) × (Nat × Block)) (i : Nat) : Option ((FpeSt × Block) × (Nat × Block)) :=
  let s := t.1.1
  let u := floor2 n 1
  let v := n - u
  let q := powUv ctx.radix u v
  let m := if i % 2 = 1 then v else u
  (rdDigits s.out s.a (n - m)).bind fun A =>
  (cmacRoundYF ctx lg w junk mm ss n i (str2num A ctx.radix) (t.2.1, zeroBlock)).bind fun y =>
  (rdDigits s.out s.b m).bind fun B =>
  let c := bnModSub (str2num B ctx.radix) y.1.1 (if m = u then q.1 else q.2)
  (swapPtrs s).bind fun s =>
  (wrDigits s.out s.a (num2str c ctx.radix m)).bind fun out =>
  some (({ s with out := out }, t.1.2 ^^^ y.1.2), y.2)

/-- `WBCRYPTO_ff1_cmac_encrypt` (ff1_cmac.c lines 30-200): result, output buffer and `ctx->tag`. -/
def cmacEncryptF (ctx : FpeCtx) (lg : Nat → Nat → Nat) (w : Faults) (junk mm ss : Nat → Block) (R0 : Block)
    (input output : List Byte) : Option (Nat × (List Byte × Block)) :=
  (cstr input).bind fun str =>
  let n := str.length
  (ff1Assert ctx.tweak.length (ff1B lg ctx.radix (n - floor2 n 1))).bind fun _ =>
  ((List.range 10).foldlM (cmacEncryptRoundF ctx lg w junk mm ss n)
    ((fpeStart (str.map mapChar) (floor2 n 1), zeroBlock), (1, R0))).bind fun s =>
  (invMapChars s.1.1.out output).map fun o => (1, (o, s.1.2))

/-- `WBCRYPTO_ff1_cmac_decrypt` (ff1_cmac.c lines 202-368). -/
def cmacDecryptF (ctx : FpeCtx) (lg : Nat → Nat → Nat) (w : Faults) (junk mm ss : Nat → Block)
    (input output : List Byte) : Option (Nat × (List Byte × Block)) :=
  (cstr input).bind fun str =>
  let n := str.length
  (ff1Assert ctx.tweak.length (ff1B lg ctx.radix (n - floor2 n 1))).bind fun _ =>
  ((List.range 10).reverse.foldlM (cmacDecryptRoundF ctx lg w junk mm ss n)
    ((fpeStart (str.map mapChar) (floor2 n 1), zeroBlock), (1, zeroBlock))).bind fun s =>
  (invMapChars s.1.1.out output).map fun o => (1, (o, s.1.2))

/-- The tables `HL` and `HH` after `gmac_gen_H` (ff3_gmac.c lines 40-80, 108-109, 202-203); call 0, in place. -/
def gmacGenHF (E : Block → Block) (w : Faults) : Vector (BitVec 64) 16 × Vector (BitVec 64) 16 :=
  let r := callF E w 0 zeroBlock zeroBlock
  if r.1 then gcmTables r.2 else (Vector.replicate 16 0, Vector.replicate 16 0)

/-- `M` before the first round (ff3_gmac.c lines 110-112, 204-206). -/
def gmacStartF (ctx : FpeCtx) (w : Faults) : Option Block :=
  if 16 ≤ ctx.tweak.length then
    some (gmacMultH (gmacGenHF ctx.E w).1 (gmacGenHF ctx.E w).2 (blockAt ctx.tweak))
  else none

/-- One round of `WBCRYPTO_ff3_gmac_encrypt` (ff3_gmac.c lines 114-161). -/
def gmacEncryptRoundF (ctx : FpeCtx) (lg : Nat → Nat → Nat) (w : Faults) (n : Nat) (t : (FpeSt × Block) × (Nat × Block)) (i : Nat) :
    Option ((FpeSt × Block) × (Nat × Block)) :=
  let s := t.1.1
  let u := ceil2 n 1
  let v := n - u
  let q := powUv ctx.radix u v
  let m := if i % 2 = 1 then v else u
  (rdDigits s.out s.b (n - m)).bind fun B =>
  (ff3RoundSF ctx lg w n i (str2numRev B ctx.radix) t.2).bind fun S =>
  let M := t.1.2 ^^^ gmacMultH (gmacGenHF ctx.E w).1 (gmacGenHF ctx.E w).2 S.2
  let y := bin2bn S.2.toList
  (rdDigits s.out s.a m).bind fun A =>
  let c := (str2numRev A ctx.radix + y) % (if i % 2 = 1 then q.2 else q.1)
  (swapPtrs s).bind fun s =>
  (wrDigits s.out s.b (num2strRev c ctx.radix m)).bind fun out =>
  some (({ s with out := out }, M), S)

/-- One round of `WBCRYPTO_ff3_gmac_decrypt` (ff3_gmac.c lines 210-258): `S` is zero before the call (line 232). -/
def gmacDecryptRoundF (ctx : FpeCtx) (lg : Nat → Nat → Nat) (w : Faults) (n : Nat) (t : (FpeSt × Block) × (Nat × Block)) (i : Nat) :
    Option ((FpeSt × Block) × (Nat × Block)) :=
  let s := t.1.1
  let u := ceil2 n 1
  let v := n - u
  let q := powUv ctx.radix u v
  let m := if i % 2 = 1 then v else u
  (rdDigits s.out s.a (n - m)).bind fun A =>
  (ff3RoundSF ctx lg w n i (str2numRev A ctx.radix) (t.2.1, zeroBlock)).bind fun S =>
  let M := t.1.2 ^^^ gmacMultH (gmacGenHF ctx.E w).1 (gmacGenHF ctx.E w).2 S.2
  let y := bin2bn S.2.toList
  (rdDigits s.out s.b m).bind fun B =>
  let c := bnModSub (str2numRev B ctx.radix) y (if i % 2 = 1 then q.2 else q.1)
  (swapPtrs s).bind fun s =>
  (wrDigits s.out s.a (num2strRev c ctx.radix m)).bind fun out =>
  some (({ s with out := out }, M), S)

/-- `WBCRYPTO_ff3_gmac_encrypt` (ff3_gmac.c lines 82-177). -/
def gmacEncryptF (ctx : FpeCtx) (lg : Nat → Nat → Nat) (w : Faults) (S0 : Block) (input output : List Byte) :
    Option (Nat × (List Byte × Block)) :=
  (cstr input).bind fun str =>
  let n := str.length
  (gmacStartF ctx w).bind fun M =>
  ((List.range 8).foldlM (gmacEncryptRoundF ctx lg w n) ((fpeStart (str.map mapChar) (ceil2 n 1), M), (1, S0))).bind fun s =>
  (invMapChars s.1.1.out output).map fun o => (1, (o, s.1.2))

/-- `WBCRYPTO_ff3_gmac_decrypt` (ff3_gmac.c lines 179-273). -/
def gmacDecryptF (ctx : FpeCtx) (lg : Nat → Nat → Nat) (w : Faults) (input output : List Byte) :
    Option (Nat × (List Byte × Block)) :=
  (cstr input).bind fun str =>
  let n := str.length
  (gmacStartF ctx w).bind fun M =>
  ((List.range 8).reverse.foldlM (gmacDecryptRoundF ctx lg w n)
    ((fpeStart (str.map mapChar) (ceil2 n 1), M), (1, zeroBlock))).bind fun s =>
  (invMapChars s.1.1.out output).map fun o => (1, (o, s.1.2))

end Verif.Model
