import Verif.Model.Fpe

/-!
Model of `/repo/src/fpe` compiled with `NDEBUG` (CMake's build type `Release`): every `assert` is gone (ff1.c lines 66, 101, 118,
119, 133, 217, 268, 281; ff1_cmac.c lines 92, 146, 163, 164, 178, 263, 333, 346; ff3.c lines 62, 145; ff3_gmac.c lines 155, 252).
Those on `S` and `Slen` hold whatever the input (`S` has just been set to zero), so that only the assertion on `Q` and
`assert(A != B)` are left out here. Exchanging equal pointers with three xors leaves them equal. Arrays of length zero (`in` and
`out` of the empty string, ff1.c line 20) are undefined.
-/
set_option autoImplicit false

namespace Verif.Model

/-- The exchange of the pointers without the assertion before it (ff1.c lines 134-136 and the same lines in the other files). -/
def swapAlways (s : FpeSt) : FpeSt := { s with a := s.b, b := s.a }

/-- The C string at the beginning of `input`, to be held in arrays of its length (ff1.c lines 19-20). -/
def cstrArr (input : List Byte) : Option (List Byte) :=
  (cstr input).bind fun str => if str = [] then none else some str

/-- One round of `WBCRYPTO_ff1_encrypt` (ff1.c lines 72-138). -/
def ff1EncryptRoundRel (ctx : FpeCtx) (lg : Nat → Nat → Nat) (n : Nat) (s : FpeSt) (i : Nat) : Option FpeSt :=
  let u := floor2 n 1
  let v := n - u
  let q := powUv ctx.radix u v
  let m := if i % 2 = 1 then v else u
  (rdDigits s.out s.b (n - m)).bind fun B =>
  (ff1RoundY ctx lg n i (str2num B ctx.radix)).bind fun y =>
  (rdDigits s.out s.a m).bind fun A =>
  let c := (str2num A ctx.radix + y) % (if m = u then q.1 else q.2)
  let s := swapAlways s
  (wrDigits s.out s.b (num2str c ctx.radix m)).bind fun out =>
  some { s with out := out }

/-- One round of `WBCRYPTO_ff1_decrypt` (ff1.c lines 223-286). -/
def ff1DecryptRoundRel (ctx : FpeCtx) (lg : Nat → Nat → Nat) (n : Nat) (s : FpeSt) (i : Nat) : Option FpeSt :=
  let u := floor2 n 1
  let v := n - u
  let q := powUv ctx.radix u v
  let m := if i % 2 = 1 then v else u
  (rdDigits s.out s.a (n - m)).bind fun A =>
  (ff1RoundY ctx lg n i (str2num A ctx.radix)).bind fun y =>
  (rdDigits s.out s.b m).bind fun B =>
  let c := bnModSub (str2num B ctx.radix) y (if m = u then q.1 else q.2)
  let s := swapAlways s
  (wrDigits s.out s.a (num2str c ctx.radix m)).bind fun out =>
  some { s with out := out }

/-- `WBCRYPTO_ff1_encrypt` (ff1.c lines 4-154). -/
def ff1EncryptRel (ctx : FpeCtx) (lg : Nat → Nat → Nat) (input output : List Byte) : Option (List Byte) :=
  (cstrArr input).bind fun str =>
  let n := str.length
  ((List.range 10).foldlM (ff1EncryptRoundRel ctx lg n) (fpeStart (str.map mapChar) (floor2 n 1))).bind fun s =>
  invMapChars s.out output

/-- `WBCRYPTO_ff1_decrypt` (ff1.c lines 156-302). -/
def ff1DecryptRel (ctx : FpeCtx) (lg : Nat → Nat → Nat) (input output : List Byte) : Option (List Byte) :=
  (cstrArr input).bind fun str =>
  let n := str.length
  ((List.range 10).reverse.foldlM (ff1DecryptRoundRel ctx lg n) (fpeStart (str.map mapChar) (floor2 n 1))).bind fun s =>
  invMapChars s.out output

/-- One round of `WBCRYPTO_ff3_encrypt` (ff3.c lines 29-68). -/
def ff3EncryptRoundRel (ctx : FpeCtx) (lg : Nat → Nat → Nat) (n : Nat) (s : FpeSt) (i : Nat) : Option FpeSt :=
  let u := ceil2 n 1
  let v := n - u
  let q := powUv ctx.radix u v
  let m := if i % 2 = 1 then v else u
  (rdDigits s.out s.b (n - m)).bind fun B =>
  (ff3RoundS ctx lg n i (str2numRev B ctx.radix)).bind fun S =>
  let y := bin2bn S.toList
  (rdDigits s.out s.a m).bind fun A =>
  let c := (str2numRev A ctx.radix + y) % (if i % 2 = 1 then q.2 else q.1)
  let s := swapAlways s
  (wrDigits s.out s.b (num2strRev c ctx.radix m)).bind fun out =>
  some { s with out := out }

/-- One round of `WBCRYPTO_ff3_decrypt` (ff3.c lines 109-151). -/
def ff3DecryptRoundRel (ctx : FpeCtx) (lg : Nat → Nat → Nat) (n : Nat) (s : FpeSt) (i : Nat) : Option FpeSt :=
  let u := ceil2 n 1
  let v := n - u
  let q := powUv ctx.radix u v
  let m := if i % 2 = 1 then v else u
  (rdDigits s.out s.a (n - m)).bind fun A =>
  (ff3RoundS ctx lg n i (str2numRev A ctx.radix)).bind fun S =>
  let y := bin2bn S.toList
  (rdDigits s.out s.b m).bind fun B =>
  let c := bnModSub (str2numRev B ctx.radix) y (if i % 2 = 1 then q.2 else q.1)
  let s := swapAlways s
  (wrDigits s.out s.a (num2strRev c ctx.radix m)).bind fun out =>
  some { s with out := out }

/-- `WBCRYPTO_ff3_encrypt` (ff3.c lines 4-83). -/
def ff3EncryptRel (ctx : FpeCtx) (lg : Nat → Nat → Nat) (input output : List Byte) : Option (List Byte) :=
  (cstrArr input).bind fun str =>
  let n := str.length
  ((List.range 8).foldlM (ff3EncryptRoundRel ctx lg n) (fpeStart (str.map mapChar) (ceil2 n 1))).bind fun s =>
  invMapChars s.out output

/-- `WBCRYPTO_ff3_decrypt` (ff3.c lines 85-165). -/
def ff3DecryptRel (ctx : FpeCtx) (lg : Nat → Nat → Nat) (input output : List Byte) : Option (List Byte) :=
  (cstrArr input).bind fun str =>
  let n := str.length
  ((List.range 8).reverse.foldlM (ff3DecryptRoundRel ctx lg n) (fpeStart (str.map mapChar) (ceil2 n 1))).bind fun s =>
  invMapChars s.out output

/-- One round of `WBCRYPTO_ff1_cmac_encrypt` (ff1_cmac.c lines 103-183). -/
def cmacEncryptRoundRel (ctx : FpeCtx) (lg : Nat → Nat → Nat) (junk : Nat → Block) (n : Nat)
    (sm : FpeSt × Block) (i : Nat) : Option (FpeSt × Block) :=
  let s := sm.1
  let u := floor2 n 1
  let v := n - u
  let q := powUv ctx.radix u v
  let m := if i % 2 = 1 then v else u
  (rdDigits s.out s.b (n - m)).bind fun B =>
  (cmacRoundY ctx lg (junk i) n i (str2num B ctx.radix)).bind fun yt =>
  (rdDigits s.out s.a m).bind fun A =>
  let c := (str2num A ctx.radix + yt.1) % (if m = u then q.1 else q.2)
  let s := swapAlways s
  (wrDigits s.out s.b (num2str c ctx.radix m)).bind fun out =>
  some ({ s with out := out }, sm.2 ^^^ yt.2)

/-- One round of `WBCRYPTO_ff1_cmac_decrypt` (ff1_cmac.c lines 274-351). -/
def cmacDecryptRoundRel (ctx : FpeCtx) (lg : Nat → Nat → Nat) (junk : Nat → Block) (n : Nat)
    (sm : FpeSt × Block) (i : Nat) : Option (FpeSt × Block) :=
  let s := sm.1
  let u := floor2 n 1
  let v := n - u
  let q := powUv ctx.radix u v
  let m := if i % 2 = 1 then v else u
  (rdDigits s.out s.a (n - m)).bind fun A =>
  (cmacRoundY ctx lg (junk i) n i (str2num A ctx.radix)).bind fun yt =>
  (rdDigits s.out s.b m).bind fun B =>
  let c := bnModSub (str2num B ctx.radix) yt.1 (if m = u then q.1 else q.2)
  let s := swapAlways s
  (wrDigits s.out s.a (num2str c ctx.radix m)).bind fun out =>
  some ({ s with out := out }, sm.2 ^^^ yt.2)

/-- `WBCRYPTO_ff1_cmac_encrypt` (ff1_cmac.c lines 30-200). -/
def cmacEncryptRel (ctx : FpeCtx) (lg : Nat → Nat → Nat) (junk : Nat → Block) (input output : List Byte) :
    Option (List Byte × Block) :=
  (cstrArr input).bind fun str =>
  let n := str.length
  ((List.range 10).foldlM (cmacEncryptRoundRel ctx lg junk n)
    (fpeStart (str.map mapChar) (floor2 n 1), zeroBlock)).bind fun sm =>
  (invMapChars sm.1.out output).bind fun o => some (o, sm.2)

/-- `WBCRYPTO_ff1_cmac_decrypt` (ff1_cmac.c lines 202-368). -/
def cmacDecryptRel (ctx : FpeCtx) (lg : Nat → Nat → Nat) (junk : Nat → Block) (input output : List Byte) :
    Option (List Byte × Block) :=
  (cstrArr input).bind fun str =>
  let n := str.length
  ((List.range 10).reverse.foldlM (cmacDecryptRoundRel ctx lg junk n)
    (fpeStart (str.map mapChar) (floor2 n 1), zeroBlock)).bind fun sm =>
  (invMapChars sm.1.out output).bind fun o => some (o, sm.2)

/-- One round of `WBCRYPTO_ff3_gmac_encrypt` (ff3_gmac.c lines 114-161). -/
def gmacEncryptRoundRel (ctx : FpeCtx) (lg : Nat → Nat → Nat) (n : Nat) (sm : FpeSt × Block) (i : Nat) :
    Option (FpeSt × Block) :=
  let s := sm.1
  let u := ceil2 n 1
  let v := n - u
  let q := powUv ctx.radix u v
  let m := if i % 2 = 1 then v else u
  (rdDigits s.out s.b (n - m)).bind fun B =>
  (ff3RoundS ctx lg n i (str2numRev B ctx.radix)).bind fun S =>
  let M := sm.2 ^^^ gmacMultH (gmacGenH ctx.E).1 (gmacGenH ctx.E).2 S
  let y := bin2bn S.toList
  (rdDigits s.out s.a m).bind fun A =>
  let c := (str2numRev A ctx.radix + y) % (if i % 2 = 1 then q.2 else q.1)
  let s := swapAlways s
  (wrDigits s.out s.b (num2strRev c ctx.radix m)).bind fun out =>
  some ({ s with out := out }, M)

/-- One round of `WBCRYPTO_ff3_gmac_decrypt` (ff3_gmac.c lines 210-258). -/
def gmacDecryptRoundRel (ctx : FpeCtx) (lg : Nat → Nat → Nat) (n : Nat) (sm : FpeSt × Block) (i : Nat) :
    Option (FpeSt × Block) :=
  let s := sm.1
  let u := ceil2 n 1
  let v := n - u
  let q := powUv ctx.radix u v
  let m := if i % 2 = 1 then v else u
  (rdDigits s.out s.a (n - m)).bind fun A =>
  (ff3RoundS ctx lg n i (str2numRev A ctx.radix)).bind fun S =>
  let M := sm.2 ^^^ gmacMultH (gmacGenH ctx.E).1 (gmacGenH ctx.E).2 S
  let y := bin2bn S.toList
  (rdDigits s.out s.b m).bind fun B =>
  let c := bnModSub (str2numRev B ctx.radix) y (if i % 2 = 1 then q.2 else q.1)
  let s := swapAlways s
  (wrDigits s.out s.a (num2strRev c ctx.radix m)).bind fun out =>
  some ({ s with out := out }, M)

/-- `WBCRYPTO_ff3_gmac_encrypt` (ff3_gmac.c lines 82-177). -/
def gmacEncryptRel (ctx : FpeCtx) (lg : Nat → Nat → Nat) (input output : List Byte) :
    Option (List Byte × Block) :=
  (cstrArr input).bind fun str =>
  let n := str.length
  (gmacStart ctx).bind fun M =>
  ((List.range 8).foldlM (gmacEncryptRoundRel ctx lg n)
    (fpeStart (str.map mapChar) (ceil2 n 1), M)).bind fun sm =>
  (invMapChars sm.1.out output).bind fun o => some (o, sm.2)

/-- `WBCRYPTO_ff3_gmac_decrypt` (ff3_gmac.c lines 179-273). -/
def gmacDecryptRel (ctx : FpeCtx) (lg : Nat → Nat → Nat) (input output : List Byte) :
    Option (List Byte × Block) :=
  (cstrArr input).bind fun str =>
  let n := str.length
  (gmacStart ctx).bind fun M =>
  ((List.range 8).reverse.foldlM (gmacDecryptRoundRel ctx lg n)
    (fpeStart (str.map mapChar) (ceil2 n 1), M)).bind fun sm =>
  (invMapChars sm.1.out output).bind fun o => some (o, sm.2)

end Verif.Model
