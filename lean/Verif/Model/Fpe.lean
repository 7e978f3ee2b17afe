import Verif.Model.Gcm

/-!
Model of `/repo/src/fpe` (`fpe_locl.c`, `fpe_locl.h`, `init.c`, `ff1.c`, `ff3.c`, `ff1_cmac.c`,
`ff3_gmac.c`; contexts: `/repo/include/wbcrypto/fpe.h`).

* OpenSSL `BIGNUM`s are natural numbers; `BN_mod_sub` returns the representative in `[0, m)`.
* `in`/`out` (`unsigned int` arrays) are lists of natural numbers; the pointers `A`, `B` are
  offsets into `out`.  Reading or writing outside `out` is `none`.
* `(unsigned int) ceil(k * log2(radix))` is computed in floating point by libm; its value is the
  argument `lg radix k`.
* A failing `assert` (`abort()`), an access outside an object and a C string without terminator are
  `none`.
* Machine: little endian (`is_endian.little` is 1); lengths below `2^30`, so no `int` overflow; stack and
  heap are large enough.
-/
set_option autoImplicit false

namespace Verif.Model

/-- `struct fpe_ctx` (fpe.h lines 15-22); `E` is `block` with `cipher_ctx`, `tweak` holds `tweaklen` bytes. -/
structure FpeCtx where
  E : Block → Block
  radix : Nat
  tweak : List Byte

/-- `WBCRYPTO_fpe_init` (init.c lines 5-24); `none` is the `NULL` result. -/
def fpeInit (tweak : List Byte) (radix : Nat) (E : Block → Block) : Option FpeCtx :=
  if radix < 2 ∨ radix > 36 then none else some { E := E, radix := radix, tweak := tweak }

/-- The string that starts at the beginning of `buf`: `strlen` bytes; `none` without a terminator. -/
def cstr (buf : List Byte) : Option (List Byte) :=
  if 0 ∈ buf then some (buf.takeWhile (fun c => c != 0)) else none

/-- `ceil2` (fpe_locl.h line 16). -/
def ceil2 (x bit : Nat) : Nat := (x >>> bit) + (if x % 2 ^ bit > 0 then 1 else 0)

/-- `floor2` (fpe_locl.h line 17). -/
def floor2 (x bit : Nat) : Nat := x >>> bit

/-- `pow_uv` (fpe_locl.c lines 4-22): the pair `(pow_u, pow_v)`. -/
def powUv (x u v : Nat) : Nat × Nat :=
  if u > v then (x ^ v * x, x ^ v)
  else if u = v then (x ^ u, x ^ u) else (x ^ u, x ^ u * x)

/-- One character of `map_chars` (fpe_locl.c lines 43-46); the subtraction of `'0'` wraps modulo `2^32`. -/
def mapChar (c : Byte) : Nat := if c.toNat ≥ 97 then c.toNat - 97 + 10 else (c.toNat + 2 ^ 32 - 48) % 2 ^ 32

/-- One character of `inverse_map_chars` (fpe_locl.c lines 52-55), stored in an `unsigned char`. -/
def invMapChar (r : Nat) : Byte := if r < 10 then BitVec.ofNat 8 (r + 48) else BitVec.ofNat 8 (r - 10 + 97)

/-- `inverse_map_chars` (fpe_locl.c lines 50-59): `len + 1` bytes of `str` are written. -/
def invMapChars (digits : List Nat) (str : List Byte) : Option (List Byte) :=
  if digits.length + 1 ≤ str.length then
    some (digits.map invMapChar ++ 0 :: str.drop (digits.length + 1))
  else none

/-- `str2num` (fpe_locl.c lines 62-77). -/
def str2num (X : List Nat) (radix : Nat) : Nat := X.foldl (fun y x => y * radix + x) 0

/-- `num2str` (fpe_locl.c lines 80-101): `len` digits, filled from the right. -/
def num2str (x radix : Nat) : Nat → List Nat
  | 0 => []
  | len + 1 => num2str (x / radix) radix len ++ [x % radix]

/-- `str2num_rev` (fpe_locl.c lines 114-129): the last digit is the most significant. -/
def str2numRev (X : List Nat) (radix : Nat) : Nat := X.foldr (fun x y => y * radix + x) 0

/-- `num2str_rev` (fpe_locl.c lines 132-153). -/
def num2strRev (x radix : Nat) : Nat → List Nat
  | 0 => []
  | len + 1 => x % radix :: num2strRev (x / radix) radix len

/-- `rev_bytes(X, 16)` (fpe_locl.c lines 103-111). -/
def revBytes (x : Block) : Block := Vector.ofFn fun i => x[15 - i.1]

/-- `BN_num_bytes`. -/
def bnNumBytes (x : Nat) : Nat := ((if x = 0 then 0 else x.log2 + 1) + 7) / 8

/-- `len` big-endian bytes. -/
def bytesBE (x : Nat) : Nat → List Byte
  | 0 => []
  | len + 1 => bytesBE (x / 256) len ++ [BitVec.ofNat 8 x]

/-- `BN_bn2bin`: the minimal big-endian encoding. -/
def bn2bin (x : Nat) : List Byte := bytesBE x (bnNumBytes x)

/-- `BN_bin2bn`. -/
def bin2bn (l : List Byte) : Nat := l.foldl (fun y b => y * 256 + b.toNat) 0

/-- `BN_mod_sub(a, b, m)`. -/
def bnModSub (a b m : Nat) : Nat := (((a : Int) - b) % m).toNat

/-- Sixteen bytes starting at the beginning of `l` (only used where they exist). -/
def blockAt (l : List Byte) : Block := Vector.ofFn fun i => l.getD i.1 0

/-- The digit array `out` and the pointers `A` and `B` as offsets into it. -/
structure FpeSt where
  out : List Nat
  a : Nat
  b : Nat
  deriving DecidableEq

/-- `len` digits at offset `off`. -/
def rdDigits (out : List Nat) (off len : Nat) : Option (List Nat) :=
  if off + len ≤ out.length then some ((out.drop off).take len) else none

/-- Store the digits `ds` at offset `off`. -/
def wrDigits (out : List Nat) (off : Nat) (ds : List Nat) : Option (List Nat) :=
  if off + ds.length ≤ out.length then some (out.take off ++ ds ++ out.drop (off + ds.length)) else none

/-- `assert(A != B)` and the exchange of the pointers (ff1.c lines 132-136, 280-284 and the same lines
in the other files). -/
def swapPtrs (s : FpeSt) : Option FpeSt := if s.a = s.b then none else some { s with a := s.b, b := s.a }

/-- Initial state: `A = out`, `B = out + u`. -/
def fpeStart (digits : List Nat) (u : Nat) : FpeSt := { out := digits, a := 0, b := u }

/-! ### FF1 -/

/-- `b` (ff1.c lines 29-30). -/
def ff1B (lg : Nat → Nat → Nat) (radix v : Nat) : Nat := ceil2 (lg radix v) 3

/-- `d` (ff1.c line 31). -/
def ff1D (b : Nat) : Nat := 4 * ceil2 b 2 + 4

/-- `pad` (ff1.c line 33); `-tweaklen - b - 1` is computed modulo `2^32`. -/
def ff1Pad (t b : Nat) : Nat := ((-BitVec.ofNat 32 t - BitVec.ofNat 32 b - 1#32).toNat % 16 + 16) % 16

/-- `assert(ctx->tweaklen + pad - 1 <= Qlen)` (ff1.c lines 66 and 217, ff1_cmac.c lines 92 and 263).  `tweaklen` is unsigned:
when it and `pad` are 0, the left side is `2^32 - 1` and the assertion fails; otherwise it is less than
`Qlen = tweaklen + pad + 1 + b`. -/
def ff1Assert (t b : Nat) : Option Unit := if t + ff1Pad t b = 0 then none else some ()

/-- `P` (ff1.c lines 38-61). -/
def ff1PBlock (radix u n t : Nat) : Block :=
  #v[1, 2, 1,
    BitVec.ofNat 8 ((radix * 256 + 10) >>> 24), BitVec.ofNat 8 ((radix * 256 + 10) >>> 16),
    BitVec.ofNat 8 ((radix * 256 + 10) >>> 8), BitVec.ofNat 8 (radix * 256 + 10),
    BitVec.ofNat 8 (u % 256),
    BitVec.ofNat 8 (n >>> 24), BitVec.ofNat 8 (n >>> 16), BitVec.ofNat 8 (n >>> 8), BitVec.ofNat 8 n,
    BitVec.ofNat 8 (t >>> 24), BitVec.ofNat 8 (t >>> 16), BitVec.ofNat 8 (t >>> 8), BitVec.ofNat 8 t]

/-- `Q` (ff1.c lines 63-66 and 76-83).  `Bytes` has `b` bytes: a longer encoding is written outside of
it (`none`). -/
def ff1QBytes (tweak : List Byte) (b i num : Nat) : Option (List Byte) :=
  let bytes := bn2bin num
  if bytes.length > b then none
  else some (tweak ++ List.replicate (ff1Pad tweak.length b) 0 ++ [BitVec.ofNat 8 i] ++
    List.replicate (b - bytes.length) 0 ++ bytes)

/-- The MAC loop (ff1.c lines 88-96): `count` blocks of `Q`. -/
def ff1MacLoop (E : Block → Block) : Nat → Block → List Byte → Block
  | 0, R, _ => R
  | c + 1, R, Q => ff1MacLoop E c (E (blockAt Q ^^^ R)) (Q.drop 16)

/-- `tmp` of the key stream loop before the xor (ff1.c lines 104-113). -/
def ff1Ctr (j : Nat) : Block :=
  #v[0, 0, 0, 0, 0, 0, 0, 0, 0, 0, 0, 0,
    BitVec.ofNat 8 (j >>> 24), BitVec.ofNat 8 (j >>> 16), BitVec.ofNat 8 (j >>> 8), BitVec.ofNat 8 j]

/-- `S` (ff1.c lines 98-121). -/
def ff1SBytes (E : Block → Block) (R : Block) (cnt : Nat) : List Byte :=
  R.toList ++ (List.range cnt).flatMap fun j => (E (ff1Ctr (j + 1) ^^^ R)).toList

/-- `BN_bin2bn(S, d, y)` (ff1.c line 124) with `S` of `16 + 16·cnt` bytes. -/
def ff1YOf (E : Block → Block) (R : Block) (d : Nat) : Option Nat :=
  let S := ff1SBytes E R (ceil2 d 4 - 1)
  if d ≤ S.length then some (bin2bn (S.take d)) else none

/-- Steps i-iv of one FF1 round for the number `num` (ff1.c lines 76-124 and 227-273). -/
def ff1RoundY (ctx : FpeCtx) (lg : Nat → Nat → Nat) (n i num : Nat) : Option Nat :=
  let u := floor2 n 1
  let v := n - u
  let b := ff1B lg ctx.radix v
  (ff1QBytes ctx.tweak b i num).bind fun Q =>
  let R := ff1MacLoop ctx.E (Q.length / 16) (ctx.E (ff1PBlock ctx.radix u n ctx.tweak.length)) Q
  ff1YOf ctx.E R (ff1D b)

/-- One round of `WBCRYPTO_ff1_encrypt` (ff1.c lines 72-138). -/
def ff1EncryptRound (ctx : FpeCtx) (lg : Nat → Nat → Nat) (n : Nat) (s : FpeSt) (i : Nat) : Option FpeSt :=
  let u := floor2 n 1
  let v := n - u
  let q := powUv ctx.radix u v
  let m := if i % 2 = 1 then v else u
  (rdDigits s.out s.b (n - m)).bind fun B =>
  (ff1RoundY ctx lg n i (str2num B ctx.radix)).bind fun y =>
  (rdDigits s.out s.a m).bind fun A =>
  let c := (str2num A ctx.radix + y) % (if m = u then q.1 else q.2)
  (swapPtrs s).bind fun s =>
  (wrDigits s.out s.b (num2str c ctx.radix m)).bind fun out =>
  some { s with out := out }

/-- One round of `WBCRYPTO_ff1_decrypt` (ff1.c lines 223-286). -/
def ff1DecryptRound (ctx : FpeCtx) (lg : Nat → Nat → Nat) (n : Nat) (s : FpeSt) (i : Nat) : Option FpeSt :=
  let u := floor2 n 1
  let v := n - u
  let q := powUv ctx.radix u v
  let m := if i % 2 = 1 then v else u
  (rdDigits s.out s.a (n - m)).bind fun A =>
  (ff1RoundY ctx lg n i (str2num A ctx.radix)).bind fun y =>
  (rdDigits s.out s.b m).bind fun B =>
  let c := bnModSub (str2num B ctx.radix) y (if m = u then q.1 else q.2)
  (swapPtrs s).bind fun s =>
  (wrDigits s.out s.a (num2str c ctx.radix m)).bind fun out =>
  some { s with out := out }

/-- `WBCRYPTO_ff1_encrypt` (ff1.c lines 4-154): the output buffer afterwards; the result is always 1. -/
def ff1Encrypt (ctx : FpeCtx) (lg : Nat → Nat → Nat) (input output : List Byte) : Option (List Byte) :=
  (cstr input).bind fun str =>
  let n := str.length
  (ff1Assert ctx.tweak.length (ff1B lg ctx.radix (n - floor2 n 1))).bind fun _ =>
  ((List.range 10).foldlM (ff1EncryptRound ctx lg n) (fpeStart (str.map mapChar) (floor2 n 1))).bind fun s =>
  invMapChars s.out output

/-- `WBCRYPTO_ff1_decrypt` (ff1.c lines 156-302). -/
def ff1Decrypt (ctx : FpeCtx) (lg : Nat → Nat → Nat) (input output : List Byte) : Option (List Byte) :=
  (cstr input).bind fun str =>
  let n := str.length
  (ff1Assert ctx.tweak.length (ff1B lg ctx.radix (n - floor2 n 1))).bind fun _ =>
  ((List.range 10).reverse.foldlM (ff1DecryptRound ctx lg n)
    (fpeStart (str.map mapChar) (floor2 n 1))).bind fun s =>
  invMapChars s.out output

/-! ### FF3 -/

/-- `W` (ff3.c lines 32-39, 112-119): four bytes of the tweak at offset 0 (odd rounds) or 4 (even rounds). -/
def ff3W (tweak : List Byte) (i : Nat) : Option (List Byte) :=
  let off := if i % 2 = 1 then 0 else 4
  if off + 4 ≤ tweak.length then some ((tweak.drop off).take 4) else none

/-- `P` before `rev_bytes` (ff3.c lines 41-46); `Bytes` has `b` bytes, of which at most the first twelve
are used. -/
def ff3PBytes (tweak : List Byte) (b i num : Nat) : Option (List Byte) :=
  (ff3W tweak i).bind fun W =>
  let W := W.set 3 (W.getD 3 0 ^^^ BitVec.ofNat 8 i)
  let bytes := bn2bin num
  if bytes.length > b then none
  else
    let len := if bytes.length > 12 then 12 else bytes.length
    some (W ++ List.replicate (12 - len) 0 ++ bytes.take len)

/-- `S` after `rev_bytes` (ff3.c lines 48-52, 130-135). -/
def ff3SBlock (E : Block → Block) (P : List Byte) : Block := revBytes (E (revBytes (blockAt P)))

/-- Steps i-iii of one FF3 round for the number `num`: the block `S`. -/
def ff3RoundS (ctx : FpeCtx) (lg : Nat → Nat → Nat) (n i num : Nat) : Option Block :=
  let u := ceil2 n 1
  let b := ceil2 (lg ctx.radix u) 3
  (ff3PBytes ctx.tweak b i num).bind fun P => some (ff3SBlock ctx.E P)

/-- One round of `WBCRYPTO_ff3_encrypt` (ff3.c lines 29-68). -/
def ff3EncryptRound (ctx : FpeCtx) (lg : Nat → Nat → Nat) (n : Nat) (s : FpeSt) (i : Nat) : Option FpeSt :=
  let u := ceil2 n 1
  let v := n - u
  let q := powUv ctx.radix u v
  let m := if i % 2 = 1 then v else u
  (rdDigits s.out s.b (n - m)).bind fun B =>
  (ff3RoundS ctx lg n i (str2numRev B ctx.radix)).bind fun S =>
  let y := bin2bn S.toList
  (rdDigits s.out s.a m).bind fun A =>
  let c := (str2numRev A ctx.radix + y) % (if i % 2 = 1 then q.2 else q.1)
  (swapPtrs s).bind fun s =>
  (wrDigits s.out s.b (num2strRev c ctx.radix m)).bind fun out =>
  some { s with out := out }

/-- One round of `WBCRYPTO_ff3_decrypt` (ff3.c lines 109-151). -/
def ff3DecryptRound (ctx : FpeCtx) (lg : Nat → Nat → Nat) (n : Nat) (s : FpeSt) (i : Nat) : Option FpeSt :=
  let u := ceil2 n 1
  let v := n - u
  let q := powUv ctx.radix u v
  let m := if i % 2 = 1 then v else u
  (rdDigits s.out s.a (n - m)).bind fun A =>
  (ff3RoundS ctx lg n i (str2numRev A ctx.radix)).bind fun S =>
  let y := bin2bn S.toList
  (rdDigits s.out s.b m).bind fun B =>
  let c := bnModSub (str2numRev B ctx.radix) y (if i % 2 = 1 then q.2 else q.1)
  (swapPtrs s).bind fun s =>
  (wrDigits s.out s.a (num2strRev c ctx.radix m)).bind fun out =>
  some { s with out := out }

/-- `WBCRYPTO_ff3_encrypt` (ff3.c lines 4-83). -/
def ff3Encrypt (ctx : FpeCtx) (lg : Nat → Nat → Nat) (input output : List Byte) : Option (List Byte) :=
  (cstr input).bind fun str =>
  let n := str.length
  ((List.range 8).foldlM (ff3EncryptRound ctx lg n) (fpeStart (str.map mapChar) (ceil2 n 1))).bind fun s =>
  invMapChars s.out output

/-- `WBCRYPTO_ff3_decrypt` (ff3.c lines 85-165). -/
def ff3Decrypt (ctx : FpeCtx) (lg : Nat → Nat → Nat) (input output : List Byte) : Option (List Byte) :=
  (cstr input).bind fun str =>
  let n := str.length
  ((List.range 8).reverse.foldlM (ff3DecryptRound ctx lg n)
    (fpeStart (str.map mapChar) (ceil2 n 1))).bind fun s =>
  invMapChars s.out output

/-! ### FF1 with CMAC -/

/-- `left_shift_buffer` (ff1_cmac.c lines 4-13) for 16 bytes. -/
def leftShift (x : Block) : Block :=
  Vector.ofFn fun i => (x[i] <<< 1) |||
    (if h : i.1 + 1 < 16 then (if x[i.1 + 1] &&& 0x80 ≠ 0 then 1 else 0) else (0 : Byte))

/-- `K1` of `generate_cmac_sub_keys` (ff1_cmac.c lines 15-22). -/
def cmacK1 (E : Block → Block) : Block :=
  let k := E zeroBlock
  let s := leftShift k
  if k[0] &&& 0x80 ≠ 0 then s.set 15 (s[15] ^^^ 0x87) else s

/-- The MAC loop of the CMAC variant (ff1_cmac.c lines 116-131): `R` and `cn_1`, the value of `R` after
block `count - 2`; `cn_1` keeps its previous content when there is no such block. -/
def cmacLoop (E : Block → Block) : Nat → Block → Block → List Byte → Block × Block
  | 0, R, cn, _ => (R, cn)
  | c + 1, R, cn, Q =>
    let R := E (blockAt Q ^^^ R)
    cmacLoop E c R (if c = 1 then R else cn) (Q.drop 16)

/-- `M_last` (ff1_cmac.c lines 132-136): every byte uses byte `i` of `R` and `cn_1`, `i` the round. -/
def cmacLast (K1 R cn : Block) (i : Nat) : Block :=
  Vector.ofFn fun j => K1[j] ^^^ R.getD i 0 ^^^ cn.getD i 0

/-- Steps i-iv of a round with the MAC contribution (ff1_cmac.c lines 107-169): `(y, M_mac)`.
`junk` is the content of the uninitialised array `cn_1` in this round. -/
def cmacRoundY (ctx : FpeCtx) (lg : Nat → Nat → Nat) (junk : Block) (n i num : Nat) : Option (Nat × Block) :=
  let u := floor2 n 1
  let v := n - u
  let b := ff1B lg ctx.radix v
  (ff1QBytes ctx.tweak b i num).bind fun Q =>
  let rc := cmacLoop ctx.E (Q.length / 16) (ctx.E (ff1PBlock ctx.radix u n ctx.tweak.length)) junk Q
  let mac := ctx.E (cmacLast (cmacK1 ctx.E) rc.1 rc.2 i)
  (ff1YOf ctx.E rc.1 (ff1D b)).bind fun y => some (y, mac)

/-- One round of `WBCRYPTO_ff1_cmac_encrypt` (ff1_cmac.c lines 103-183); the second component is `mac`. -/
def cmacEncryptRound (ctx : FpeCtx) (lg : Nat → Nat → Nat) (junk : Nat → Block) (n : Nat)
    (sm : FpeSt × Block) (i : Nat) : Option (FpeSt × Block) :=
  let s := sm.1
  let u := floor2 n 1
  let v := n - u
  let q := powUv ctx.radix u v
  let m := if i % 2 = 1 then v else u
  (rdDigits s.out s.b (n - m)).bind fun B =>
  (cmacRoundY ctx lg (junk i) n i (str2num B ctx.radix)).bind fun yt =>
  (rdDigits s.out s.a m).bind fun A =>
  let c := (str2num A ctx.radix + yt.1) % (if m = u then q.1 else q.2)
  (swapPtrs s).bind fun s =>
  (wrDigits s.out s.b (num2str c ctx.radix m)).bind fun out =>
  some ({ s with out := out }, sm.2 ^^^ yt.2)

/-- One round of `WBCRYPTO_ff1_cmac_decrypt` (ff1_cmac.c lines 274-351). -/
def cmacDecryptRound (ctx : FpeCtx) (lg : Nat → Nat → Nat) (junk : Nat → Block) (n : Nat)
    (sm : FpeSt × Block) (i : Nat) : Option (FpeSt × Block) :=
  let s := sm.1
  let u := floor2 n 1
  let v := n - u
  let q := powUv ctx.radix u v
  let m := if i % 2 = 1 then v else u
  (rdDigits s.out s.a (n - m)).bind fun A =>
  (cmacRoundY ctx lg (junk i) n i (str2num A ctx.radix)).bind fun yt =>
  (rdDigits s.out s.b m).bind fun B =>
  let c := bnModSub (str2num B ctx.radix) yt.1 (if m = u then q.1 else q.2)
  (swapPtrs s).bind fun s =>
  (wrDigits s.out s.a (num2str c ctx.radix m)).bind fun out =>
  some ({ s with out := out }, sm.2 ^^^ yt.2)

/-- `WBCRYPTO_ff1_cmac_encrypt` (ff1_cmac.c lines 30-200): the output buffer and `ctx->tag`
(which `WBCRYPTO_ff1_cmac_finish`, lines 370-374, copies out). -/
def cmacEncrypt (ctx : FpeCtx) (lg : Nat → Nat → Nat) (junk : Nat → Block) (input output : List Byte) :
    Option (List Byte × Block) :=
  (cstr input).bind fun str =>
  let n := str.length
  (ff1Assert ctx.tweak.length (ff1B lg ctx.radix (n - floor2 n 1))).bind fun _ =>
  ((List.range 10).foldlM (cmacEncryptRound ctx lg junk n)
    (fpeStart (str.map mapChar) (floor2 n 1), zeroBlock)).bind fun sm =>
  (invMapChars sm.1.out output).bind fun o => some (o, sm.2)

/-- `WBCRYPTO_ff1_cmac_decrypt` (ff1_cmac.c lines 202-368). -/
def cmacDecrypt (ctx : FpeCtx) (lg : Nat → Nat → Nat) (junk : Nat → Block) (input output : List Byte) :
    Option (List Byte × Block) :=
  (cstr input).bind fun str =>
  let n := str.length
  (ff1Assert ctx.tweak.length (ff1B lg ctx.radix (n - floor2 n 1))).bind fun _ =>
  ((List.range 10).reverse.foldlM (cmacDecryptRound ctx lg junk n)
    (fpeStart (str.map mapChar) (floor2 n 1), zeroBlock)).bind fun sm =>
  (invMapChars sm.1.out output).bind fun o => some (o, sm.2)

/-! ### FF3 with GMAC -/

/-- `gmac_mult_H` (ff3_gmac.c lines 4-38): the statements of `gcm_mult` (gcm128.c lines 3-39). -/
def gmacMultH (HL HH : Vector (BitVec 64) 16) (x : Block) : Block := gcmMult HL HH x

/-- `gmac_gen_H` (ff3_gmac.c lines 40-80): the statements of the table construction in
`WBCRYPTO_gcm_init` (gcm128.c lines 63-91). -/
def gmacGenH (E : Block → Block) : Vector (BitVec 64) 16 × Vector (BitVec 64) 16 := gcmTables (E zeroBlock)

/-- `M` before the first round (ff3_gmac.c lines 107-112, 201-206): the first 16 bytes of the tweak, multiplied. -/
def gmacStart (ctx : FpeCtx) : Option Block :=
  if 16 ≤ ctx.tweak.length then
    some (gmacMultH (gmacGenH ctx.E).1 (gmacGenH ctx.E).2 (blockAt ctx.tweak))
  else none

/-- One round of `WBCRYPTO_ff3_gmac_encrypt` (ff3_gmac.c lines 114-161). -/
def gmacEncryptRound (ctx : FpeCtx) (lg : Nat → Nat → Nat) (n : Nat) (sm : FpeSt × Block) (i : Nat) :
    Option (FpeSt × Block) :=
  let s := sm.1
  let u := ceil2 n 1
  let v := n - u
  let q := powUv ctx.radix u v
  let m := if i % 2 = 1 then v else u
  (rdDigits s.out s.b (n - m)).bind fun B =>
  (ff3RoundS ctx lg n i (str2numRev B ctx.radix)).bind fun S =>
  let M := sm.2 ^^^ gmacMultH (gmacGenH ctx.E).1 (gmacGenH ctx.E).2 S
  let y := bin2bn S.toList
  (rdDigits s.out s.a m).bind fun A =>
  let c := (str2numRev A ctx.radix + y) % (if i % 2 = 1 then q.2 else q.1)
  (swapPtrs s).bind fun s =>
  (wrDigits s.out s.b (num2strRev c ctx.radix m)).bind fun out =>
  some ({ s with out := out }, M)

/-- One round of `WBCRYPTO_ff3_gmac_decrypt` (ff3_gmac.c lines 210-258). -/
def gmacDecryptRound (ctx : FpeCtx) (lg : Nat → Nat → Nat) (n : Nat) (sm : FpeSt × Block) (i : Nat) :
    Option (FpeSt × Block) :=
  let s := sm.1
  let u := ceil2 n 1
  let v := n - u
  let q := powUv ctx.radix u v
  let m := if i % 2 = 1 then v else u
  (rdDigits s.out s.a (n - m)).bind fun A =>
  (ff3RoundS ctx lg n i (str2numRev A ctx.radix)).bind fun S =>
  let M := sm.2 ^^^ gmacMultH (gmacGenH ctx.E).1 (gmacGenH ctx.E).2 S
  let y := bin2bn S.toList
  (rdDigits s.out s.b m).bind fun B =>
  let c := bnModSub (str2numRev B ctx.radix) y (if i % 2 = 1 then q.2 else q.1)
  (swapPtrs s).bind fun s =>
  (wrDigits s.out s.a (num2strRev c ctx.radix m)).bind fun out =>
  some ({ s with out := out }, M)

/-- `WBCRYPTO_ff3_gmac_encrypt` (ff3_gmac.c lines 82-177): the output buffer and `ctx->tag`. -/
def gmacEncrypt (ctx : FpeCtx) (lg : Nat → Nat → Nat) (input output : List Byte) :
    Option (List Byte × Block) :=
  (cstr input).bind fun str =>
  let n := str.length
  (gmacStart ctx).bind fun M =>
  ((List.range 8).foldlM (gmacEncryptRound ctx lg n)
    (fpeStart (str.map mapChar) (ceil2 n 1), M)).bind fun sm =>
  (invMapChars sm.1.out output).bind fun o => some (o, sm.2)

/-- `WBCRYPTO_ff3_gmac_decrypt` (ff3_gmac.c lines 179-273). -/
def gmacDecrypt (ctx : FpeCtx) (lg : Nat → Nat → Nat) (input output : List Byte) :
    Option (List Byte × Block) :=
  (cstr input).bind fun str =>
  let n := str.length
  (gmacStart ctx).bind fun M =>
  ((List.range 8).reverse.foldlM (gmacDecryptRound ctx lg n)
    (fpeStart (str.map mapChar) (ceil2 n 1), M)).bind fun sm =>
  (invMapChars sm.1.out output).bind fun o => some (o, sm.2)

end Verif.Model
