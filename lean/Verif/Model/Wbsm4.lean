import Verif.Model.Wbsm4Tables
import Verif.Model.Shuffle
import Verif.Model.Sm4

/-!
Model of `/repo/src/wbsm4/wbsm4.c`, `wbsm4_gen.c` and `wbsm4_modes.c`.

Random choices: every library call that produces a random affine pair reseeds its generator (`InitRandom`), so each
call gets its own arbitrary stream of 32-bit values here.  `x << 24` for a byte `x` is taken as the bit pattern gcc gives.
-/
set_option autoImplicit false

namespace Verif.Model

/-- Four tables of 256 words, one per byte of the input word. -/
abbrev Tab4 := Fin 4 → Byte → BitVec 32

/-- `T[0][(x >> 24) & 0xff] ^ T[1][(x >> 16) & 0xff] ^ T[2][(x >> 8) & 0xff] ^ T[3][x & 0xff]` (wbsm4.c lines 62-87). -/
def Tab4.look (T : Tab4) (x : BitVec 32) : BitVec 32 :=
  T 0 ((x >>> 24).truncate 8) ^^^ T 1 ((x >>> 16).truncate 8) ^^^ T 2 ((x >>> 8).truncate 8) ^^^ T 3 (x.truncate 8)

/-- The tables `MM[i]`, `CC[i]`, `DD[i]`, `Table[i]` of one round. -/
structure WbRound where
  mm : Fin 3 → Tab4
  cc : Tab4
  dd : Tab4
  table : Tab4

/-- `struct wbsm4_context` (wbsm4.h); `rounds` is the length of `rnds`. -/
structure Wbsm4Ctx where
  rnds : List WbRound
  encmode : EncMode
  se : Fin 4 → Tab4
  fe : Fin 4 → Tab4

/-! ### table generation -/

/-- Random values used by `WBCRYPTO_wbsm4_gen_table`. -/
structure Wbsm4Rnd where
  /-- `wRandomShuffleU8` in `wbsm4_gen_dummyround_array` -/
  shuf : Nat → BitVec 32
  /-- streams of `genaffinepairM32(&P[i], ..)` -/
  p : Nat → Nat → BitVec 32
  /-- streams of `genaffinepairM8(&Eij[i][j], ..)` -/
  e : Nat → Fin 4 → Nat → BitVec 32
  /-- streams of `genaffinepairM32(&Q[i], ..)` -/
  q : Nat → Nat → BitVec 32
  /-- `temp_u32` of line 162 -/
  t : Nat → BitVec 32
  /-- `Q_constant` for `MM` of round `i` (line 177) -/
  q1 : Nat → Fin 3 → BitVec 32
  /-- `Q_constant` for `CC`, `DD` (line 197) -/
  q2 : Nat → Fin 3 → BitVec 32
  /-- `Q_constant` for `Table` (line 218) -/
  q3 : Nat → Fin 3 → BitVec 32
  /-- `Q_constant` for the external encodings (line 253) -/
  qx : Fin 3 → BitVec 32

namespace Wbsm4Rnd
variable (r : Wbsm4Rnd)

/-- `P[i]`, `P_inv[i]` (lines 134-138). -/
def P (i : Nat) : Aff 32 := (genaffinepair 32 (r.p i) 0).1
def Pinv (i : Nat) : Aff 32 := (genaffinepair 32 (r.p i) 0).2.1

/-- `Eij[i][j]`, `Eij_inv[i][j]` (lines 143-146). -/
def E (i : Nat) (j : Fin 4) : Aff 8 := (genaffinepair 8 (r.e i j) 0).1
def Einv (i : Nat) (j : Fin 4) : Aff 8 := (genaffinepair 8 (r.e i j) 0).2.1

/-- `Ei_inv[i]` (line 149). -/
def EiInv (i : Nat) : Aff 32 := affinecom8to32 (r.Einv i 0) (r.Einv i 1) (r.Einv i 2) (r.Einv i 3)

/-- `M[i][k]` (lines 152-154). -/
def M (i : Nat) (k : Fin 3) : Aff 32 := affinemix (r.EiInv i) (r.Pinv (i + 1 + k.1))

/-- `Q[i]`, `Q_inv[i]` (line 157). -/
def Q (i : Nat) : Aff 32 := (genaffinepair 32 (r.q i) 0).1
def Qinv (i : Nat) : Aff 32 := (genaffinepair 32 (r.q i) 0).2.1

/-- `C[i]` (lines 160 and 163). -/
def C (i : Nat) : Aff 32 :=
  let c := affinemix (r.P (i + 4)) (r.Pinv i)
  { c with vec := c.vec ^^^ r.t i }

/-- `D[i]` (lines 161 and 164). -/
def D (i : Nat) : Aff 32 :=
  let d := affinemix (r.P (i + 4)) (r.Qinv i)
  { d with vec := d.vec ^^^ ((r.P (i + 4)).vec ^^^ r.t i) }

end Wbsm4Rnd

/-- `x << (24 - j * 8)`. -/
def byteAt (j : Fin 4) (x : Byte) : BitVec 32 := x.zeroExtend 32 <<< (24 - j.1 * 8)

/-- The constants xored into the four tables: `Q_constant[j]` for `j < 3`, `vec ^ Q_constant[0..2]` for `j = 3`. -/
def maskTab (q : Fin 3 → BitVec 32) (vec : BitVec 32) (f : Tab4) : Tab4 := fun j x =>
  if h : j.1 < 3 then f j x ^^^ q ⟨j.1, h⟩ else f j x ^^^ (vec ^^^ q 0 ^^^ q 1 ^^^ q 2)

/-- Tables of an affine map (lines 176-194 for `MM`, 196-211 for `CC` and `DD`, 251-273 for `SE` and `FE`). -/
def affTab (q : Fin 3 → BitVec 32) (a : Aff 32) : Tab4 := maskTab q a.vec fun j x => affineU a (byteAt j x)

/-- `Table[i]` (lines 215-232) for `point = p`. -/
def sboxTab (q : Fin 3 → BitVec 32) (e : Fin 4 → Aff 8) (Q : Aff 32) (rk : BitVec 32) : Tab4 :=
  maskTab q Q.vec fun j x =>
    matMulNum (matMulMat Q.mat WBSM4_L)
      (byteAt j (WBSM4_SBOX[(affineU (e j) x ^^^ (rk >>> (24 - j.1 * 8)).truncate 8).toFin]))

/-- Tables of round `i` when `dummy_array[i] == 0` (lines 171-233) for `point = p`. -/
def realRound (r : Wbsm4Rnd) (rk : Sm4Ctx) (i : Nat) (p : Fin 32) : WbRound where
  mm k := affTab (r.q1 i) (r.M p.1 k)
  cc := affTab (r.q2 i) (r.C p.1)
  dd := affTab (r.q2 i) (r.D p.1)
  table := sboxTab (r.q3 i) (r.E p.1) (r.Q p.1) rk[p]

/-- Tables of round `i` when `dummy_array[i] != 0` (lines 234-246): `MM[i]` and `DD[i]` keep the content `malloc` left. -/
def dummyRound (junk : WbRound) : WbRound where
  mm := junk.mm
  cc := fun j x => byteAt j x
  dd := junk.dd
  table := fun _ _ => 0

/-- The round loop (lines 167-248) from index `i` on; `none` when the arrays of size 32 are read at a wrong index. -/
def genRounds (r : Wbsm4Rnd) (rk : Sm4Ctx) (junk : Nat → WbRound) : List Byte → Nat → Nat → Bool → Option (List WbRound)
  | [], _, _, _ => some []
  | d :: ds, i, point, flag =>
    if d = 0 then
      if flag = true ∧ point < 4 then none
      else
        let point := if flag then point - 4 else point
        if h : point < 32 then
          (genRounds r rk junk ds (i + 1) (point + 1) false).map (realRound r rk i ⟨point, h⟩ :: ·)
        else none
    else (genRounds r rk junk ds (i + 1) (point + 1) true).map (dummyRound (junk i) :: ·)

/-- Expansion of a shuffled array: each 1 becomes four 1s (lines 88-100). -/
def expandDummy (da : List Byte) : List Byte := da.flatMap fun d => if d ≠ 0 then [1, 1, 1, 1] else [d]

/-- `wbsm4_gen_dummyround_array(32, dummyrounds)` (lines 82-103). -/
def dummyArray (shuf : Nat → BitVec 32) (dummyrounds : Nat) : Option (List Byte) :=
  (randomShuffleU8 shuf (List.replicate 32 0 ++ List.replicate dummyrounds 1)).map expandDummy

/-- The part of `WBCRYPTO_wbsm4_gen_table` after the dummy array has been chosen. -/
def genTableWith (r : Wbsm4Rnd) (junk : Nat → WbRound) (mode : EncMode) (key : List Byte) (dummies : List Byte) :
    Option Wbsm4Ctx :=
  (genRounds r (sm4InitKey key mode) junk dummies 0 0 false).map fun rs =>
    { rnds := rs, encmode := mode
      se := fun i => affTab r.qx (r.P i.1)
      fe := fun i => affTab r.qx (r.Pinv (35 - i.1)) }

/-- `WBCRYPTO_wbsm4_context_init(encmode, dummyrounds)` (wbsm4.c lines 3-45) followed by
`WBCRYPTO_wbsm4_gen_table(ctx, key, keylen)` (wbsm4_gen.c lines 105-279). -/
def wbsm4GenTable (r : Wbsm4Rnd) (junk : Nat → WbRound) (mode : EncMode) (dummyrounds : Nat) (key : List Byte) :
    Option Wbsm4Ctx :=
  (dummyArray r.shuf dummyrounds).bind (genTableWith r junk mode key)

/-! ### encryption -/

/-- `GET32` (wbsm4_local.h lines 6-10): the bytes xored, not ored. -/
def get32 (b : Block) (n : Nat) (h : n < 4 := by decide) : BitVec 32 :=
  (b[4 * n].zeroExtend 32 <<< 24) ^^^ (b[4 * n + 1].zeroExtend 32 <<< 16) ^^^
    (b[4 * n + 2].zeroExtend 32 <<< 8) ^^^ b[4 * n + 3].zeroExtend 32

/-- Body of the loop of `WBCRYPTO_wbsm4_encrypt` (wbsm4.c lines 67-82). -/
def wbRoundStep (s : B4) (T : WbRound) : B4 :=
  let xt1 := (T.mm 0).look s.b1
  let xt2 := (T.mm 1).look s.b2
  let xt3 := (T.mm 2).look s.b3
  let x4 := T.table.look (xt1 ^^^ xt2 ^^^ xt3)
  let x4 := T.cc.look s.b0 ^^^ T.dd.look x4
  ⟨s.b1, s.b2, s.b3, x4⟩

/-- `WBCRYPTO_wbsm4_encrypt` (wbsm4.c lines 51-96). -/
def wbsm4Encrypt (ctx : Wbsm4Ctx) (x : Block) : Block :=
  let s : B4 := ⟨(ctx.se 0).look (get32 x 0), (ctx.se 1).look (get32 x 1), (ctx.se 2).look (get32 x 2),
    (ctx.se 3).look (get32 x 3)⟩
  let s := ctx.rnds.foldl wbRoundStep s
  storeU32 ((ctx.fe 0).look s.b3) ++ storeU32 ((ctx.fe 1).look s.b2) ++ storeU32 ((ctx.fe 2).look s.b1) ++
    storeU32 ((ctx.fe 3).look s.b0)

/-- `WBCRYPTO_wbsm4_decrypt` (wbsm4.c lines 98-99). -/
def wbsm4Decrypt (ctx : Wbsm4Ctx) (x : Block) : Block := wbsm4Encrypt ctx x

end Verif.Model
