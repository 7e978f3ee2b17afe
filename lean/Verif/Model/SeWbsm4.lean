import Verif.Model.Wbsm4
import Verif.Model.SeTables

/-!
Model of `/repo/src/se_wbsm4/se_wbsm4.c` (white-box SM4 from self-equivalences of the S-box).
Random choices as in `Verif.Model.Wbsm4`: one arbitrary stream per library call.
-/
set_option autoImplicit false

namespace Verif.Model

/-- An entry of `SE_A` or `SE_B` as an `Aff8`. -/
def seAff (n : Nat) : Aff 8 := ⟨Vector.ofFn fun i => BitVec.ofNat 8 (n >>> (64 - 8 * i.1)), BitVec.ofNat 8 n⟩

/-- `A[k]`, `B[k]`; the arrays have 2039 entries. -/
def seA (k : Nat) : Aff 8 := seAff (SE_A.getD k 0)
def seB (k : Nat) : Aff 8 := seAff (SE_B.getD k 0)

/-- Random values used by `WBCRYPTO_se_wbsm4_gen_table`. -/
structure SeRnd where
  /-- streams of `genaffinepairM32(&P[i], ..)` -/
  p : Nat → Nat → BitVec 32
  /-- `cus_random()` for `a0 .. a3` (lines 47-50) -/
  a : Nat → Fin 4 → BitVec 32
  /-- `temp_u32` (line 73) -/
  t : Nat → BitVec 32

/-- `struct se_wbsm4_context` (se_wbsm4.h). -/
structure SeCtx where
  M : Fin 32 → Fin 3 → Aff 32
  C : Fin 32 → Aff 32
  D : Fin 32 → Aff 32
  SE : Fin 4 → Aff 32
  FE : Fin 4 → Aff 32

namespace SeRnd
variable (r : SeRnd)

/-- `P[i]`, `P_inv[i]` (lines 40-43). -/
def P (i : Nat) : Aff 32 := (genaffinepair 32 (r.p i) 0).1
def Pinv (i : Nat) : Aff 32 := (genaffinepair 32 (r.p i) 0).2.1

/-- `a0 .. a3` (lines 47-50). -/
def idx (i : Nat) (j : Fin 4) : Nat := (r.a i j).toNat % 2039

/-- `AA[i]`, `BB[i]` (lines 51-52). -/
def AA (i : Nat) : Aff 32 := affinecom8to32 (seA (r.idx i 0)) (seA (r.idx i 1)) (seA (r.idx i 2)) (seA (r.idx i 3))
def BB (i : Nat) : Aff 32 := affinecom8to32 (seB (r.idx i 0)) (seB (r.idx i 1)) (seB (r.idx i 2)) (seB (r.idx i 3))

end SeRnd

/-- `WBCRYPTO_se_wbsm4_gen_table` (lines 20-91). -/
def seGenTable (r : SeRnd) (mode : EncMode) (key : List Byte) : SeCtx :=
  let rk := sm4InitKey key mode
  { M := fun i k =>
      let K : Aff 32 := ⟨identityM 32, rk[i]⟩
      affinemix (r.AA i.1) (affinemix K (r.Pinv (i.1 + 1 + k.1)))
    C := fun i =>
      let c := affinemix (r.P (i.1 + 4)) (r.Pinv i.1)
      { c with vec := c.vec ^^^ r.t i.1 }
    D := fun i =>
      let L : Aff 32 := ⟨SE_L, 0⟩
      let d := affinemix (r.P (i.1 + 4)) (affinemix L (r.BB i.1))
      { d with vec := d.vec ^^^ ((r.P (i.1 + 4)).vec ^^^ r.t i.1) }
    SE := fun i => r.P i.1
    FE := fun i => r.Pinv (35 - i.1) }

/-- The four lookups in `sm4_sbox` (lines 113-114). -/
def seSub (x : BitVec 32) : BitVec 32 :=
  ((SE_SBOX[((x >>> 24).truncate 8).toFin]).zeroExtend 32 <<< 24) |||
    ((SE_SBOX[((x >>> 16).truncate 8).toFin]).zeroExtend 32 <<< 16) |||
    ((SE_SBOX[((x >>> 8).truncate 8).toFin]).zeroExtend 32 <<< 8) ||| (SE_SBOX[(x.truncate 8).toFin]).zeroExtend 32

/-- Body of the loop of `WBCRYPTO_se_wbsm4_encrypt` (lines 108-122). -/
def seStep (ctx : SeCtx) (s : B4) (i : Fin 32) : B4 :=
  let xt1 := affineU (ctx.M i 0) s.b1
  let xt2 := affineU (ctx.M i 1) s.b2
  let xt3 := affineU (ctx.M i 2) s.b3
  let x4 := seSub (xt1 ^^^ xt2 ^^^ xt3)
  let x4 := affineU (ctx.C i) s.b0 ^^^ affineU (ctx.D i) x4
  ⟨s.b1, s.b2, s.b3, x4⟩

/-- `WBCRYPTO_se_wbsm4_encrypt` (lines 93-135). -/
def seEncrypt (ctx : SeCtx) (x : Block) : Block :=
  let s : B4 := ⟨affineU (ctx.SE 0) (get32 x 0), affineU (ctx.SE 1) (get32 x 1), affineU (ctx.SE 2) (get32 x 2),
    affineU (ctx.SE 3) (get32 x 3)⟩
  let s := (List.finRange 32).foldl (seStep ctx) s
  storeU32 (affineU (ctx.FE 0) s.b3) ++ storeU32 (affineU (ctx.FE 1) s.b2) ++ storeU32 (affineU (ctx.FE 2) s.b1) ++
    storeU32 (affineU (ctx.FE 3) s.b0)

/-- `WBCRYPTO_se_wbsm4_decrypt` (lines 137-139). -/
def seDecrypt (ctx : SeCtx) (x : Block) : Block := seEncrypt ctx x

end Verif.Model
