import Verif.Lemmas.Gf2
import Verif.Props.Sm4
import Verif.Props.Matrix
import Verif.Model.Wbsm4

/-! Lemmas on the word tables of white-box SM4. -/
set_option autoImplicit false
set_option linter.unusedSimpArgs false

namespace Verif
open Spec Model Props

theorem foldl_additive {n : Nat} (f : BitVec n → BitVec n) (hf : ∀ x y, f (x ^^^ y) = f x ^^^ f y) (c : Nat → Bool)
    (e : Nat → BitVec n) (l : List Nat) (z : BitVec n) :
    f (l.foldl (fun t i => if c i then t ^^^ e i else t) z) =
      l.foldl (fun t i => if c i then t ^^^ f (e i) else t) (f z) := by
  induction l generalizing z with
  | nil => rfl
  | cons a l ih =>
    simp only [List.foldl_cons]
    rw [ih]
    cases c a <;> simp [hf]

/-- Additive maps that agree on the unit vectors agree. -/
theorem additive_ext {n : Nat} [WSize n] [LawfulWSize n] (f g : BitVec n → BitVec n)
    (hf : ∀ x y, f (x ^^^ y) = f x ^^^ f y) (hg : ∀ x y, g (x ^^^ y) = g x ^^^ g y)
    (h : ∀ i : Fin n, f (idRow n i.1) = g (idRow n i.1)) (x : BitVec n) : f x = g x := by
  have hx : x = (List.range n).foldl (fun t i => if bits x i then t ^^^ idRow n i else t) 0 :=
    bits_ext fun k hk => (bits_select (bits x) hk).symm
  have h0 : ∀ f : BitVec n → BitVec n, (∀ x y, f (x ^^^ y) = f x ^^^ f y) → f 0 = 0 := by
    intro f hf
    have := hf 0 0
    rw [BitVec.xor_self, BitVec.xor_self] at this
    exact this
  rw [hx, foldl_additive f hf, foldl_additive g hg, h0 f hf, h0 g hg]
  have key : ∀ (l : List Nat), (∀ i ∈ l, i < n) → ∀ z : BitVec n,
      l.foldl (fun t i => if bits x i then t ^^^ f (idRow n i) else t) z =
      l.foldl (fun t i => if bits x i then t ^^^ g (idRow n i) else t) z := by
    intro l
    induction l with
    | nil => intro _ _; rfl
    | cons a l ih =>
      intro hl z
      simp only [List.foldl_cons]
      rw [show f (idRow n a) = g (idRow n a) from h ⟨a, hl a (by simp)⟩]
      exact ih (fun i hi => hl i (by simp [hi])) _
  exact key _ (fun i hi => List.mem_range.mp hi) 0

theorem lmat_unit : ∀ i : Fin 32, matMulNum WBSM4_L (idRow 32 i.1) = sm4L (idRow 32 i.1) := by decide +kernel

/-- The table `L_matrix` is the linear map `L` of the standard. -/
theorem lmat_eq (x : BitVec 32) : matMulNum WBSM4_L x = sm4L x :=
  additive_ext _ _ (matMulNum_xor _) sm4L_xor lmat_unit x

theorem wbSbox_eq (x : Byte) : WBSM4_SBOX[x.toFin] = sm4Sbox x := by
  have h : ∀ x : BitVec 8, WBSM4_SBOX[x.toFin] = sm4Sbox x := by decide +kernel
  exact h x

theorem xor_left_comm32 (a b c : BitVec 32) : a ^^^ (b ^^^ c) = b ^^^ (a ^^^ c) := by ac_rfl

theorem xor_cancel (a b : BitVec 32) : a ^^^ (a ^^^ b) = b := by
  rw [← BitVec.xor_assoc, BitVec.xor_self, BitVec.zero_xor]

theorem byteAt_vals (a b c d : Byte) :
    byteAt 0 a ^^^ byteAt 1 b ^^^ byteAt 2 c ^^^ byteAt 3 d =
      (a.zeroExtend 32 <<< 24) ^^^ (b.zeroExtend 32 <<< 16) ^^^ (c.zeroExtend 32 <<< 8) ^^^ d.zeroExtend 32 := by
  have h3 : byteAt 3 d = d.zeroExtend 32 := BitVec.shiftLeft_zero _
  rw [h3]
  rfl

/-- The four bytes of a word, put back. -/
theorem byteAt_sum (x : BitVec 32) :
    byteAt 0 ((x >>> 24).truncate 8) ^^^ byteAt 1 ((x >>> 16).truncate 8) ^^^ byteAt 2 ((x >>> 8).truncate 8) ^^^
      byteAt 3 (x.truncate 8) = x := by
  have h := append4_extract x
  rw [← or4_eq_append, or4_eq_xor] at h
  rw [byteAt_vals]
  simp only [trunc_shift]
  rw [trunc_zero]
  exact h

theorem look_maskTab (q : Fin 3 → BitVec 32) (vec : BitVec 32) (f : Tab4) (x : BitVec 32) :
    (maskTab q vec f).look x = f.look x ^^^ vec := by
  unfold Tab4.look maskTab
  simp only [show ((0 : Fin 4) : Nat) < 3 by decide, show ((1 : Fin 4) : Nat) < 3 by decide,
    show ((2 : Fin 4) : Nat) < 3 by decide, show ¬ ((3 : Fin 4) : Nat) < 3 by decide, dite_true, dite_false]
  generalize f 0 _ = a, f 1 _ = b, f 2 _ = c, f 3 _ = d
  have h0 : q ⟨((0 : Fin 4) : Nat), by decide⟩ = q 0 := rfl
  have h1 : q ⟨((1 : Fin 4) : Nat), by decide⟩ = q 1 := rfl
  have h2 : q ⟨((2 : Fin 4) : Nat), by decide⟩ = q 2 := rfl
  rw [h0, h1, h2]
  generalize q 0 = q0, q 1 = q1, q 2 = q2
  simp only [BitVec.xor_assoc, BitVec.xor_comm, xor_left_comm32, xor_cancel, BitVec.xor_self, BitVec.xor_zero]

/-- Lookup in the tables of an affine map evaluates the map. -/
theorem look_affTab (q : Fin 3 → BitVec 32) (a : Aff 32) (x : BitVec 32) : (affTab q a).look x = affineU a x := by
  unfold affTab
  rw [look_maskTab]
  conv => rhs; rw [← byteAt_sum x]
  unfold Tab4.look affineU
  simp only [matMulNum_xor]
  simp only [BitVec.xor_assoc, BitVec.xor_comm, xor_left_comm32, xor_cancel, BitVec.xor_self, BitVec.xor_zero]

theorem affineU_xor3 (a : Aff 32) (x y z : BitVec 32) :
    affineU a x ^^^ affineU a y ^^^ affineU a z = affineU a (x ^^^ y ^^^ z) := by
  unfold affineU
  simp only [matMulNum_xor]
  simp only [BitVec.xor_assoc, BitVec.xor_comm, xor_left_comm32, xor_cancel, BitVec.xor_self, BitVec.xor_zero]

theorem trunc_xor (x y : BitVec 32) : (x ^^^ y).truncate 8 = x.truncate 8 ^^^ y.truncate 8 := by
  ext i hi; simp

theorem shift_xor (x y : BitVec 32) (k : Nat) : (x ^^^ y) >>> k = (x >>> k) ^^^ (y >>> k) := by
  ext i hi; simp

theorem byteAt_app (a b c d : Byte) :
    byteAt 0 a ^^^ byteAt 1 b ^^^ byteAt 2 c ^^^ byteAt 3 d = ((a ++ b) ++ (c ++ d) : BitVec 32) := by
  rw [← or4_eq_append, or4_eq_xor, byteAt_vals]

theorem append4_assoc (a b c d : Byte) : (a ++ b ++ c ++ d : BitVec 32) = ((a ++ b) ++ (c ++ d) : BitVec 32) := by
  ext i hi
  have : i < 8 ∨ 8 ≤ i ∧ i < 16 ∨ 16 ≤ i ∧ i < 24 ∨ 24 ≤ i := by omega
  rcases this with h | h | h | h <;> simp [h, BitVec.getElem_append] <;> grind

/-- Bytes of a combined affine map. -/
theorem com_bytes (a : Fin 4 → Aff 8) (x : BitVec 32) :
    let y := affineU (affinecom8to32 (a 0) (a 1) (a 2) (a 3)) x
    (y >>> 24).truncate 8 = affineU (a 0) ((x >>> 24).truncate 8) ∧
    (y >>> 16).truncate 8 = affineU (a 1) ((x >>> 16).truncate 8) ∧
    (y >>> 8).truncate 8 = affineU (a 2) ((x >>> 8).truncate 8) ∧
    y.truncate 8 = affineU (a 3) (x.truncate 8) := by
  intro y
  have hx : x = ((x >>> 24).truncate 8 ++ (x >>> 16).truncate 8 ++ (x >>> 8).truncate 8 ++ x.truncate 8 : BitVec 32) := by
    rw [append4_assoc]
    simp only [trunc_shift]
    rw [trunc_zero, append4_extract]
  have hy : y = ((affineU (a 0) ((x >>> 24).truncate 8) ++ affineU (a 1) ((x >>> 16).truncate 8)) ++
      (affineU (a 2) ((x >>> 8).truncate 8) ++ affineU (a 3) (x.truncate 8)) : BitVec 32) := by
    rw [← append4_assoc, ← affineU_com, ← hx]
  have h := extract_append4 (affineU (a 0) ((x >>> 24).truncate 8)) (affineU (a 1) ((x >>> 16).truncate 8))
    (affineU (a 2) ((x >>> 8).truncate 8)) (affineU (a 3) (x.truncate 8))
  rw [← hy] at h
  unfold wordBytes at h
  rw [trunc_shift y, trunc_shift y, trunc_shift y, trunc_zero y]
  have h0 := congrArg (fun v : Vector Byte 4 => v[0]) h
  have h1 := congrArg (fun v : Vector Byte 4 => v[1]) h
  have h2 := congrArg (fun v : Vector Byte 4 => v[2]) h
  have h3 := congrArg (fun v : Vector Byte 4 => v[3]) h
  exact ⟨h0, h1, h2, h3⟩

/-- Lookup in `Table[i]` at the encoded sum: `Q (L (tau (z ^ rk)))`. -/
theorem look_sboxTab (q : Fin 3 → BitVec 32) (e einv : Fin 4 → Aff 8)
    (hE : ∀ j, Inverse (affineU (e j)) (affineU (einv j))) (Q : Aff 32) (rk z : BitVec 32) :
    (sboxTab q e Q rk).look (affineU (affinecom8to32 (einv 0) (einv 1) (einv 2) (einv 3)) z) =
      affineU Q (sm4T (z ^^^ rk)) := by
  obtain ⟨h0, h1, h2, h3⟩ := com_bytes einv z
  unfold sboxTab
  rw [look_maskTab]
  unfold Tab4.look
  rw [h0, h1, h2, h3]
  simp only [(hE _).2, matMulNum_matMulMat, lmat_eq, wbSbox_eq]
  rw [← matMulNum_xor, ← matMulNum_xor, ← matMulNum_xor, ← sm4L_xor, ← sm4L_xor, ← sm4L_xor, byteAt_app]
  unfold affineU sm4T sm4Tau
  have hb : ∀ k, (z >>> k).truncate 8 ^^^ (rk >>> k).truncate 8 = (z ^^^ rk).extractLsb' k 8 := by
    intro k
    rw [← trunc_xor, ← shift_xor, trunc_shift]
  rw [← hb 24, ← hb 16, ← hb 8, ← hb 0]
  rfl

/-- `C` and `D` together: the new word in encoded form. -/
theorem cd_sum (p pinv0 qinv : Aff 32) (t x0 v : BitVec 32) :
    affineU { affinemix p pinv0 with vec := (affinemix p pinv0).vec ^^^ t } x0 ^^^
      affineU { affinemix p qinv with vec := (affinemix p qinv).vec ^^^ (p.vec ^^^ t) } v =
    affineU p (affineU pinv0 x0 ^^^ affineU qinv v) := by
  have hv : ∀ (a : Aff 32) (w x : BitVec 32), affineU { a with vec := a.vec ^^^ w } x = affineU a x ^^^ w := by
    intro a w x
    simp only [affineU, BitVec.xor_assoc]
  rw [hv, hv, affineU_affinemix, affineU_affinemix]
  unfold affineU
  simp only [matMulNum_xor]
  simp only [BitVec.xor_assoc, BitVec.xor_comm, xor_left_comm32, xor_cancel, BitVec.xor_self, BitVec.xor_zero]

theorem get32_eq (b : Block) (n : Nat) (h : n < 4) : get32 b n h = loadU32 b n h := (or4_eq_xor _ _ _ _).symm

end Verif
