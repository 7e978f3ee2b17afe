import Verif.Props.Matrix
import Verif.Model.Seed
import Mathlib.LinearAlgebra.Matrix.GeneralLinearGroup.Card
import Mathlib.Algebra.Field.ZMod
import Mathlib.SetTheory.Cardinal.Finite
import Mathlib.Algebra.BigOperators.Fin

/-! Property C104: which invertible matrices the generators of the white-box tables give, and how often. -/
set_option autoImplicit false

namespace Verif.Props
open Verif Spec Model

variable {n : Nat} [WSize n] [LawfulWSize n]

/-- Invertible: some map undoes the multiplication. -/
def Invertible' (M : Mat n) : Prop := ∃ g, Inverse (matMulNum M) g

/-- Bits as elements of the field with two elements. -/
def f2 (b : Bool) : ZMod 2 := if b then 1 else 0

theorem f2_inj : Function.Injective f2 := by decide
theorem f2_xor : ∀ a b : Bool, f2 (a ^^ b) = f2 a + f2 b := by decide
theorem f2_and : ∀ a b : Bool, f2 (a && b) = f2 a * f2 b := by decide
theorem f2_onto : ∀ z : ZMod 2, ∃ b, f2 b = z := by decide

theorem f2_gsum (m : Nat) (f : Nat → Bool) : f2 (gsum m f) = ∑ i : Fin m, f2 (f i.1) := by
  induction m with
  | zero => rfl
  | succ m ih => rw [gsum, f2_xor, ih, Fin.sum_univ_castSucc]; rfl

/-- The matrix as Mathlib writes it. -/
def toMatrix (M : Mat n) : Matrix (Fin n) (Fin n) (ZMod 2) := fun i j => f2 (mbit M i.1 j.1)

theorem toMatrix_inj : Function.Injective (toMatrix (n := n)) := by
  intro A B h
  apply mat_ext
  intro i j hi hj
  exact f2_inj (congrFun (congrFun h ⟨i, hi⟩) ⟨j, hj⟩)

theorem toMatrix_onto : Function.Surjective (toMatrix (n := n)) := by
  intro A
  choose b hb using f2_onto
  refine ⟨Vector.ofFn fun i : Fin n => (List.range n).foldl
    (fun t j => if (if hj : j < n then b (A i ⟨j, hj⟩) else false) then t ^^^ idRow n j else t) 0, ?_⟩
  funext i j
  rw [toMatrix, mbit, row_ofFn _ i.2, bits_select (fun j => if hj : j < n then b (A i ⟨j, hj⟩) else false) j.2, dif_pos j.2, hb]

theorem toMatrix_mul (A B : Mat n) : toMatrix (matMulMat A B) = toMatrix A * toMatrix B := by
  funext i j
  rw [Matrix.mul_apply, toMatrix, mbit_matMulMat A B i.2 j.2, f2_gsum]
  refine Finset.sum_congr rfl fun k _ => ?_
  rw [f2_and]
  rfl

theorem toMatrix_one : toMatrix (identityM n) = 1 := by
  funext i j
  rw [toMatrix, mbit_identity i.2, Matrix.one_apply]
  by_cases h : i = j
  · subst h; simp [f2]
  · have : i.1 ≠ j.1 := fun e => h (Fin.ext e)
    simp [f2, h, this]

theorem isUnit_iff (M : Mat n) : IsUnit (toMatrix M) ↔ Invertible' M := by
  constructor
  · rintro ⟨u, hu⟩
    obtain ⟨N, hN⟩ := toMatrix_onto (n := n) (u⁻¹ : (Matrix (Fin n) (Fin n) (ZMod 2))ˣ).1
    have h1 : matMulMat M N = identityM n := toMatrix_inj (by rw [toMatrix_mul, hN, ← hu, toMatrix_one]; exact u.mul_inv)
    have h2 : matMulMat N M = identityM n := toMatrix_inj (by rw [toMatrix_mul, hN, ← hu, toMatrix_one]; exact u.inv_mul)
    refine ⟨matMulNum N, fun x => ?_, fun x => ?_⟩
    · rw [← matMulNum_matMulMat, h2, matMulNum_identity]
    · rw [← matMulNum_matMulMat, h1, matMulNum_identity]
  · intro h
    have hc := C64_matrix_inverse n M
    have hi := hc.2 (hc.1.2 h)
    have h1 : matMulMat M (invsM M) = identityM n := mat_eq_of_action fun x => by
      rw [matMulNum_matMulMat, matMulNum_identity, hi.2]
    have h2 : matMulMat (invsM M) M = identityM n := mat_eq_of_action fun x => by
      rw [matMulNum_matMulMat, matMulNum_identity, hi.1]
    exact ⟨⟨toMatrix M, toMatrix (invsM M), by rw [← toMatrix_mul, h1, toMatrix_one], by rw [← toMatrix_mul, h2, toMatrix_one]⟩, rfl⟩

/-- C104: the number of invertible matrices. -/
theorem C104_count : Nat.card {M : Mat n // Invertible' M} = ∏ i : Fin n, (2 ^ n - 2 ^ i.1) := by
  have h := Matrix.card_GL_field (𝔽 := ZMod 2) n
  rw [ZMod.card] at h
  rw [← h]
  refine Nat.card_congr (Equiv.ofBijective (fun M => ((isUnit_iff M.1).2 M.2).unit) ⟨?_, ?_⟩)
  · intro A B e
    exact Subtype.ext (toMatrix_inj (congrArg Units.val e))
  · intro u
    obtain ⟨M, hM⟩ := toMatrix_onto (n := n) u.1
    exact ⟨⟨M, (isUnit_iff M).1 ⟨u, hM.symm⟩⟩, Units.ext hM⟩

theorem gen_forward (rnd : Nat → BitVec 32) (g : Gen n) (m : Nat) (s : Mat n)
    (h : (List.range m).foldlM (fun s i => pivotStep id applyRowOp i s) g.temp = some s) :
    ((List.range m).foldl (fun s i => (pivotStep Gen.temp Gen.log i s).getD (genFail rnd i s)) g).temp = s ∧
    ((List.range m).foldl (fun s i => (pivotStep Gen.temp Gen.log i s).getD (genFail rnd i s)) g).invertible = g.invertible := by
  induction m generalizing s with
  | zero => simp at h; exact ⟨h, rfl⟩
  | succ m ih =>
    rw [List.range_succ, List.foldlM_append] at h
    cases hc : (List.range m).foldlM (fun s i => pivotStep id applyRowOp i s) g.temp with
    | none => rw [hc] at h; simp at h
    | some c =>
      rw [hc] at h
      simp at h
      obtain ⟨h1, h2⟩ := ih c hc
      rw [List.range_succ, List.foldl_append, List.foldl_cons, List.foldl_nil]
      generalize (List.range m).foldl (fun s i => (pivotStep Gen.temp Gen.log i s).getD (genFail rnd i s)) g = q at h1 h2
      have ht := tm_pivotStep Gen.temp Gen.log (fun o s => rfl) m q
      rw [h1, h] at ht
      cases hq : pivotStep Gen.temp Gen.log m q with
      | none => rw [hq] at ht; simp at ht
      | some q' =>
        rw [hq] at ht
        simp at ht
        rw [Option.getD_some]
        exact ⟨ht, by rw [pivotStep_flag m q q' hq, h2]⟩

/-- C104: an invertible random matrix is returned as it is. -/
theorem C104_kept (rnd : Nat → BitVec 32) (pos : Nat) (h : Invertible' (randM n rnd pos)) : (genMatpair n rnd pos).mat = randM n rnd pos := by
  have hi := (C64_matrix_inverse n (randM n rnd pos)).1.2 h
  unfold isinvertM at hi
  cases hf : (List.range n).foldlM (fun s i => pivotStep id applyRowOp i s) (randM n rnd pos) with
  | none => rw [hf] at hi; simp at hi
  | some s =>
    have hg := (gen_forward rnd ⟨randM n rnd pos, identityM n, [], true, pos + rowWords n * n⟩ n s hf).2
    unfold genMatpair
    simp only
    rw [if_pos (show (genForward rnd ⟨randM n rnd pos, identityM n, [], true, pos + rowWords n * n⟩).invertible = true from hg)]

/-- C104: every invertible matrix comes out for some random numbers. -/
theorem C104_every (hn : n ≤ 32) (M : Mat n) (h : Invertible' M) : ∃ rnd, (genMatpair n rnd 0).mat = M := by
  have hr : randM n (fun i => (M.row i).setWidth 32) 0 = M := by
    apply Vector.ext
    intro i hi
    rw [randM, Vector.getElem_ofFn, randRow, if_pos hn, rowWords, if_pos hn, Nat.zero_add, Nat.one_mul]
    show ((M.row i).setWidth 32).setWidth n = M[i]
    rw [BitVec.setWidth_setWidth_of_le _ hn, BitVec.setWidth_eq, Mat.row, Vector.getElem?_eq_getElem hi, Option.getD_some]
  exact ⟨fun i => (M.row i).setWidth 32, by rw [C104_kept _ 0 (by rw [hr]; exact h), hr]⟩

/-- Random numbers: the first `K` from `s`, then those of `rest`. -/
def streamOf (K : Nat) (rest : Nat → BitVec 32) (s : Fin K → BitVec 32) : Nat → BitVec 32 :=
  fun i => if h : i < K then s ⟨i, h⟩ else rest i

theorem three_dvd (hn : 2 ≤ n) : 3 ∣ Nat.card {M : Mat n // Invertible' M} := by
  rw [C104_count]
  refine Dvd.dvd.trans ?_ (Finset.dvd_prod_of_mem _ (Finset.mem_univ (⟨n - 2, by omega⟩ : Fin n)))
  obtain ⟨k, rfl⟩ : ∃ k, n = k + 2 := ⟨n - 2, by omega⟩
  show 3 ∣ 2 ^ (k + 2) - 2 ^ (k + 2 - 2)
  rw [Nat.add_sub_cancel, Nat.pow_add]
  exact ⟨2 ^ k, by omega⟩

local instance : Finite (BitVec n) := Finite.of_injective (fun x : BitVec n => x.toFin) (fun a b h => by cases a; cases b; cases h; rfl)
local instance : Finite (Mat n) := Finite.of_injective (fun M : Mat n => fun i : Fin n => M[i]) fun A B h =>
  Vector.ext fun i hi => congrFun h ⟨i, hi⟩

theorem card_word : Nat.card (BitVec 32) = 2 ^ 32 := by
  rw [Nat.card_congr (⟨BitVec.toFin, BitVec.ofFin, fun _ => rfl, fun _ => rfl⟩ : BitVec 32 ≃ Fin (2 ^ 32)), Nat.card_eq_fintype_card,
    Fintype.card_fin]

/-- C104: the matrices are not equally likely, however many of the numbers are random. -/
theorem C104_not_uniform (hn : 2 ≤ n) (K : Nat) (rest : Nat → BitVec 32) : ∃ A B : Mat n, Invertible' A ∧ Invertible' B ∧
    Nat.card {s : Fin K → BitVec 32 // (genMatpair n (streamOf K rest s) 0).mat = A} ≠
      Nat.card {s : Fin K → BitVec 32 // (genMatpair n (streamOf K rest s) 0).mat = B} := by
  by_contra hcon
  push Not at hcon
  let f : (Fin K → BitVec 32) → {M : Mat n // Invertible' M} := fun s =>
    ⟨(genMatpair n (streamOf K rest s) 0).mat, _, (genMatpair_spec (streamOf K rest s) 0).1⟩
  have hid : Invertible' (identityM n) := ⟨id, fun x => matMulNum_identity x, fun x => matMulNum_identity x⟩
  have hsum : Nat.card (Fin K → BitVec 32) = Nat.card {M : Mat n // Invertible' M} *
      Nat.card {s : Fin K → BitVec 32 // (genMatpair n (streamOf K rest s) 0).mat = identityM n} := by
    have : Fintype {M : Mat n // Invertible' M} := Fintype.ofFinite _
    rw [← Nat.card_congr (Equiv.sigmaFiberEquiv f), Nat.card_sigma, Nat.card_eq_fintype_card, ← Finset.card_univ, ← smul_eq_mul,
      ← Finset.sum_const]
    refine Finset.sum_congr rfl fun A _ => ?_
    rw [← hcon A.1 (identityM n) A.2 hid]
    exact Nat.card_congr (Equiv.subtypeEquivRight fun s => ⟨fun e => congrArg Subtype.val e, fun e => Subtype.ext e⟩)
  have h3 : 3 ∣ Nat.card (Fin K → BitVec 32) := by rw [hsum]; exact Dvd.dvd.mul_right (three_dvd hn) _
  have hc : Nat.card (Fin K → BitVec 32) = (2 ^ 32) ^ K := by
    rw [Nat.card_fun, Nat.card_eq_fintype_card (α := Fin K), Fintype.card_fin, card_word]
  rw [hc, ← Nat.pow_mul] at h3
  have := Nat.prime_three.dvd_of_dvd_pow h3
  omega

/-- The matrix for a seed. -/
def seedMat (n : Nat) [WSize n] (seed : BitVec 32) : Mat n := (genMatpair n (randNth (initRandom seed)) 0).mat

omit [LawfulWSize n] in
theorem drawMat_seed (clock : Nat → BitVec 32) (g : Rng) :
    (genMatpair n (drawMat n clock g).1 0).mat = seedMat n ((g.seed + 1) ^^^ clock (g.now + 1)) := rfl

omit [LawfulWSize n] in
theorem range_card : (Set.range (seedMat n)).ncard ≤ 2 ^ 32 := by
  rw [← Set.image_univ, ← card_word, ← Set.ncard_univ]
  exact Set.ncard_image_le (Set.toFinite _)

/-- C104: whatever the clock and the calls before, `genMatpairM8` and `genMatpairM32` give one of at most 2^32 matrices. There
are more than 2^62 and more than 2^1022 invertible ones. -/
theorem C104_few : {M : Mat 8 | ∃ clock g, (genMatpair 8 (drawMat 8 clock g).1 0).mat = M}.ncard ≤ 2 ^ 32 ∧
    {M : Mat 32 | ∃ clock g, (genMatpair 32 (drawMat 32 clock g).1 0).mat = M}.ncard ≤ 2 ^ 32 ∧
    2 ^ 62 < Nat.card {M : Mat 8 // Invertible' M} ∧ 2 ^ 1022 < Nat.card {M : Mat 32 // Invertible' M} := by
  refine ⟨?_, ?_, ?_, ?_⟩
  · refine le_trans (Set.ncard_le_ncard ?_ (Set.toFinite _)) (range_card (n := 8))
    rintro M ⟨clock, g, h⟩
    exact ⟨_, (drawMat_seed clock g).symm.trans h⟩
  · refine le_trans (Set.ncard_le_ncard ?_ (Set.toFinite _)) (range_card (n := 32))
    rintro M ⟨clock, g, h⟩
    exact ⟨_, (drawMat_seed clock g).symm.trans h⟩
  · rw [C104_count]
    decide +kernel
  · rw [C104_count]
    decide +kernel

/-- C104: so some invertible matrix never comes out. -/
theorem C104_missed : (∃ M : Mat 8, Invertible' M ∧ ∀ clock g, (genMatpair 8 (drawMat 8 clock g).1 0).mat ≠ M) ∧
    ∃ M : Mat 32, Invertible' M ∧ ∀ clock g, (genMatpair 32 (drawMat 32 clock g).1 0).mat ≠ M := by
  obtain ⟨h1, h2, h3, h4⟩ := C104_few
  constructor
  · by_contra hcon
    push Not at hcon
    have := Set.ncard_le_ncard (s := {M : Mat 8 | Invertible' M}) hcon (Set.toFinite _)
    rw [← Nat.card_coe_set_eq] at this
    have h5 : Nat.card {M : Mat 8 // Invertible' M} ≤ 2 ^ 32 := le_trans this h1
    exact absurd (lt_of_lt_of_le h3 h5) (by decide)
  · by_contra hcon
    push Not at hcon
    have := Set.ncard_le_ncard (s := {M : Mat 32 | Invertible' M}) hcon (Set.toFinite _)
    rw [← Nat.card_coe_set_eq] at this
    have h5 : Nat.card {M : Mat 32 // Invertible' M} ≤ 2 ^ 32 := le_trans this h2
    exact absurd (lt_of_lt_of_le h4 h5) (by decide +kernel)

/- The invertible 2x2 corner: an invertible 4x4 matrix other than the identity, and one that is not invertible. -/
example : Invertible' (n := 4) #v[0x4, 0xC, 0x2, 0x1] := (C64_matrix_inverse 4 _).1.1 (by decide +kernel)
example : ∃ rnd, (genMatpair 4 rnd 0).mat = #v[0x4, 0xC, 0x2, 0x1] :=
  C104_every (by decide) _ ((C64_matrix_inverse 4 _).1.1 (by decide +kernel))
example : Nat.card {M : Mat 4 // Invertible' M} = 20160 := by rw [C104_count]; decide +kernel
example := C104_not_uniform (n := 8) (by decide) 100 fun _ => 0

end Verif.Props
