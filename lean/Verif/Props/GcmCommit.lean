import Mathlib.LinearAlgebra.Lagrange
import Mathlib.Tactic.LinearCombination
import Verif.Props.GcmIv

/-! Property C101: a GCM tag does not tell under which key it was made. -/
set_option autoImplicit false

namespace Verif.Props
open Verif Verif.Model Verif.Spec Polynomial

/-! ### interpolation -/

theorem newton (k : Nat) (v r : Nat → Gf) : (∀ i j, i < k → j < k → v i = v j → i = j) →
    ∃ P q : Gf[X], P.degree ≤ k ∧ (∀ i < k, P.eval (v i) = 0) ∧ (∀ x, (∀ i < k, x ≠ v i) → P.eval x ≠ 0) ∧
      q.degree < k ∧ ∀ i < k, q.eval (v i) = r i := by
  induction k with
  | zero =>
    intro _
    refine ⟨1, 0, ?_, by simp, by simp, by simp, by simp⟩
    simp
  | succ k ih =>
    intro hv
    obtain ⟨P, q, h1, h2, h3, h4, h5⟩ := ih (fun i j hi hj => hv i j (by omega) (by omega))
    have hk : P.eval (v k) ≠ 0 := h3 _ (fun i hi h => by have := hv k i (by omega) (by omega) h; omega)
    obtain ⟨w, hw⟩ := Gf.exists_inv _ hk
    refine ⟨P * (X - C (v k)), q + C ((r k - q.eval (v k)) * w) * P, ?_, ?_, ?_, ?_, ?_⟩
    · refine (degree_mul_le _ _).trans ?_
      rw [degree_X_sub_C, Nat.cast_succ]
      exact add_le_add h1 le_rfl
    · intro i hi
      rw [eval_mul]
      by_cases hik : i = k
      · subst hik
        simp
      · rw [h2 i (by omega), zero_mul]
    · intro x hx
      rw [eval_mul]
      refine mul_ne_zero (h3 x fun i hi => hx i (by omega)) ?_
      rw [eval_sub, eval_X, eval_C]
      exact sub_ne_zero.mpr (hx k (by omega))
    · refine lt_of_le_of_lt (degree_add_le _ _) (max_lt ?_ ?_)
      · exact lt_of_lt_of_le h4 (by exact_mod_cast Nat.le_succ k)
      · refine lt_of_le_of_lt (degree_mul_le _ _) ?_
        refine lt_of_le_of_lt (add_le_add degree_C_le h1) ?_
        rw [zero_add]
        exact_mod_cast Nat.lt_succ_self k
    · intro i hi
      rw [eval_add, eval_mul, eval_C]
      by_cases hik : i = k
      · subst hik
        rw [mul_assoc, mul_comm w, hw, mul_one]
        ring
      · rw [h2 i (by omega), mul_zero, add_zero]
        exact h5 i (by omega)

theorem hp_onto (k : Nat) : ∀ q : Gf[X], q.degree < k → ∃ xs : List (BitVec 128), xs.length = k ∧ hp xs = q * X := by
  induction k with
  | zero =>
    intro q hq
    refine ⟨[], rfl, ?_⟩
    have : q = 0 := by
      rw [← degree_eq_bot]
      exact_mod_cast Nat.WithBot.lt_zero_iff.mp hq
    rw [this, zero_mul]
    rfl
  | succ k ih =>
    intro q hq
    rw [degree_lt_iff_coeff_zero] at hq
    obtain ⟨xs, h1, h2⟩ := ih q.divX (by
      rw [degree_lt_iff_coeff_zero]
      intro m hm
      rw [coeff_divX]
      exact hq _ (by omega))
    refine ⟨xs ++ [(q.coeff 0).val], by simp [h1], ?_⟩
    rw [hp_append, h2]
    congr 1
    exact divX_mul_X_add q

theorem hp_factor (xs : List (BitVec 128)) : ∃ q : Gf[X], q.degree < (xs.length : WithBot ℕ) ∧ hp xs = q * X := by
  induction xs using List.reverseRecOn with
  | nil => exact ⟨0, by simp, by rw [zero_mul]; rfl⟩
  | append_singleton xs x ih =>
    obtain ⟨q, h1, h2⟩ := ih
    refine ⟨q * X + C ⟨x⟩, ?_, by rw [hp_append, h2]⟩
    rw [List.length_append, List.length_singleton]
    refine lt_of_le_of_lt (degree_add_le _ _) (max_lt ?_ ?_)
    · rw [degree_mul_X, Nat.cast_succ]
      rcases hd : q.degree with _ | d
      · exact WithBot.bot_lt_coe _
      · rw [hd] at h1
        have : d < xs.length := WithBot.coe_lt_coe.mp h1
        show ((d : WithBot ℕ) + 1) < _
        exact_mod_cast Nat.succ_lt_succ this
    · exact lt_of_le_of_lt degree_C_le (by exact_mod_cast Nat.succ_pos _)

theorem hpFrom_eq (p : Gf[X]) (xs : List (BitVec 128)) : hpFrom p xs = p * X ^ xs.length + hp xs := by
  induction xs using List.reverseRecOn with
  | nil => simp [hpFrom, hp]
  | append_singleton xs x ih =>
    have h1 : hpFrom p (xs ++ [x]) = (hpFrom p xs + C ⟨x⟩) * X := by simp [hpFrom]
    rw [h1, ih, hp_append, List.length_append, List.length_singleton, pow_succ]
    ring

/-! ### blocks as bytes -/

theorem chunks_blocks (xs : List (BitVec 128)) :
    (chunks (xs.map fun x => (ofBV x).toList).flatten).map padBV = xs ∧ (xs.map fun x => (ofBV x).toList).flatten.length = 16 * xs.length := by
  induction xs with
  | nil => exact ⟨rfl, rfl⟩
  | cons x xs ih =>
    rw [List.map_cons, List.flatten_cons]
    constructor
    · rw [chunks_append_aligned _ _ (by simp), List.map_append, ih.1]
      have hne : (ofBV x).toList ≠ [] := by
        intro h
        have := congrArg List.length h
        simp at this
      rw [chunks_short _ hne (by simp), List.map_singleton, padBV_toList, toBV_ofBV, List.singleton_append]
    · rw [List.length_append, ih.2, Vector.length_toList, List.length_cons]
      omega

theorem blocks_eval (h : BitVec 128) (a pre t : List Byte) (hpre : 16 ∣ pre.length) :
    (⟨ghash h (gcmBlocks a (pre ++ t))⟩ : Gf) =
      (((hp ((chunks a).map padBV ++ (chunks pre).map padBV)).eval ⟨h⟩ * ⟨h⟩ ^ ((t.length + 15) / 16) +
      (hp ((chunks t).map padBV)).eval ⟨h⟩) + ⟨lenBlock a (pre ++ t)⟩) * ⟨h⟩ := by
  rw [← hp_eval, gcmBlocks, hp_append, eval_mul, eval_add, eval_C, eval_X]
  have : hp ((chunks a).map padBV ++ (chunks (pre ++ t)).map padBV) =
      hpFrom (hp ((chunks a).map padBV ++ (chunks pre).map padBV)) ((chunks t).map padBV) := by
    rw [chunks_append_aligned _ _ (Nat.mod_eq_zero_of_dvd hpre), List.map_append, ← List.append_assoc, hp, hpFrom, List.foldl_append]
    rfl
  rw [this, hpFrom_eq, eval_add, eval_mul, eval_pow, eval_X, List.length_map, chunks_count]

/-- The value the polynomial of the last blocks must take at the hash key. -/
noncomputable def want (E : Block → Block) (iv a pre : List Byte) (T : Block) (k : Nat) (w : Gf) : Gf :=
  (⟨toBV T ^^^ toBV (E (ofBV (j0 E iv)))⟩ * w + ⟨lenBlock a (pre ++ List.replicate (16 * k) 0)⟩ +
    (hp ((chunks a).map padBV ++ (chunks pre).map padBV)).eval ⟨toBV (E zeroBlock)⟩ * ⟨toBV (E zeroBlock)⟩ ^ k) * w

theorem tag_iff (E : Block → Block) (iv a pre t : List Byte) (T : Block) (k : Nat) (w : Gf) (q : Gf[X]) (hpre : 16 ∣ pre.length)
    (hw : ⟨toBV (E zeroBlock)⟩ * w = 1) (ht : t.length = 16 * k) (hq : hp ((chunks t).map padBV) = q * X) :
    gcmTag E iv a (pre ++ t) = T ↔ q.eval ⟨toBV (E zeroBlock)⟩ = want E iv a pre T k w := by
  have h0 := gcmTag_blocks E iv a (pre ++ t)
  have h1 := blocks_eval (toBV (E zeroBlock)) a pre t hpre
  rw [show (t.length + 15) / 16 = k by omega, hq, eval_mul, eval_X,
    show lenBlock a (pre ++ t) = lenBlock a (pre ++ List.replicate (16 * k) 0) by simp [lenBlock, ht]] at h1
  unfold want
  generalize (hp ((chunks a).map padBV ++ (chunks pre).map padBV)).eval _ = A at h1 ⊢
  generalize lenBlock a (pre ++ List.replicate (16 * k) 0) = L at h1 ⊢
  generalize ghash _ _ = g at h0 h1
  generalize toBV (E zeroBlock) = h at *
  generalize toBV (E _) = j at *
  generalize q.eval _ = y at *
  have two : (2 : Gf) = 0 := by
    have := Gf.add_self 1
    rwa [one_add_one_eq_two] at this
  have e1 : gcmTag E iv a (pre ++ t) = T ↔ (⟨g⟩ : Gf) = ⟨toBV T ^^^ j⟩ := by
    constructor
    · intro e
      rw [← e, h0]
      congr 1
      rw [BitVec.xor_comm j g, BitVec.xor_assoc, BitVec.xor_self, BitVec.xor_zero]
    · intro e
      have e := congrArg Gf.val e
      apply toBV_injective
      rw [h0, show g = toBV T ^^^ j from e, BitVec.xor_comm, BitVec.xor_assoc, BitVec.xor_self, BitVec.xor_zero]
  rw [e1, h1]
  generalize (⟨toBV T ^^^ j⟩ : Gf) = S
  generalize (⟨h⟩ : Gf) = H at *
  generalize (⟨L⟩ : Gf) = L at *
  constructor
  · intro e
    rw [← e]
    linear_combination (-y * (H * w + 1) - (A * H ^ k + L) * w) * hw - (A * H ^ k + L) * w * two
  · intro e
    rw [e]
    linear_combination (S * (H * w + 1) + (L + A * H ^ k) * H) * hw + (A * H ^ k + L) * H * two

/-- C101: for any ciphers with different hash keys other than 0, any IV, AAD and tag and any beginning of whole blocks, there is
exactly one end of as many blocks as there are ciphers such that the whole ciphertext has this tag under all of them. -/
theorem C101_commit (k : Nat) (E : Fin k → Block → Block) (hE : ∀ i j, E i zeroBlock = E j zeroBlock → i = j)
    (h0 : ∀ i, E i zeroBlock ≠ zeroBlock) (iv aad pre : List Byte) (T : Block) (hpre : 16 ∣ pre.length)
    (hk : pre.length + 16 * k < 2 ^ 31) (hiv : iv.length < 2 ^ 29) (ha : aad.length < 2 ^ 61) :
    ∃! t : List Byte, t.length = 16 * k ∧ ∀ (i : Fin k) (out : List Byte) (outlen : Nat),
      (pre ++ t).length ≤ outlen → outlen ≤ out.length →
      ∃ p, openMsg (gcmInit (E i)) iv aad (pre ++ t) out outlen 16 = some (1, p, T.toList) := by
  have hinv : ∀ i, ∃ w : Gf, ⟨toBV (E i zeroBlock)⟩ * w = 1 := by
    intro i
    obtain ⟨w, hw⟩ := Gf.exists_inv ⟨toBV (E i zeroBlock)⟩ (fun e => h0 i (by
      have := congrArg Gf.val e
      apply toBV_injective
      rw [show toBV (E i zeroBlock) = 0#128 from this]
      exact toBV_zero.symm))
    exact ⟨w, hw⟩
  choose w hw using hinv
  have opens : ∀ t : List Byte, t.length = 16 * k → ((∀ (i : Fin k) (out : List Byte) (outlen : Nat),
      (pre ++ t).length ≤ outlen → outlen ≤ out.length →
      ∃ p, openMsg (gcmInit (E i)) iv aad (pre ++ t) out outlen 16 = some (1, p, T.toList)) ↔
      ∀ i, gcmTag (E i) iv aad (pre ++ t) = T) := by
    intro t ht
    have hl : (pre ++ t).length < 2 ^ 31 := by rw [List.length_append]; omega
    constructor
    · intro h i
      obtain ⟨p, h⟩ := h i (pre ++ t) (pre ++ t).length le_rfl le_rfl
      rw [open_eq (E i) iv aad _ _ _ 16 (by omega) hiv ha hl le_rfl le_rfl, List.take_of_length_le (by simp)] at h
      simp only [Option.some.injEq, Prod.mk.injEq, true_and] at h
      exact Vector.toList_inj.mp h.2
    · intro h i out outlen h1 h2
      exact ⟨_, by rw [open_eq (E i) iv aad _ _ _ 16 (by omega) hiv ha hl h1 h2, List.take_of_length_le (by simp), h i]⟩
  let v : Fin k → Gf := fun i => ⟨toBV (E i zeroBlock)⟩
  have hv : Function.Injective v := fun i j e => hE i j (toBV_injective (congrArg Gf.val e))
  let r : Fin k → Gf := fun i => want (E i) iv aad pre T k (w i)
  obtain ⟨_, q, -, -, -, hq1, hq2⟩ := newton k (fun i => if h : i < k then v ⟨i, h⟩ else 0) (fun i => if h : i < k then r ⟨i, h⟩ else 0)
    (by
      intro i j hi hj e
      simp only [hi, hj, dif_pos] at e
      exact congrArg Fin.val (hv e))
  obtain ⟨xs, hx1, hx2⟩ := hp_onto k q hq1
  obtain ⟨hc1, hc2⟩ := chunks_blocks xs
  refine ⟨(xs.map fun x => (ofBV x).toList).flatten, ⟨by rw [hc2, hx1], ?_⟩, ?_⟩
  · rw [opens _ (by rw [hc2, hx1])]
    intro i
    rw [tag_iff (E i) iv aad pre _ T k (w i) q hpre (hw i) (by rw [hc2, hx1]) (by rw [hc1, hx2])]
    have := hq2 i i.2
    simpa only [i.2, dif_pos] using this
  · rintro t ⟨ht, h⟩
    rw [opens t ht] at h
    obtain ⟨q', hq1', hq2'⟩ := hp_factor ((chunks t).map padBV)
    have hk' : ((chunks t).map padBV).length = k := by
      rw [List.length_map, chunks_count]
      omega
    rw [hk'] at hq1'
    have heq : q' = q := by
      refine eq_of_degrees_lt_of_eval_index_eq (v := v) Finset.univ hv.injOn (by simpa using hq1') (by simpa using hq1) ?_
      intro i _
      have h1 := (tag_iff (E i) iv aad pre t T k (w i) q' hpre (hw i) ht hq2').mp (h i)
      have h2 := hq2 i i.2
      simp only [i.2, dif_pos] at h2
      rw [show v i = ⟨toBV (E i zeroBlock)⟩ from rfl, h1]
      exact h2.symm
    apply pads_inj t _ (by rw [ht, hc2, hx1])
    rw [hc1]
    apply hp_injective k _ _ hk' hx1
    rw [hq2', hx2, heq]

/-- C101: hence a ciphertext, whatever its first blocks, can be made to pass under two keys: the tag does not fix the key. -/
theorem C101_two_keys (E E' : Block → Block) (h : E zeroBlock ≠ E' zeroBlock) (h0 : E zeroBlock ≠ zeroBlock)
    (h0' : E' zeroBlock ≠ zeroBlock) (iv aad pre : List Byte) (T : Block) (hpre : 16 ∣ pre.length)
    (hl : pre.length + 32 < 2 ^ 31) (hiv : iv.length < 2 ^ 29) (ha : aad.length < 2 ^ 61) :
    ∃! t : List Byte, t.length = 32 ∧ ∀ F, F = E ∨ F = E' → ∀ (out : List Byte) (outlen : Nat),
      (pre ++ t).length ≤ outlen → outlen ≤ out.length →
      ∃ p, openMsg (gcmInit F) iv aad (pre ++ t) out outlen 16 = some (1, p, T.toList) := by
  have := C101_commit 2 (fun i => if i = 0 then E else E')
    (by
      intro i j e
      fin_cases i <;> fin_cases j
      · rfl
      · exact absurd e h
      · exact absurd e.symm h
      · rfl)
    (by intro i; fin_cases i <;> assumption) iv aad pre T hpre (by omega) hiv ha
  obtain ⟨t, ⟨h1, h2⟩, h3⟩ := this
  refine ⟨t, ⟨h1, ?_⟩, ?_⟩
  · rintro F (rfl | rfl)
    · exact h2 0
    · exact h2 1
  · rintro t' ⟨h1', h2'⟩
    refine h3 t' ⟨h1', fun i => ?_⟩
    fin_cases i
    · exact h2' E (Or.inl rfl)
    · exact h2' E' (Or.inr rfl)

/- Two keys as C101_two_keys asks for (and, with `k = 2`, C101_commit). -/
example : aes128 zeroBlock zeroBlock ≠ aes128 (Vector.replicate 16 1) zeroBlock ∧ aes128 zeroBlock zeroBlock ≠ zeroBlock ∧
    aes128 (Vector.replicate 16 1) zeroBlock ≠ zeroBlock := by
  rw [← aesEval_eq, ← aesEval_eq]
  decide +kernel

end Verif.Props
