import Verif.Model.MatrixMore
import Verif.Props.Matrix

/-! The 128-bit matrix functions do what the generic ones do. -/
set_option autoImplicit false
set_option linter.unusedSectionVars false

namespace Verif
open Spec Model Props

/-! ### words of a row -/

theorem words_append (x : BitVec 128) : word0 x ++ word1 x = x := (half_append 64 x).symm

theorem word0_xor (x y : BitVec 128) : word0 (x ^^^ y) = word0 x ^^^ word0 y := by
  unfold word0
  ext i hi
  simp

theorem word1_xor (x y : BitVec 128) : word1 (x ^^^ y) = word1 x ^^^ word1 y := by
  unfold word1
  ext i hi
  simp

theorem bits_words (x : BitVec 128) (i : Nat) : bits x i = if i < 64 then bits (word0 x) i else bits (word1 x) (i - 64) := by
  conv => lhs; rw [← words_append x]
  exact bits_append (word0 x) (word1 x) i

theorem word0_append (a b : BitVec 64) : word0 (a ++ b : BitVec 128) = a := by
  apply bits_ext
  intro i hi
  have h := bits_words (a ++ b) i
  rw [if_pos hi] at h
  rw [← h]
  exact (bits_append a b i).trans (if_pos hi)

theorem word1_append (a b : BitVec 64) : word1 (a ++ b : BitVec 128) = b := by
  apply bits_ext
  intro i hi
  have h := bits_words (a ++ b) (64 + i)
  rw [if_neg (by omega), Nat.add_sub_cancel_left] at h
  rw [← h]
  refine (bits_append a b (64 + i)).trans ?_
  rw [if_neg (by omega), Nat.add_sub_cancel_left]

theorem words_ext {x y : BitVec 128} (h0 : word0 x = word0 y) (h1 : word1 x = word1 y) : x = y := by
  rw [← words_append x, ← words_append y, h0, h1]

theorem idRow_128 {i : Nat} (hi : i < 128) : idRow 128 i = idRow128 i := by
  unfold idRow
  show Mat.row (Vector.ofFn fun i : Fin 128 => idRow128 i.1) i = _
  simp [Mat.row, hi]

theorem bits_idRow128 {i j : Nat} (hi : i < 128) (hj : j < 128) : bits (idRow128 i) j = decide (i = j) := by
  unfold idRow128
  split
  · rw [bits_append (idRow 64 i) (0 : BitVec 64) j]
    split
    · exact idRow_bits (by omega)
    · rw [bits_zero]; symm; rw [decide_eq_false_iff_not]; omega
  · rw [bits_append (0 : BitVec 64) (idRow 64 (i - 64)) j]
    split
    · rw [bits_zero]; symm; rw [decide_eq_false_iff_not]; omega
    · rw [idRow_bits (by omega)]
      apply decide_eq_decide.mpr
      omega

theorem xorU128_eq (x : BitVec 128) : xorU128 x = parity x := by
  rw [xorU128, xorU64_eq, parity_xor, ← parity_append, words_append]

instance : LawfulWSize 128 where
  idM_bits i j hi hj := by rw [idRow_128 hi, bits_idRow128 hi hj]
  xorU_eq := xorU128_eq

/-! ### transposition -/

theorem word0_test (M : Mat 128) (i : Nat) {j : Nat} (hj : j < 64) :
    (word0 (M.row i) &&& idRow 64 j ≠ 0) ↔ mbit M i j = true := by
  have : mbit (Vector.ofFn fun _ => word0 (M.row i) : Mat 64) 0 j = mbit M i j := by
    unfold mbit
    rw [row_ofFn _ (by decide), bits_words (M.row i), if_pos hj]
  rw [← this, ← idRow_ne_zero (n := 64) _ 0 hj, row_ofFn _ (by decide)]

theorem word1_test (M : Mat 128) (i : Nat) {j : Nat} (hj : j < 64) :
    (word1 (M.row i) &&& idRow 64 j ≠ 0) ↔ mbit M i (j + 64) = true := by
  have : mbit (Vector.ofFn fun _ => word1 (M.row i) : Mat 64) 0 j = mbit M i (j + 64) := by
    unfold mbit
    rw [row_ofFn _ (by decide), bits_words (M.row i), if_neg (by omega), Nat.add_sub_cancel]
  rw [← this, ← idRow_ne_zero (n := 64) _ 0 hj, row_ofFn _ (by decide)]

def pairCols : List Nat := (List.range 64).flatMap fun j => [j, j + 64]

theorem pairCols_nodup : pairCols.Nodup := by decide +kernel
theorem pairCols_mem (j : Nat) : j ∈ pairCols ↔ j < 128 := by
  unfold pairCols
  simp only [List.mem_flatMap, List.mem_range, List.mem_cons, List.not_mem_nil, or_false]
  constructor
  · rintro ⟨a, h, h'⟩; omega
  · intro h
    by_cases hj : j < 64
    · exact ⟨j, hj, .inl rfl⟩
    · exact ⟨j - 64, by omega, .inr (by omega)⟩

theorem inner128 (M : Mat 128) (i : Nat) (hi : i < 128) (T : Mat 128) :
    (List.range 64).foldl (fun T j =>
      let T := if word0 (M.row i) &&& idRow 64 j ≠ 0 then T.setIfInBounds j (Mat.row T j ^^^ idRow128 i) else T
      if word1 (M.row i) &&& idRow 64 j ≠ 0 then T.setIfInBounds (j + 64) (Mat.row T (j + 64) ^^^ idRow128 i) else T) T =
    (List.range 128).foldl (fun T j =>
      if M.row i &&& idRow 128 j ≠ 0 then T.setIfInBounds j (Mat.row T j ^^^ idRow 128 i) else T) T := by
  have h1 : ∀ (l : List Nat), (∀ j ∈ l, j < 64) → ∀ T : Mat 128, l.foldl (fun T j =>
      let T := if word0 (M.row i) &&& idRow 64 j ≠ 0 then T.setIfInBounds j (Mat.row T j ^^^ idRow128 i) else T
      if word1 (M.row i) &&& idRow 64 j ≠ 0 then T.setIfInBounds (j + 64) (Mat.row T (j + 64) ^^^ idRow128 i) else T) T =
      (l.flatMap fun j => [j, j + 64]).foldl (fun T j =>
        if mbit M i j = true then T.setIfInBounds j (Mat.row T j ^^^ idRow128 i) else T) T := by
    intro l
    induction l with
    | nil => intro _ T; rfl
    | cons j l ih =>
      intro hl T
      have hj := hl j (List.mem_cons_self ..)
      rw [List.foldl_cons, ih (fun x hx => hl x (List.mem_cons_of_mem _ hx)), List.flatMap_cons, List.foldl_append]
      simp only [word0_test M i hj, word1_test M i hj, List.foldl_cons, List.foldl_nil]
  rw [h1 _ (fun j hj => List.mem_range.mp hj)]
  have h2 := row_foldl_set pairCols pairCols_nodup (fun j hj => (pairCols_mem j).1 hj) (fun j => mbit M i j)
    (fun _ => idRow128 i) T
  have h3 := row_foldl_set (List.range 128) List.nodup_range (fun j hj => List.mem_range.mp hj)
    (fun j => decide (M.row i &&& idRow 128 j ≠ 0)) (fun _ => idRow 128 i) T
  apply mat_ext
  intro a b ha hb
  unfold mbit
  refine congrArg (fun v => bits v b) ?_
  refine (h2 a).trans ?_
  simp only [decide_eq_true_eq] at h3
  rw [h3 a]
  simp only [pairCols_mem, List.mem_range, idRow_ne_zero M i ha, ha, true_and, idRow_128 hi]

theorem mattrans128_eq (M : Mat 128) : mattrans128 M = mattrans M := by
  unfold mattrans128 mattrans
  have : ∀ (l : List Nat), (∀ i ∈ l, i < 128) → ∀ T : Mat 128, l.foldl (fun T i =>
      (List.range 64).foldl (fun T j =>
        let T := if word0 (M.row i) &&& idRow 64 j ≠ 0 then T.setIfInBounds j (Mat.row T j ^^^ idRow128 i) else T
        if word1 (M.row i) &&& idRow 64 j ≠ 0 then T.setIfInBounds (j + 64) (Mat.row T (j + 64) ^^^ idRow128 i) else T) T) T =
      l.foldl (fun T i => (List.range 128).foldl (fun T j =>
        if M.row i &&& idRow 128 j ≠ 0 then T.setIfInBounds j (Mat.row T j ^^^ idRow 128 i) else T) T) T := by
    intro l
    induction l with
    | nil => intro _ T; rfl
    | cons i l ih =>
      intro hl T
      rw [List.foldl_cons, List.foldl_cons, inner128 M i (hl i (List.mem_cons_self ..)),
        ih (fun x hx => hl x (List.mem_cons_of_mem _ hx))]
  exact this _ (fun i hi => List.mem_range.mp hi) _

theorem foldl_congr_mem {α β : Type} (f g : β → α → β) (l : List α) (h : ∀ a ∈ l, ∀ b, f b a = g b a) (b : β) :
    l.foldl f b = l.foldl g b := by
  induction l generalizing b with
  | nil => rfl
  | cons a l ih =>
    rw [List.foldl_cons, List.foldl_cons, h a (List.mem_cons_self ..), ih (fun x hx => h x (List.mem_cons_of_mem _ hx))]

theorem matMulMat128_eq (A B : Mat 128) : matMulMat128 A B = matMulMat A B := by
  unfold matMulMat128 matMulMat
  rw [mattrans128_eq]
  apply foldl_congr_mem
  intro i _ C
  apply foldl_congr_mem
  intro j hj C
  rw [idRow_128 (List.mem_range.mp hj)]
  rfl

/-! ### operations on half rows -/

theorem partOp_both (o : RowOp) (M : Mat 128) : partOp .both o M = applyRowOp o M := by cases o <;> rfl

/-- The rows from 64 on have a zero first word. -/
def LowRows (M : Mat 128) : Prop := ∀ r, 64 ≤ r → word0 (M.row r) = 0

/-- Operations that leave it so and for which the first word need not be computed. -/
def LowOp : RowOp → Prop
  | .add a b => 64 ≤ b ∧ a < 128
  | .swap a b => 64 ≤ a ∧ 64 ≤ b ∧ a < 128 ∧ b < 128

theorem mix1_eq {x y : BitVec 128} (h : word0 x = word0 y) : mixWords .only1 x y = y := by
  show word0 x ++ word1 y = y
  rw [h, words_append]

theorem partOp_only1 (o : RowOp) (ho : LowOp o) (M : Mat 128) (h : LowRows M) : partOp .only1 o M = applyRowOp o M := by
  cases o with
  | add a b =>
    unfold partOp applyRowOp
    simp only
    rw [mix1_eq (by rw [word0_xor, h b ho.1]; exact BitVec.xor_zero.symm)]
  | swap a b =>
    unfold partOp applyRowOp
    simp only
    rw [mix1_eq (by rw [h a ho.1, h b ho.2.1]), mix1_eq (by rw [h a ho.1, h b ho.2.1])]

theorem lowRows_op (o : RowOp) (ho : LowOp o) (M : Mat 128) (h : LowRows M) : LowRows (applyRowOp o M) := by
  intro r hr
  cases o with
  | add a b =>
    simp only [applyRowOp, row_set _ _ _ ho.2]
    split
    · next e => subst e; rw [word0_xor, h r hr, h b ho.1]; exact BitVec.xor_zero
    · exact h r hr
  | swap a b =>
    simp only [applyRowOp, row_set _ _ _ ho.2.2.1, row_set _ _ _ ho.2.2.2]
    split
    · exact h a ho.1
    · split
      · exact h b ho.2.1
      · exact h r hr

section congr
variable {n : Nat} [WSize n] [LawfulWSize n] {σ : Type} (tm : σ → Mat n) (act act' : RowOp → σ → σ) (P : σ → Prop)

theorem clearRows_congr (l : List Nat) (i : Nat) (A : RowOp → Prop) (hA : ∀ j ∈ l, A (.add j i))
    (he : ∀ o s, A o → P s → act o s = act' o s) (hP : ∀ o s, A o → P s → P (act' o s)) (s : σ) (h : P s) :
    clearRows tm act l i s = clearRows tm act' l i s ∧ P (clearRows tm act' l i s) := by
  unfold clearRows
  induction l generalizing s with
  | nil => exact ⟨rfl, h⟩
  | cons j l ih =>
    have hj := hA j (List.mem_cons_self ..)
    rw [List.foldl_cons, List.foldl_cons]
    have hs : (if (tm s).has j i then act (.add j i) s else s) = (if (tm s).has j i then act' (.add j i) s else s) := by
      split
      · exact he _ _ hj h
      · rfl
    rw [hs]
    apply ih (fun x hx => hA x (List.mem_cons_of_mem _ hx))
    split
    · exact hP _ _ hj h
    · exact h

theorem pivotStep_congr (i : Nat) (A : RowOp → Prop)
    (hA : ∀ j ∈ List.range' (i + 1) (n - 1 - i), A (.add j i) ∧ A (.swap j i))
    (he : ∀ o s, A o → P s → act o s = act' o s) (hP : ∀ o s, A o → P s → P (act' o s)) (s : σ) (h : P s) :
    pivotStep tm act i s = pivotStep tm act' i s ∧ ∀ s', pivotStep tm act' i s = some s' → P s' := by
  unfold pivotStep
  have hc := fun s h => clearRows_congr tm act act' P (List.range' (i + 1) (n - 1 - i)) i A (fun j hj => (hA j hj).1) he hP s h
  split
  · refine ⟨by rw [(hc s h).1], ?_⟩
    intro s' hs'
    cases hs'
    exact (hc s h).2
  · cases hf : (List.range' (i + 1) (n - 1 - i)).find? fun j => (tm s).has j i with
    | none => exact ⟨rfl, fun s' hs' => by cases hs'⟩
    | some j =>
      have hj := (hA j (List.mem_of_find?_eq_some hf)).2
      have hp := hP _ _ hj h
      refine ⟨?_, ?_⟩
      · simp only [Option.map_some, he _ _ hj h, (hc _ hp).1]
      · intro s' hs'
        cases hs'
        exact (hc _ hp).2

end congr

/-! ### columns below the diagonal -/

section low
variable {n : Nat} [WSize n] [LawfulWSize n]

/-- The columns before `i` are zero below the diagonal. -/
def Low (i : Nat) (M : Mat n) : Prop := ∀ c, c < i → ∀ r, r < n → c < r → mbit M r c = false

/-- Column `i` is zero from row `k` on. -/
def ColZero (k i : Nat) (M : Mat n) : Prop := ∀ r, r < n → k ≤ r → mbit M r i = false

/-- Operations on rows from `i` on. -/
def OpFrom (i : Nat) : RowOp → Prop
  | .add a b => i ≤ a ∧ i ≤ b
  | .swap a b => i ≤ a ∧ i ≤ b

theorem colZero_op (k i : Nat) (o : RowOp) (ho : OpOk n o) (hf : OpFrom k o) (M : Mat n) (h : ColZero k i M) :
    ColZero k i (applyRowOp o M) := by
  intro r hr hk
  rw [row_applyOp o ho]
  cases o with
  | add a b =>
    simp only [colOp]
    split
    · rw [h a ho.1 hf.1, h b ho.2.1 hf.2]; rfl
    · exact h r hr hk
  | swap a b =>
    simp only [colOp]
    split
    · exact h a ho.1 hf.1
    · split
      · exact h b ho.2.1 hf.2
      · exact h r hr hk

theorem low_iff (i : Nat) (M : Mat n) : Low i M ↔ ∀ c, c < i → ColZero (c + 1) c M :=
  ⟨fun h c hc r hr hk => h c hc r hr hk, fun h c hc r hr hk => h c hc r hr hk⟩

theorem low_op (i : Nat) (o : RowOp) (ho : OpOk n o) (hf : OpFrom i o) (M : Mat n) (h : Low i M) : Low i (applyRowOp o M) := by
  rw [low_iff] at h ⊢
  intro c hc
  apply colZero_op _ _ o ho _ M (h c hc)
  cases o <;> exact ⟨by have := hf.1; omega, by have := hf.2; omega⟩

theorem low_succ (i : Nat) (M : Mat n) (h : Low i M) (hz : ColZero (i + 1) i M) : Low (i + 1) M := by
  intro c hc r hr hk
  rcases Nat.lt_or_ge c i with h' | h'
  · exact h c h' r hr hk
  · have : c = i := by omega
    subst this
    exact hz r hr hk

theorem low_clear (i : Nat) (hi : i < n) (M : Mat n) (h : Low i M) (hd : mbit M i i = true) :
    Low (i + 1) (clearRows id applyRowOp (List.range' (i + 1) (n - 1 - i)) i M) := by
  have hl : ∀ j ∈ List.range' (i + 1) (n - 1 - i), j < n ∧ j ≠ i := fun j hj => ⟨(above_ok hj).1, (above_ok hj).2.1⟩
  apply low_succ
  · refine (clearRows_congr id applyRowOp applyRowOp (Low i) (List.range' (i + 1) (n - 1 - i)) i
      (fun o => OpOk n o ∧ OpFrom i o) (fun j hj => ⟨⟨(above_ok hj).1, hi, (above_ok hj).2.1⟩,
        ⟨by have := (above_ok hj).2.2; omega, Nat.le_refl _⟩⟩)
      (fun _ _ _ _ => rfl) (fun o s ho hs => low_op i o ho.1 ho.2 s hs) M h).2
  · intro r hr hk
    have hrow := row_clearRows (List.range' (i + 1) (n - 1 - i)) List.nodup_range' i hi hl M r
    rw [mbit, hrow]
    by_cases hb : mbit M r i = true
    · rw [if_pos ⟨by rw [List.mem_range'_1]; omega, hb⟩, bits_xor]
      rw [mbit] at hb hd
      rw [hb, hd]; rfl
    · rw [if_neg (fun hx => hb hx.2)]
      rw [mbit] at hb
      simpa using hb

theorem low_pivot (i : Nat) (hi : i < n) (M M' : Mat n) (h : Low i M) (hs : pivotStep id applyRowOp i M = some M') :
    Low (i + 1) M' := by
  unfold pivotStep at hs
  simp only [id, has_eq _ hi] at hs
  split at hs
  · next hd =>
    cases hs
    exact low_clear i hi M h hd
  · rw [Option.map_eq_some_iff] at hs
    obtain ⟨j, hj, rfl⟩ := hs
    have hjm := above_ok (List.mem_of_find?_eq_some hj)
    have hjb := List.find?_some hj
    have hok : OpOk n (.swap j i) := ⟨hjm.1, hi, hjm.2.1⟩
    apply low_clear i hi
    · exact low_op i _ hok ⟨by omega, Nat.le_refl _⟩ M h
    · rw [row_applyOp _ hok]
      simp only [colOp, if_true]
      exact hjb

theorem colZero_of_none (i : Nat) (hi : i < n) (M : Mat n) (hs : pivotStep id applyRowOp i M = none) : ColZero i i M := by
  unfold pivotStep at hs
  simp only [id, has_eq _ hi] at hs
  split at hs
  · exact absurd hs (by simp)
  · next hd =>
    rw [Option.map_eq_none_iff, List.find?_eq_none] at hs
    intro r hr hir
    by_cases he : r = i
    · subst he; simpa using hd
    · have := hs r (by rw [List.mem_range'_1]; omega)
      simpa using this

end low

theorem lowRows_of_low (i : Nat) (hi : 64 ≤ i) (M : Mat 128) (h : Low i M) : LowRows M := by
  intro r hr
  by_cases hr' : r < 128
  · apply bits_ext
    intro c hc
    have := h c (by omega) r hr' (by omega)
    rw [mbit, bits_words, if_pos hc] at this
    rw [this, bits_zero]
  · rw [row_of_ge _ (by omega)]; rfl

/-! ### forward loops -/

theorem foldlM_congr_inv {α : Type} (f g : α → Nat → Option α) (Q : Nat → α → Prop) (m : Nat)
    (hfg : ∀ i a, i < m → Q i a → f a i = g a i) (hQ : ∀ i a b, i < m → Q i a → g a i = some b → Q (i + 1) b) (a : α) (h0 : Q 0 a) :
    (List.range m).foldlM f a = (List.range m).foldlM g a ∧ ∀ b, (List.range m).foldlM g a = some b → Q m b := by
  induction m with
  | zero => exact ⟨rfl, fun b hb => by simp at hb; subst hb; exact h0⟩
  | succ m ih =>
    obtain ⟨h1, h2⟩ := ih (fun i a hi => hfg i a (by omega)) (fun i a b hi => hQ i a b (by omega))
    rw [List.range_succ, List.foldlM_append, List.foldlM_append, h1]
    cases hc : (List.range m).foldlM g a with
    | none => exact ⟨rfl, fun b hb => by simp at hb⟩
    | some c =>
      have hq := h2 c hc
      simp only [Option.bind_eq_bind, Option.bind_some, List.foldlM_cons, List.foldlM_nil, hfg m c (by omega) hq]
      refine ⟨trivial, fun b hb => ?_⟩
      apply hQ m c b (by omega) hq
      simpa using hb

theorem foldl_congr_inv {α : Type} (f g : α → Nat → α) (Q : Nat → α → Prop) (m : Nat)
    (hfg : ∀ i a, i < m → Q i a → f a i = g a i) (hQ : ∀ i a, i < m → Q i a → Q (i + 1) (g a i)) (a : α) (h0 : Q 0 a) :
    (List.range m).foldl f a = (List.range m).foldl g a ∧ Q m ((List.range m).foldl g a) := by
  induction m with
  | zero => exact ⟨rfl, h0⟩
  | succ m ih =>
    obtain ⟨h1, h2⟩ := ih (fun i a hi => hfg i a (by omega)) (fun i a hi => hQ i a (by omega))
    rw [List.range_succ, List.foldl_append, List.foldl_append, h1]
    exact ⟨hfg m _ (by omega) h2, hQ m _ (by omega) h2⟩

theorem lowOp_from (i j : Nat) (hi : 64 ≤ i) (h : j ∈ List.range' (i + 1) (128 - 1 - i)) :
    LowOp (.add j i) ∧ LowOp (.swap j i) := by
  have := above_ok h
  exact ⟨⟨hi, this.1⟩, ⟨by omega, hi, this.1, by omega⟩⟩

section state
variable {σ : Type} (tm : σ → Mat 128) (act : Part → RowOp → σ → σ)

/-- The state records the working matrix; an operation that has the same effect on it has the same effect. -/
structure Records : Prop where
  both : ∀ o s, tm (act .both o s) = applyRowOp o (tm s)
  only1 : ∀ o s, partOp .only1 o (tm s) = applyRowOp o (tm s) → act .only1 o s = act .both o s

variable (hr : Records tm act)
include hr

theorem records_low (o : RowOp) (s : σ) (ho : LowOp o) (h : LowRows (tm s)) : act .only1 o s = act .both o s :=
  hr.only1 o s (partOp_only1 o ho _ h)

theorem records_lowRows (o : RowOp) (s : σ) (ho : LowOp o) (h : LowRows (tm s)) : LowRows (tm (act .both o s)) := by
  rw [hr.both]; exact lowRows_op o ho _ h

theorem pivot128 (i : Nat) (s : σ) (h : Low i (tm s)) :
    pivotStep tm (act (fwdPart i)) i s = pivotStep tm (act .both) i s := by
  unfold fwdPart
  split
  · rfl
  · exact (pivotStep_congr tm (act .only1) (act .both) (fun s => LowRows (tm s)) i LowOp
      (fun j hj => lowOp_from i j (by omega) hj) (fun o s ho hs => records_low tm act hr o s ho hs)
      (fun o s ho hs => records_lowRows tm act hr o s ho hs) s (lowRows_of_low i (by omega) _ h)).1

theorem pivot128_low (i : Nat) (hi : i < 128) (s s' : σ) (h : Low i (tm s)) (hs : pivotStep tm (act .both) i s = some s') :
    Low (i + 1) (tm s') := by
  have ht := tm_pivotStep tm (act .both) hr.both i s
  rw [hs, Option.map_some] at ht
  exact low_pivot i hi _ _ h ht.symm

theorem pivot128_none (i : Nat) (hi : i < 128) (s : σ) (hs : pivotStep tm (act .both) i s = none) : ColZero i i (tm s) := by
  have ht := tm_pivotStep tm (act .both) hr.both i s
  rw [hs, Option.map_none] at ht
  exact colZero_of_none i hi _ ht.symm

omit hr in
/-- Nothing to clear. -/
theorem clearRows_zero (a : RowOp → σ → σ) (l : List Nat) (i : Nat) (hi : i < 128) (s : σ) (h : ColZero i i (tm s))
    (hl : ∀ j ∈ l, i ≤ j ∧ j < 128) : clearRows tm a l i s = s := by
  unfold clearRows
  induction l with
  | nil => rfl
  | cons j l ih =>
    have hj := hl j (List.mem_cons_self ..)
    rw [List.foldl_cons, has_eq _ hi, h j hj.2 hj.1]
    exact ih (fun x hx => hl x (List.mem_cons_of_mem _ hx))

/-! ### backward loops -/

omit hr in
/-- Two states whose working matrices agree in the first words, as far as needed. -/
theorem clearRows_sim (R : σ → σ → Prop) (a a' : RowOp → σ → σ) (l : List Nat) (t : Nat)
    (htest : ∀ s s', R s s' → ∀ j, (tm s).has j t = (tm s').has j t)
    (hstep : ∀ s s', R s s' → ∀ j ∈ l, R (a (.add j t) s) (a' (.add j t) s')) (s s' : σ) (h : R s s') :
    R (clearRows tm a l t s) (clearRows tm a' l t s') := by
  unfold clearRows
  induction l generalizing s s' with
  | nil => exact h
  | cons j l ih =>
    rw [List.foldl_cons, List.foldl_cons]
    apply ih (fun s s' hs x hx => hstep s s' hs x (List.mem_cons_of_mem _ hx))
    rw [htest s s' h j]
    split
    · exact hstep s s' h j (List.mem_cons_self ..)
    · exact h

theorem back128 (R : σ → σ → Prop) (hrefl : ∀ s, R s s)
    (htest : ∀ s s', R s s' → ∀ j t, t < 64 → (tm s).has j t = (tm s').has j t)
    (hstep : ∀ s s', R s s' → ∀ j t, j < 128 → R (act .only0 (.add j t) s) (act .both (.add j t) s')) (s : σ)
    (h : LowRows (tm s)) : R (backElim128 tm act s) (backElim tm (act .both) s) := by
  unfold backElim128 backElim
  have e : (List.range 128).reverse = (List.range' 64 64).reverse ++ (List.range 64).reverse := by decide
  rw [e, List.foldl_append, List.foldl_append]
  have h1 : ∀ l : List Nat, (∀ t ∈ l, 64 ≤ t ∧ t < 128) → ∀ s, LowRows (tm s) →
      l.foldl (fun s t => clearRows tm (act (backPart t)) (List.range t).reverse t s) s =
      l.foldl (fun s t => clearRows tm (act .both) (List.range t).reverse t s) s := by
    intro l
    induction l with
    | nil => intro _ s _; rfl
    | cons t l ih =>
      intro hl s hs
      have ht := hl t (List.mem_cons_self ..)
      have hc := clearRows_congr tm (act .only1) (act .both) (fun s => LowRows (tm s)) (List.range t).reverse t LowOp
        (fun j hj => by rw [List.mem_reverse, List.mem_range] at hj; exact ⟨ht.1, by omega⟩)
        (fun o s ho hs => records_low tm act hr o s ho hs) (fun o s ho hs => records_lowRows tm act hr o s ho hs) s hs
      rw [List.foldl_cons, List.foldl_cons, show backPart t = .only1 from if_pos ht.1, hc.1]
      exact ih (fun x hx => hl x (List.mem_cons_of_mem _ hx)) _ hc.2
  rw [h1 _ (fun t ht => by rw [List.mem_reverse, List.mem_range'_1] at ht; omega) s h]
  generalize (List.range' 64 64).reverse.foldl (fun s t => clearRows tm (act .both) (List.range t).reverse t s) s = q
  have h2 : ∀ l : List Nat, (∀ t ∈ l, t < 64) → ∀ s s', R s s' →
      R (l.foldl (fun s t => clearRows tm (act (backPart t)) (List.range t).reverse t s) s)
        (l.foldl (fun s t => clearRows tm (act .both) (List.range t).reverse t s) s') := by
    intro l
    induction l with
    | nil => intro _ s s' hs; exact hs
    | cons t l ih =>
      intro hl s s' hs
      have ht := hl t (List.mem_cons_self ..)
      rw [List.foldl_cons, List.foldl_cons, show backPart t = .only0 from if_neg (by omega)]
      apply ih (fun x hx => hl x (List.mem_cons_of_mem _ hx))
      exact clearRows_sim tm R _ _ _ t (fun s s' h j => htest s s' h j t ht)
        (fun s s' h j hj => hstep s s' h j t (by rw [List.mem_reverse, List.mem_range] at hj; omega)) s s' hs
  exact h2 _ (fun t ht => by rw [List.mem_reverse, List.mem_range] at ht; exact ht) q q (hrefl q)

end state

/-- Equal first words. -/
def Eq0 (M M' : Mat 128) : Prop := ∀ r, word0 (M.row r) = word0 (M'.row r)

theorem eq0_has {M M' : Mat 128} (h : Eq0 M M') (j t : Nat) (ht : t < 64) : M.has j t = M'.has j t := by
  rw [has_eq _ (by omega), has_eq _ (by omega), mbit, mbit, bits_words, bits_words (M'.row j), if_pos ht, if_pos ht, h j]

theorem eq0_step {M M' : Mat 128} (h : Eq0 M M') (j t : Nat) (hj : j < 128) :
    Eq0 (partOp .only0 (.add j t) M) (applyRowOp (.add j t) M') := by
  intro r
  simp only [partOp, applyRowOp, row_set _ _ _ hj]
  split
  · rw [show mixWords .only0 (M.row j) (M.row j ^^^ M.row t) = word0 (M.row j ^^^ M.row t) ++ word1 (M.row j) from rfl,
      word0_append, word0_xor, word0_xor, h j, h t]
  · exact h r

/-! ### the functions -/

theorem isinvertM128_eq (M : Mat 128) : isinvertM128 M = isinvertM M := by
  have hr : Records id partOp := ⟨fun o s => partOp_both o s, fun o s h => h.trans (partOp_both o s).symm⟩
  have hb : (fun (s : Mat 128) i => pivotStep id (partOp .both) i s) = fun s i => pivotStep id applyRowOp i s := by
    rw [show partOp .both = applyRowOp from funext fun o => funext fun s => partOp_both o s]
  obtain ⟨h1, h2⟩ := foldlM_congr_inv (fun s i => pivotStep id (partOp (fwdPart i)) i s) (fun s i => pivotStep id (partOp .both) i s)
    (fun i M => Low i M) 128 (fun i a _ ha => pivot128 id partOp hr i a ha)
    (fun i a b hi ha hb => pivot128_low id partOp hr i hi a b ha hb) M (fun c hc => by omega)
  unfold isinvertM128 isinvertM
  rw [h1, hb]
  rw [hb] at h2
  cases hf : (List.range 128).foldlM (fun s i => pivotStep id applyRowOp i s) M with
  | none => rfl
  | some s =>
    have hl := lowRows_of_low 128 (by decide) s (h2 s hf)
    show (word1 (s.row 127) == idRow 64 63) = (s.row 127 == idRow 128 127)
    rw [idRow_128 (by decide), Bool.eq_iff_iff, beq_iff_eq, beq_iff_eq]
    have e : idRow128 127 = (0 : BitVec 64) ++ idRow 64 63 := rfl
    rw [e]
    constructor
    · intro h
      apply words_ext
      · rw [hl 127 (by decide), word0_append]
      · rw [h, word1_append]
    · intro h
      rw [h, word1_append]


theorem eq0_step' {M M' : Mat 128} (h : Eq0 M M') (j t : Nat) (hj : j < 128) :
    Eq0 (partOp .only0 (.add j t) M) (partOp .both (.add j t) M') := by
  rw [partOp_both]; exact eq0_step h j t hj

theorem partOp_both_fun : partOp .both = applyRowOp := funext fun o => funext fun s => partOp_both o s

theorem records_inv : Records Prod.fst invAct :=
  ⟨fun o s => partOp_both o s.1, fun o s h => Prod.ext (h.trans (partOp_both o s.1).symm) rfl⟩

theorem inv_forward (i : Nat) (hi : i < 128) (a : Mat 128 × Mat 128) (ha : Low i a.1) :
    (pivotStep Prod.fst (invAct (fwdPart i)) i a).getD (clearRows Prod.fst (invAct (fwdPart i)) (List.range' (i + 1) (127 - i)) i a) =
      (pivotStep Prod.fst (invAct .both) i a).getD (clearRows Prod.fst (invAct .both) (List.range' (i + 1) (128 - 1 - i)) i a) ∧
    Low (i + 1) ((pivotStep Prod.fst (invAct .both) i a).getD
      (clearRows Prod.fst (invAct .both) (List.range' (i + 1) (128 - 1 - i)) i a)).1 := by
  rw [pivot128 Prod.fst _ records_inv i a ha]
  cases hc : pivotStep Prod.fst (invAct .both) i a with
  | some b => exact ⟨rfl, pivot128_low Prod.fst _ records_inv i hi a b ha hc⟩
  | none =>
    have hz := pivot128_none Prod.fst _ records_inv i hi a hc
    have hl : ∀ k, k = 127 - i → ∀ j ∈ List.range' (i + 1) k, i ≤ j ∧ j < 128 := by
      intro k hk j hj
      rw [List.mem_range'_1] at hj
      omega
    rw [Option.getD_none, Option.getD_none, clearRows_zero _ _ _ i hi a hz (hl _ rfl),
      clearRows_zero _ _ _ i hi a hz (hl _ (by omega))]
    exact ⟨rfl, low_succ i _ ha fun r hr' hk => hz r hr' (by omega)⟩

theorem inv_loops (M I : Mat 128) :
    (backElim128 Prod.fst invAct ((List.range 128).foldl (fun s i => (pivotStep Prod.fst (invAct (fwdPart i)) i s).getD
      (clearRows Prod.fst (invAct (fwdPart i)) (List.range' (i + 1) (127 - i)) i s)) (M, I))).2 =
    (backElim Prod.fst (invAct .both) ((List.range 128).foldl (fun s i => (pivotStep Prod.fst (invAct .both) i s).getD
      (clearRows Prod.fst (invAct .both) (List.range' (i + 1) (128 - 1 - i)) i s)) (M, I))).2 := by
  obtain ⟨h1, h2⟩ := foldl_congr_inv
    (fun s i => (pivotStep Prod.fst (invAct (fwdPart i)) i s).getD
      (clearRows Prod.fst (invAct (fwdPart i)) (List.range' (i + 1) (127 - i)) i s))
    (fun s i => (pivotStep Prod.fst (invAct .both) i s).getD
      (clearRows Prod.fst (invAct .both) (List.range' (i + 1) (128 - 1 - i)) i s))
    (fun i s => Low i s.1) 128 (fun i a hi ha => (inv_forward i hi a ha).1)
    (fun i a hi ha => (inv_forward i hi a ha).2) (M, I) (fun c hc => by omega)
  rw [h1]
  generalize (List.range 128).foldl (fun s i => (pivotStep Prod.fst (invAct .both) i s).getD
      (clearRows Prod.fst (invAct .both) (List.range' (i + 1) (128 - 1 - i)) i s)) (M, I) = q at h2 ⊢
  exact (back128 Prod.fst _ records_inv (fun s s' => s.2 = s'.2 ∧ Eq0 s.1 s'.1) (fun s => ⟨rfl, fun _ => rfl⟩)
    (fun s s' h j t ht => eq0_has h.2 j t ht)
    (fun s s' h j t hj => ⟨congrArg (applyRowOp (.add j t)) h.1, eq0_step' h.2 j t hj⟩) _
    (lowRows_of_low 128 (by decide) _ h2)).1

theorem invAct_both : invAct .both = fun o s => (applyRowOp o s.1, applyRowOp o s.2) := by
  unfold invAct; rw [partOp_both_fun]

theorem invsM_def {n : Nat} [WSize n] (M : Mat n) : invsM M =
    (backElim Prod.fst (fun o s => (applyRowOp o s.1, applyRowOp o s.2)) ((List.range n).foldl (fun s i =>
      (pivotStep Prod.fst (fun o s => (applyRowOp o s.1, applyRowOp o s.2)) i s).getD
      (clearRows Prod.fst (fun o s => (applyRowOp o s.1, applyRowOp o s.2)) (List.range' (i + 1) (n - 1 - i)) i s)) (M, identityM n))).2 := rfl

theorem invsM128_eq (M : Mat 128) : invsM128 M = invsM M := by
  have h := inv_loops M (identityM 128)
  rw [invAct_both] at h
  rw [invsM128, invsM_def, ← h]

theorem records_log : Records Gen.temp Gen.log128 :=
  ⟨fun o s => partOp_both o s.temp, fun o s h => by unfold Gen.log128; rw [h, partOp_both]⟩

theorem records_nolog : Records Gen.temp Gen.nolog128 :=
  ⟨fun o s => partOp_both o s.temp, fun o s h => by unfold Gen.nolog128; rw [h, partOp_both]⟩

theorem log128_both : Gen.log128 .both = Gen.log := by
  funext o s; unfold Gen.log128 Gen.log; rw [partOp_both]

theorem nolog128_both : Gen.nolog128 .both = Gen.nolog := by
  funext o s; unfold Gen.nolog128 Gen.nolog; rw [partOp_both]

theorem log128_fwd (i : Nat) (o : RowOp) (s : Gen 128) (ho : 64 ≤ i → LowOp o) (h : 64 ≤ i → LowRows s.temp) :
    Gen.log128 (fwdPart i) o s = Gen.log o s := by
  unfold fwdPart
  split
  · rw [log128_both]
  · rw [records_low Gen.temp _ records_log o s (ho (by omega)) (h (by omega)), log128_both]

/-- The loop of `genFail`. -/
theorem genFail_loop (rnd : Nat → BitVec 32) (i : Nat) (hi : i < 128) (l : List Nat) (hl : ∀ t ∈ l, i < t ∧ t < 128) (s : Gen 128)
    (h : Low i s.temp ∧ ColZero i i s.temp) :
    let f (log : RowOp → Gen 128 → Gen 128) := l.foldl (fun s t =>
      let r := rnd s.pos
      let s := { s with pos := s.pos + 1 }
      if r.toNat % 2 = 1 then log (.add t i) s else s) s
    f (Gen.log128 (fwdPart i)) = f Gen.log ∧ Low i (f Gen.log).temp ∧ ColZero i i (f Gen.log).temp := by
  dsimp only
  induction l generalizing s with
  | nil => exact ⟨rfl, h⟩
  | cons t l ih =>
    have ht := hl t (List.mem_cons_self ..)
    have hl' : ∀ t ∈ l, i < t ∧ t < 128 := fun x hx => hl x (List.mem_cons_of_mem _ hx)
    rw [List.foldl_cons, List.foldl_cons]
    by_cases hc : (rnd s.pos).toNat % 2 = 1
    · rw [if_pos hc, if_pos hc, log128_fwd i (.add t i) { s with pos := s.pos + 1 } (fun h => ⟨h, ht.2⟩) (fun h' => lowRows_of_low i h' _ h.1)]
      exact ih hl' _ ⟨low_op i (.add t i) ⟨ht.2, hi, by omega⟩ ⟨by omega, by omega⟩ _ h.1,
        colZero_op i i (.add t i) ⟨ht.2, hi, by omega⟩ ⟨by omega, by omega⟩ _ h.2⟩
    · rw [if_neg hc, if_neg hc]
      exact ih hl' _ h

theorem genFail128_eq (rnd : Nat → BitVec 32) (i : Nat) (hi : i < 128) (s : Gen 128) (h : Low i s.temp ∧ ColZero i i s.temp) :
    genFail128 rnd i s = genFail rnd i s ∧ Low (i + 1) (genFail rnd i s).temp := by
  unfold genFail128 genFail
  dsimp only
  have hs : ∀ M : Mat 128, Low i M ∧ ColZero i i M → Low (i + 1) M := fun M hM =>
    low_succ i M hM.1 fun r hr hk => hM.2 r hr (by omega)
  by_cases hc : i < 127
  · rw [if_pos (c := i < 64 ∨ i < 127) (Or.inr hc), if_pos (c := i < 128 - 1) hc]
    have hp : i + 1 + (rnd s.pos).toNat % (127 - i) < 128 := by
      have := Nat.mod_lt (rnd s.pos).toNat (show 0 < 127 - i by omega)
      omega
    rw [show 128 - 1 - i = 127 - i from rfl]
    generalize hpe : i + 1 + (rnd s.pos).toNat % (127 - i) = p at hp ⊢
    have hpi : i < p := by omega
    rw [log128_fwd i (.swap p i) { s with invertible := false, pos := s.pos + 1 } (fun h => ⟨by omega, h, hp, hi⟩) (fun h' => lowRows_of_low i h' _ h.1)]
    obtain ⟨h1, h2, h3⟩ := genFail_loop rnd i hi (List.range' (i + 1) (127 - i))
      (fun t ht => by rw [List.mem_range'_1] at ht; omega)
      (Gen.log (.swap p i) { s with invertible := false, pos := s.pos + 1 })
      ⟨low_op i (.swap p i) ⟨hp, hi, by omega⟩ ⟨by omega, by omega⟩ _ h.1, colZero_op i i (.swap p i) ⟨hp, hi, by omega⟩ ⟨by omega, by omega⟩ _ h.2⟩
    exact ⟨h1, hs _ ⟨h2, h3⟩⟩
  · rw [if_neg (c := i < 64 ∨ i < 127) (by omega), if_neg (c := i < 128 - 1) (by omega)]
    exact ⟨rfl, hs _ h⟩

theorem genMatpair128_eq (rnd : Nat → BitVec 32) (pos : Nat) : genMatpair128 rnd pos = genMatpair 128 rnd pos := by
  unfold genMatpair128 genMatpair genForward
  dsimp only
  generalize randM 128 rnd pos = M
  generalize pos + rowWords 128 * 128 = pos'
  generalize identityM 128 = I
  obtain ⟨h1, h2⟩ := foldl_congr_inv
    (fun (s : Gen 128) i => (pivotStep Gen.temp (Gen.log128 (fwdPart i)) i s).getD (genFail128 rnd i s))
    (fun (s : Gen 128) i => (pivotStep Gen.temp Gen.log i s).getD (genFail rnd i s))
    (fun i s => Low i s.temp) 128
    (fun i a hi ha => by
      have hp := pivot128 Gen.temp _ records_log i a ha
      rw [log128_both] at hp
      rw [hp]
      cases hc : pivotStep Gen.temp Gen.log i a with
      | some b => rfl
      | none => exact (genFail128_eq rnd i hi a ⟨ha, pivot128_none Gen.temp _ records_log i hi a (log128_both ▸ hc)⟩).1)
    (fun i a hi ha => by
      cases hc : pivotStep Gen.temp Gen.log i a with
      | some b => exact pivot128_low Gen.temp _ records_log i hi a b ha (log128_both ▸ hc)
      | none => exact (genFail128_eq rnd i hi a ⟨ha, pivot128_none Gen.temp _ records_log i hi a (log128_both ▸ hc)⟩).2)
    ⟨M, I, [], true, pos'⟩ (fun c hc => by omega)
  rw [h1]
  generalize (List.range 128).foldl _ (⟨M, I, [], true, pos'⟩ : Gen 128) = q at h2 ⊢
  have hl := lowRows_of_low 128 (by decide) _ h2
  let R : Gen 128 → Gen 128 → Prop := fun s s' => s.inv = s'.inv ∧ s.trail = s'.trail ∧ s.pos = s'.pos ∧ Eq0 s.temp s'.temp
  have b1 : R (backElim128 Gen.temp Gen.nolog128 q) (backElim Gen.temp Gen.nolog q) := by
    rw [← nolog128_both]
    exact back128 Gen.temp _ records_nolog R (fun s => ⟨rfl, rfl, rfl, fun _ => rfl⟩) (fun s s' h j t ht => eq0_has h.2.2.2 j t ht)
      (fun s s' h j t hj => ⟨congrArg (applyRowOp (.add j t)) h.1, h.2.1, h.2.2.1, eq0_step' h.2.2.2 j t hj⟩) q hl
  have b2 : R (backElim128 Gen.temp Gen.log128 q) (backElim Gen.temp Gen.log q) := by
    rw [← log128_both]
    exact back128 Gen.temp _ records_log R (fun s => ⟨rfl, rfl, rfl, fun _ => rfl⟩) (fun s s' h j t ht => eq0_has h.2.2.2 j t ht)
      (fun s s' h j t hj => ⟨congrArg (applyRowOp (.add j t)) h.1, congrArg (· ++ [RowOp.add j t]) h.2.1, h.2.2.1,
        eq0_step' h.2.2.2 j t hj⟩) q hl
  split
  · rw [b1.1]
  · rw [b2.1, b2.2.1, b2.2.2.1]

theorem genaffinepair128_eq (rnd : Nat → BitVec 32) (pos : Nat) : genaffinepair128 rnd pos = genaffinepair 128 rnd pos := by
  unfold genaffinepair128 genaffinepair
  rw [genMatpair128_eq]

theorem affinemix128_eq (a b : Aff 128) : affinemix128 a b = affinemix a b := by
  unfold affinemix128 affinemix
  rw [matMulMat128_eq]

end Verif
