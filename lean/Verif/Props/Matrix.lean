import Verif.Lemmas.Gf2

/-! Properties C33-C35 of `/repo/WBMatrix/src/WBMatrix.c`. -/
set_option autoImplicit false
set_option linter.unusedSectionVars false

namespace Verif.Props
open Verif Spec Model

variable {n : Nat} [WSize n] [LawfulWSize n]

/-! ### row operations -/

/-- Rows inside the matrix and different. -/
def OpOk (n : Nat) : RowOp → Prop
  | .add a b => a < n ∧ b < n ∧ a ≠ b
  | .swap a b => a < n ∧ b < n ∧ a ≠ b

/-- Effect of a row operation on a column of bits. -/
def colOp (o : RowOp) (f : Nat → Bool) : Nat → Bool :=
  match o with
  | .add a b => fun k => if k = a then f a ^^ f b else f k
  | .swap a b => fun k => if k = b then f a else if k = a then f b else f k

theorem colOp_colOp (o : RowOp) (h : OpOk n o) (f : Nat → Bool) : colOp o (colOp o f) = f := by
  funext k
  cases o with
  | add a b =>
    obtain ⟨_, _, hab⟩ := h
    have hba : ¬ b = a := fun e => hab e.symm
    by_cases hk : k = a
    · subst hk; simp [colOp, hba]
    · simp [colOp, hk]
  | swap a b =>
    obtain ⟨_, _, hab⟩ := h
    by_cases hk : k = b
    · subst hk; simp [colOp, hab]
    · by_cases hk' : k = a
      · subst hk'; simp [colOp, hk]
      · simp [colOp, hk, hk']

theorem row_applyOp (o : RowOp) (h : OpOk n o) (M : Mat n) (j k : Nat) :
    mbit (applyRowOp o M) k j = colOp o (fun k => mbit M k j) k := by
  cases o with
  | add a b =>
    obtain ⟨ha, hb, hab⟩ := h
    simp only [applyRowOp, colOp, mbit, row_set _ _ _ ha]
    split
    · next hk => subst hk; rw [bits_xor]
    · rfl
  | swap a b =>
    obtain ⟨ha, hb, hab⟩ := h
    simp only [applyRowOp, colOp, mbit, row_set _ _ _ ha, row_set _ _ _ hb]
    split
    · rfl
    · split <;> rfl

theorem action_applyOp (o : RowOp) (h : OpOk n o) (M : Mat n) (x : BitVec n) :
    bits (matMulNum (applyRowOp o M) x) = colOp o (bits (matMulNum M x)) := by
  have hge : ∀ (M : Mat n) k, n ≤ k → bits (matMulNum M x) k = false := fun M k hk => bits_of_ge _ hk
  funext k
  by_cases hk : k < n
  · rw [bits_matMulNum _ _ hk]
    simp only [row_applyOp o h]
    cases o with
    | add a b =>
      obtain ⟨ha, hb, hab⟩ := h
      simp only [colOp]
      split
      · rw [bits_matMulNum _ _ ha, bits_matMulNum _ _ hb, ← gsum_xor]
        apply gsum_congr
        intro i _
        cases bits x i <;> simp
      · rw [bits_matMulNum _ _ hk]
    | swap a b =>
      obtain ⟨ha, hb, hab⟩ := h
      simp only [colOp]
      split
      · rw [bits_matMulNum _ _ ha]
      · split
        · rw [bits_matMulNum _ _ hb]
        · rw [bits_matMulNum _ _ hk]
  · rw [hge _ _ (Nat.le_of_not_lt hk)]
    cases o with
    | add a b =>
      obtain ⟨ha, hb, hab⟩ := h
      simp only [colOp]
      rw [if_neg (by omega), hge _ _ (Nat.le_of_not_lt hk)]
    | swap a b =>
      obtain ⟨ha, hb, hab⟩ := h
      simp only [colOp]
      rw [if_neg (by omega), if_neg (by omega), hge _ _ (Nat.le_of_not_lt hk)]

/-- Several operations, first one first. -/
def applyRowOps (ops : List RowOp) (M : Mat n) : Mat n := ops.foldl (fun M o => applyRowOp o M) M

def colOps (ops : List RowOp) (f : Nat → Bool) : Nat → Bool := ops.foldl (fun f o => colOp o f) f

theorem action_applyOps (ops : List RowOp) (h : ∀ o ∈ ops, OpOk n o) (M : Mat n) (x : BitVec n) :
    bits (matMulNum (applyRowOps ops M) x) = colOps ops (bits (matMulNum M x)) := by
  induction ops generalizing M with
  | nil => rfl
  | cons o ops ih =>
    show bits (matMulNum (applyRowOps ops (applyRowOp o M)) x) = colOps ops (colOp o (bits (matMulNum M x)))
    rw [ih (fun o ho => h o (List.mem_cons_of_mem _ ho)), action_applyOp o (h o (List.mem_cons_self ..))]

theorem colOps_reverse (ops : List RowOp) (h : ∀ o ∈ ops, OpOk n o) (f : Nat → Bool) :
    colOps ops.reverse (colOps ops f) = f := by
  induction ops generalizing f with
  | nil => rfl
  | cons o ops ih =>
    have : colOps (o :: ops).reverse (colOps (o :: ops) f) = colOp o (colOps ops.reverse (colOps ops (colOp o f))) := by
      simp [colOps]
    rw [this, ih (fun o ho => h o (List.mem_cons_of_mem _ ho)), colOp_colOp o (h o (List.mem_cons_self ..))]

theorem colOps_reverse' (ops : List RowOp) (h : ∀ o ∈ ops, OpOk n o) (f : Nat → Bool) :
    colOps ops (colOps ops.reverse f) = f := by
  have := colOps_reverse ops.reverse (fun o ho => h o (List.mem_reverse.mp ho)) f
  rwa [List.reverse_reverse] at this

theorem bits_inj {x y : BitVec n} (h : bits x = bits y) : x = y := bits_ext fun i _ => congrFun h i

/-- A matrix and the one built from the log of row operations. -/
theorem log_inverse (ops : List RowOp) (h : ∀ o ∈ ops, OpOk n o) :
    Inverse (matMulNum (applyRowOps ops.reverse (identityM n))) (matMulNum (applyRowOps ops (identityM n))) := by
  have hr : ∀ o ∈ ops.reverse, OpOk n o := fun o ho => h o (List.mem_reverse.mp ho)
  constructor
  · intro x
    apply bits_inj
    rw [action_applyOps ops h, matMulNum_identity, action_applyOps _ hr, matMulNum_identity, colOps_reverse' ops h]
  · intro x
    apply bits_inj
    rw [action_applyOps _ hr, matMulNum_identity, action_applyOps ops h, matMulNum_identity, colOps_reverse ops h]

/-- A matrix reduced to the identity. -/
theorem reduce_inverse (ops : List RowOp) (h : ∀ o ∈ ops, OpOk n o) (R : Mat n) (hR : applyRowOps ops R = identityM n) :
    Inverse (matMulNum R) (matMulNum (applyRowOps ops (identityM n))) := by
  have key : ∀ x, colOps ops (bits (matMulNum R x)) = bits x := by
    intro x
    rw [← action_applyOps ops h, hR, matMulNum_identity]
  constructor
  · intro x
    apply bits_inj
    rw [action_applyOps ops h, matMulNum_identity, key]
  · intro x
    apply bits_inj
    have h1 := key (matMulNum (applyRowOps ops (identityM n)) x)
    rw [action_applyOps ops h, matMulNum_identity] at h1
    have h2 := congrArg (colOps ops.reverse) h1
    rwa [colOps_reverse ops h, colOps_reverse ops h] at h2

/-! ### elimination preserves invariants of the state -/

section generic
variable {σ : Type} (tm : σ → Mat n) (act : RowOp → σ → σ) (P : σ → Prop)

theorem clearRows_pres (hP : ∀ o s, OpOk n o → P s → P (act o s)) (l : List Nat) (i : Nat) (hi : i < n)
    (hl : ∀ j ∈ l, j < n ∧ j ≠ i) (s : σ) (h : P s) : P (clearRows tm act l i s) := by
  unfold clearRows
  induction l generalizing s with
  | nil => exact h
  | cons j l ih =>
    rw [List.foldl_cons]
    apply ih (fun x hx => hl x (List.mem_cons_of_mem _ hx))
    have := hl j (List.mem_cons_self ..)
    split
    · exact hP _ _ ⟨this.1, hi, this.2⟩ h
    · exact h

theorem above_ok {i j : Nat} (h : j ∈ List.range' (i + 1) (n - 1 - i)) : j < n ∧ j ≠ i ∧ i < j := by
  rw [List.mem_range'_1] at h; omega

theorem pivotStep_pres (hP : ∀ o s, OpOk n o → P s → P (act o s)) (i : Nat) (hi : i < n) (s s' : σ) (h : P s)
    (hs : pivotStep tm act i s = some s') : P s' := by
  have hl : ∀ j ∈ List.range' (i + 1) (n - 1 - i), j < n ∧ j ≠ i := fun j hj => ⟨(above_ok hj).1, (above_ok hj).2.1⟩
  unfold pivotStep at hs
  split at hs
  · cases hs
    exact clearRows_pres tm act P hP _ i hi hl s h
  · rw [Option.map_eq_some_iff] at hs
    obtain ⟨j, hj, rfl⟩ := hs
    have hj' := hl j (List.mem_of_find?_eq_some hj)
    exact clearRows_pres tm act P hP _ i hi hl _ (hP _ _ ⟨hj'.1, hi, hj'.2⟩ h)

theorem backElim_pres (hP : ∀ o s, OpOk n o → P s → P (act o s)) (s : σ) (h : P s) : P (backElim tm act s) := by
  unfold backElim
  have : ∀ l : List Nat, (∀ t ∈ l, t < n) → ∀ s, P s →
      P (l.foldl (fun s t => clearRows tm act (List.range t).reverse t s) s) := by
    intro l
    induction l with
    | nil => intro _ s h; exact h
    | cons t l ih =>
      intro hl s h
      rw [List.foldl_cons]
      apply ih (fun x hx => hl x (List.mem_cons_of_mem _ hx))
      have ht := hl t (List.mem_cons_self ..)
      refine clearRows_pres tm act P hP _ t ht ?_ s h
      intro j hj
      rw [List.mem_reverse, List.mem_range] at hj
      omega
  exact this _ (fun t ht => List.mem_range.mp (List.mem_reverse.mp ht)) s h

/-! The working matrix does not depend on what else the state records. -/

theorem tm_clearRows (ht : ∀ o s, tm (act o s) = applyRowOp o (tm s)) (l : List Nat) (i : Nat) (s : σ) :
    tm (clearRows tm act l i s) = clearRows id applyRowOp l i (tm s) := by
  unfold clearRows
  induction l generalizing s with
  | nil => rfl
  | cons j l ih =>
    rw [List.foldl_cons, List.foldl_cons, ih]
    congr 1
    simp only [id]
    split
    · exact ht _ _
    · rfl

theorem tm_pivotStep (ht : ∀ o s, tm (act o s) = applyRowOp o (tm s)) (i : Nat) (s : σ) :
    (pivotStep tm act i s).map tm = pivotStep id applyRowOp i (tm s) := by
  unfold pivotStep
  simp only [id]
  split
  · simp only [Option.map_some, tm_clearRows tm act ht]
  · rw [Option.map_map]
    congr 1
    funext j
    simp only [Function.comp, tm_clearRows tm act ht, ht]

theorem tm_backElim (ht : ∀ o s, tm (act o s) = applyRowOp o (tm s)) (s : σ) :
    tm (backElim tm act s) = backElim id applyRowOp (tm s) := by
  unfold backElim
  generalize (List.range n).reverse = l
  induction l generalizing s with
  | nil => rfl
  | cons t l ih => rw [List.foldl_cons, List.foldl_cons, ih, tm_clearRows tm act ht]

end generic

/-! ### shape of the working matrix -/

theorem row_clearRows (l : List Nat) (hnd : l.Nodup) (i : Nat) (hi : i < n) (hl : ∀ j ∈ l, j < n ∧ j ≠ i) (M : Mat n)
    (r : Nat) :
    (clearRows id applyRowOp l i M).row r = if r ∈ l ∧ mbit M r i = true then M.row r ^^^ M.row i else M.row r := by
  unfold clearRows
  induction l generalizing M with
  | nil => simp
  | cons j l ih =>
    have hj := hl j (List.mem_cons_self ..)
    have hjl := (List.nodup_cons.mp hnd).1
    rw [List.foldl_cons, ih (List.nodup_cons.mp hnd).2 (fun x hx => hl x (List.mem_cons_of_mem _ hx))]
    simp only [id, has_eq _ hi]
    by_cases hc : mbit M j i = true
    · rw [if_pos hc]
      simp only [applyRowOp, mbit, row_set _ _ _ hj.1]
      have hij : ¬ i = j := fun e => hj.2 e.symm
      rw [mbit] at hc
      by_cases hr : r = j
      · subst hr; simp [hjl, hc]
      · simp [hr, hij]
    · rw [if_neg hc]
      by_cases hr : r = j
      · subst hr; simp [hjl, hc]
      · simp [hr]

/-- Columns before `i` are those of a unit upper triangular matrix. -/
def Tri (i : Nat) (M : Mat n) : Prop :=
  ∀ c, c < i → mbit M c c = true ∧ ∀ r, r < n → c < r → mbit M r c = false

theorem clear_tri (i : Nat) (hi : i < n) (M : Mat n) (h : Tri i M) (hd : mbit M i i = true) :
    Tri (i + 1) (clearRows id applyRowOp (List.range' (i + 1) (n - 1 - i)) i M) := by
  have hrow := row_clearRows (List.range' (i + 1) (n - 1 - i)) List.nodup_range' i hi
    (fun j hj => ⟨(above_ok hj).1, (above_ok hj).2.1⟩) M
  have hmem : ∀ r, r < n → (r ∈ List.range' (i + 1) (n - 1 - i) ↔ i < r) := by
    intro r hr; rw [List.mem_range'_1]; omega
  intro c hc
  by_cases hci : c < i
  · constructor
    · have : ¬ c ∈ List.range' (i + 1) (n - 1 - i) := fun hm => by have := (above_ok hm).2.2; omega
      rw [mbit, hrow, if_neg (fun hx => this hx.1)]
      exact (h c hci).1
    · intro r hr hcr
      rw [mbit, hrow]
      split
      · rw [bits_xor]
        have h1 := (h c hci).2 r hr hcr
        have h2 := (h c hci).2 i hi hci
        rw [mbit] at h1 h2
        rw [h1, h2]; rfl
      · exact (h c hci).2 r hr hcr
  · have : c = i := by omega
    subst this
    constructor
    · have : ¬ c ∈ List.range' (c + 1) (n - 1 - c) := fun hm => by have := (above_ok hm).2.2; omega
      rw [mbit, hrow, if_neg (fun hx => this hx.1)]
      exact hd
    · intro r hr hcr
      rw [mbit, hrow]
      by_cases hb : mbit M r c = true
      · rw [if_pos ⟨(hmem r hr).mpr hcr, hb⟩, bits_xor]
        rw [mbit] at hb hd
        rw [hb, hd]; rfl
      · rw [if_neg (fun hx => hb hx.2)]
        rw [mbit] at hb
        simpa using hb

theorem pivot_tri (i : Nat) (hi : i < n) (M M' : Mat n) (h : Tri i M) (hs : pivotStep id applyRowOp i M = some M') :
    Tri (i + 1) M' := by
  unfold pivotStep at hs
  simp only [id, has_eq _ hi] at hs
  split at hs
  · next hd =>
    cases hs
    exact clear_tri i hi M h hd
  · rw [Option.map_eq_some_iff] at hs
    obtain ⟨j, hj, rfl⟩ := hs
    have hjm := above_ok (List.mem_of_find?_eq_some hj)
    have hjb := List.find?_some hj
    have hok : OpOk n (.swap j i) := ⟨hjm.1, hi, hjm.2.1⟩
    apply clear_tri i hi
    · intro c hc
      constructor
      · rw [row_applyOp _ hok]
        simp only [colOp]
        rw [if_neg (by omega), if_neg (by omega)]
        exact (h c hc).1
      · intro r hr hcr
        rw [row_applyOp _ hok]
        simp only [colOp]
        split
        · exact (h c hc).2 j hjm.1 (by omega)
        · split
          · exact (h c hc).2 i hi hc
          · exact (h c hc).2 r hr hcr
    · rw [row_applyOp _ hok]
      simp only [colOp, if_true]
      exact hjb

/-- Columns from `t` on are those of a diagonal matrix above the diagonal. -/
def Diag (t : Nat) (M : Mat n) : Prop := ∀ c, t ≤ c → c < n → ∀ r, r < c → mbit M r c = false

theorem back_step (t : Nat) (ht : t < n) (M : Mat n) (hT : Tri n M) (hD : Diag (t + 1) M) :
    Tri n (clearRows id applyRowOp (List.range t).reverse t M) ∧ Diag t (clearRows id applyRowOp (List.range t).reverse t M) := by
  have hrow := row_clearRows (List.range t).reverse (List.pairwise_reverse.mpr (List.nodup_range.imp Ne.symm)) t ht
    (fun j hj => by rw [List.mem_reverse, List.mem_range] at hj; omega) M
  simp only [List.mem_reverse, List.mem_range] at hrow
  have htrow : ∀ c, c < n → bits (M.row t) c = decide (t = c) := by
    intro c hc
    rcases Nat.lt_trichotomy c t with h | h | h
    · have := (hT c hc).2 t ht h
      rw [mbit] at this; rw [this]; simp; omega
    · subst h
      have := (hT c hc).1
      rw [mbit] at this; rw [this]; simp
    · have := hD c (by omega) hc t h
      rw [mbit] at this; rw [this]; simp; omega
  constructor
  · intro c hc
    constructor
    · rw [mbit, hrow]
      split
      · next hx =>
        rw [bits_xor, htrow c hc]
        have := (hT c hc).1
        rw [mbit] at this
        rw [this]; simp; omega
      · exact (hT c hc).1
    · intro r hr hcr
      rw [mbit, hrow]
      split
      · next hx =>
        rw [bits_xor, htrow c hc]
        have := (hT c hc).2 r hr hcr
        rw [mbit] at this
        rw [this]; simp; omega
      · exact (hT c hc).2 r hr hcr
  · intro c htc hc r hr
    by_cases h : t + 1 ≤ c
    · rw [mbit, hrow]
      split
      · rw [bits_xor, htrow c hc]
        have := hD c h hc r hr
        rw [mbit] at this
        rw [this]; simp; omega
      · exact hD c h hc r hr
    · have : c = t := by omega
      subst this
      rw [mbit, hrow]
      by_cases hb : mbit M r c = true
      · rw [if_pos ⟨hr, hb⟩, bits_xor, htrow c hc]
        rw [mbit] at hb
        rw [hb]; simp
      · rw [if_neg (fun hx => hb hx.2)]
        rw [mbit] at hb
        simpa using hb

theorem backElim_identity (M : Mat n) (hT : Tri n M) : backElim id applyRowOp M = identityM n := by
  have : ∀ m, m ≤ n → ∀ M : Mat n, Tri n M → Diag m M →
      Tri n ((List.range m).reverse.foldl (fun s t => clearRows id applyRowOp (List.range t).reverse t s) M) ∧
      Diag 0 ((List.range m).reverse.foldl (fun s t => clearRows id applyRowOp (List.range t).reverse t s) M) := by
    intro m
    induction m with
    | zero => intro _ M hT hD; exact ⟨hT, hD⟩
    | succ m ih =>
      intro hm M hT hD
      rw [List.range_succ, List.reverse_append, List.reverse_singleton, List.singleton_append, List.foldl_cons]
      obtain ⟨h1, h2⟩ := back_step m (by omega) M hT hD
      exact ih (by omega) _ h1 h2
  obtain ⟨h1, h2⟩ := this n (Nat.le_refl _) M hT (fun c hc hc' => by omega)
  unfold backElim
  apply mat_ext
  intro i j hi hj
  rw [mbit_identity hi]
  rcases Nat.lt_trichotomy i j with h | h | h
  · rw [h2 j (Nat.zero_le _) hj i h]; simp; omega
  · subst h; rw [(h1 i hi).1]; simp
  · rw [(h1 j hj).2 i hi h]; simp; omega

/-! ### C33 -/

/-- What `genMatpair` records: the logged operations turn `R` into `temp` and the identity into `inv`. -/
structure Logged (R : Mat n) (s : Gen n) : Prop where
  ok : ∀ o ∈ s.trail, OpOk n o
  temp : s.temp = applyRowOps s.trail R
  inv : s.inv = applyRowOps s.trail (identityM n)

theorem log_logged (R : Mat n) (o : RowOp) (s : Gen n) (ho : OpOk n o) (h : Logged R s) : Logged R (Gen.log o s) := by
  obtain ⟨h1, h2, h3⟩ := h
  refine ⟨?_, ?_, ?_⟩
  · intro x hx
    rcases List.mem_append.mp hx with hx | hx
    · exact h1 x hx
    · rw [List.mem_singleton.mp hx]; exact ho
  · simp [Gen.log, applyRowOps, h2]
  · simp [Gen.log, applyRowOps, h3]

theorem logged_congr (R : Mat n) (s s' : Gen n) (h : Logged R s) (h1 : s'.temp = s.temp) (h2 : s'.inv = s.inv)
    (h3 : s'.trail = s.trail) : Logged R s' :=
  ⟨by rw [h3]; exact h.ok, by rw [h1, h3]; exact h.temp, by rw [h2, h3]; exact h.inv⟩

theorem genFail_logged (R : Mat n) (rnd : Nat → BitVec 32) (i : Nat) (hi : i < n) (s : Gen n) (h : Logged R s) :
    Logged R (genFail rnd i s) := by
  unfold genFail
  simp only
  split
  · next hlt =>
    have hp := Nat.mod_lt (rnd s.pos).toNat (show 0 < n - 1 - i by omega)
    have h1 : Logged R (Gen.log (.swap (i + 1 + (rnd s.pos).toNat % (n - 1 - i)) i)
        { s with invertible := false, pos := s.pos + 1 }) := by
      apply log_logged
      · exact ⟨by omega, hi, by omega⟩
      · exact logged_congr R s _ h rfl rfl rfl
    have : ∀ (l : List Nat), (∀ j ∈ l, j < n ∧ j ≠ i) → ∀ s : Gen n, Logged R s → Logged R (l.foldl (fun s t =>
        if (rnd s.pos).toNat % 2 = 1 then Gen.log (.add t i) { s with pos := s.pos + 1 } else { s with pos := s.pos + 1 }) s) := by
      intro l
      induction l with
      | nil => intro _ s h; exact h
      | cons j l ih =>
        intro hl s h
        rw [List.foldl_cons]
        apply ih (fun x hx => hl x (List.mem_cons_of_mem _ hx))
        have hj := hl j (List.mem_cons_self ..)
        split
        · exact log_logged R _ _ ⟨hj.1, hi, hj.2⟩ (logged_congr R s _ h rfl rfl rfl)
        · exact logged_congr R s _ h rfl rfl rfl
    exact this _ (fun j hj => ⟨(above_ok hj).1, (above_ok hj).2.1⟩) _ h1
  · exact logged_congr R s _ h rfl rfl rfl

/-! the `invertible` flag never comes back -/

theorem clearRows_flag (l : List Nat) (i : Nat) (s : Gen n) :
    (clearRows Gen.temp Gen.log l i s).invertible = s.invertible := by
  unfold clearRows
  induction l generalizing s with
  | nil => rfl
  | cons j l ih => rw [List.foldl_cons, ih]; split <;> rfl

theorem pivotStep_flag (i : Nat) (s s' : Gen n) (h : pivotStep Gen.temp Gen.log i s = some s') :
    s'.invertible = s.invertible := by
  unfold pivotStep at h
  split at h
  · cases h; exact clearRows_flag _ _ _
  · rw [Option.map_eq_some_iff] at h
    obtain ⟨j, _, rfl⟩ := h
    rw [clearRows_flag]; rfl

theorem genFail_flag (rnd : Nat → BitVec 32) (i : Nat) (s : Gen n) : (genFail rnd i s).invertible = false := by
  unfold genFail
  simp only
  split
  · have : ∀ (l : List Nat) (s : Gen n), (l.foldl (fun s t =>
        if (rnd s.pos).toNat % 2 = 1 then Gen.log (.add t i) { s with pos := s.pos + 1 } else { s with pos := s.pos + 1 }) s).invertible
        = s.invertible := by
      intro l
      induction l with
      | nil => intro s; rfl
      | cons j l ih => intro s; rw [List.foldl_cons, ih]; split <;> rfl
    rw [this]; rfl
  · rfl

/-! length of the log -/

theorem clearRows_len (l : List Nat) (i : Nat) (s : Gen n) :
    (clearRows Gen.temp Gen.log l i s).trail.length ≤ s.trail.length + l.length := by
  unfold clearRows
  induction l generalizing s with
  | nil => exact Nat.le_refl _
  | cons j l ih =>
    rw [List.foldl_cons]
    refine Nat.le_trans (ih _) ?_
    split <;> simp [Gen.log] <;> omega

theorem pivotStep_len (i : Nat) (s s' : Gen n) (hi : i < n) (h : pivotStep Gen.temp Gen.log i s = some s') :
    s'.trail.length ≤ s.trail.length + (n - i) := by
  unfold pivotStep at h
  split at h
  · cases h
    have := clearRows_len (List.range' (i + 1) (n - 1 - i)) i s
    rw [List.length_range'] at this
    omega
  · rw [Option.map_eq_some_iff] at h
    obtain ⟨j, _, rfl⟩ := h
    have := clearRows_len (List.range' (i + 1) (n - 1 - i)) i (Gen.log (.swap j i) s)
    rw [List.length_range'] at this
    have e : (Gen.log (.swap j i) s).trail.length = s.trail.length + 1 := by simp [Gen.log]
    omega

theorem genFail_len (rnd : Nat → BitVec 32) (i : Nat) (s : Gen n) :
    (genFail rnd i s).trail.length ≤ s.trail.length + (n - i) := by
  unfold genFail
  simp only
  split
  · have : ∀ (l : List Nat) (s : Gen n), (l.foldl (fun s t =>
        if (rnd s.pos).toNat % 2 = 1 then Gen.log (.add t i) { s with pos := s.pos + 1 } else { s with pos := s.pos + 1 }) s).trail.length
        ≤ s.trail.length + l.length := by
      intro l
      induction l with
      | nil => intro s; exact Nat.le_refl _
      | cons j l ih =>
        intro s
        rw [List.foldl_cons]
        refine Nat.le_trans (ih _) ?_
        split <;> simp [Gen.log] <;> omega
    refine Nat.le_trans (this _ _) ?_
    simp [Gen.log]
    omega
  · simp

theorem backElim_len (s : Gen n) : 2 * (backElim Gen.temp Gen.log s).trail.length + n ≤ 2 * s.trail.length + n * n := by
  unfold backElim
  have : ∀ m (s : Gen n), 2 * ((List.range m).reverse.foldl (fun s t =>
      clearRows Gen.temp Gen.log (List.range t).reverse t s) s).trail.length + m ≤ 2 * s.trail.length + m * m := by
    intro m
    induction m with
    | zero => intro s; simp
    | succ m ih =>
      intro s
      rw [List.range_succ, List.reverse_append, List.reverse_singleton, List.singleton_append, List.foldl_cons]
      have h1 := ih (clearRows Gen.temp Gen.log (List.range m).reverse m s)
      have h2 := clearRows_len (List.range m).reverse m s
      rw [List.length_reverse, List.length_range] at h2
      have : (m + 1) * (m + 1) = m * m + 2 * m + 1 := by
        rw [Nat.add_mul, Nat.mul_add]; omega
      omega
  exact this n s

/-- State of the forward loop. -/
structure Fwd (R : Mat n) (i : Nat) (s : Gen n) : Prop where
  logged : Logged R s
  tri : s.invertible = true → Tri i s.temp
  len : 2 * s.trail.length + i * i ≤ 2 * (i * n) + i

theorem forward_step (R : Mat n) (rnd : Nat → BitVec 32) (i : Nat) (hi : i < n) (s : Gen n) (h : Fwd R i s) :
    Fwd R (i + 1) ((pivotStep Gen.temp Gen.log i s).getD (genFail rnd i s)) := by
  have hlen : ∀ k, k ≤ s.trail.length + (n - i) → 2 * k + (i + 1) * (i + 1) ≤ 2 * ((i + 1) * n) + (i + 1) := by
    intro k hk
    have h0 := h.len
    have e1 : (i + 1) * (i + 1) = i * i + 2 * i + 1 := by rw [Nat.add_mul, Nat.mul_add]; omega
    have e2 : (i + 1) * n = i * n + n := by rw [Nat.add_mul]; omega
    rw [e1, e2]; omega
  cases hp : pivotStep Gen.temp Gen.log i s with
  | some s' =>
    rw [Option.getD_some]
    refine ⟨pivotStep_pres Gen.temp Gen.log (Logged R) (fun o s ho hs => log_logged R o s ho hs) i hi s s' h.logged hp, ?_,
      hlen _ (pivotStep_len i s s' hi hp)⟩
    intro hinv
    rw [pivotStep_flag i s s' hp] at hinv
    have ht := tm_pivotStep Gen.temp Gen.log (fun o s => rfl) i s
    rw [hp, Option.map_some] at ht
    exact pivot_tri i hi s.temp s'.temp (h.tri hinv) ht.symm
  | none =>
    rw [Option.getD_none]
    refine ⟨genFail_logged R rnd i hi s h.logged, ?_, hlen _ (genFail_len rnd i s)⟩
    intro hinv
    rw [genFail_flag] at hinv
    exact absurd hinv (by decide)

theorem forward_inv (R : Mat n) (rnd : Nat → BitVec 32) (s : Gen n) (h : Fwd R 0 s) : Fwd R n (genForward rnd s) := by
  unfold genForward
  have : ∀ m, m ≤ n → Fwd R m ((List.range m).foldl (fun s i =>
      (pivotStep Gen.temp Gen.log i s).getD (genFail rnd i s)) s) := by
    intro m
    induction m with
    | zero => intro _; exact h
    | succ m ih =>
      intro hm
      rw [List.range_succ, List.foldl_append, List.foldl_cons, List.foldl_nil]
      exact forward_step R rnd m (by omega) _ (ih (by omega))
  exact this n (Nat.le_refl _)

/-- The matrices produced are inverse and the log has at most `n * n` entries. -/
theorem genMatpair_spec (rnd : Nat → BitVec 32) (pos : Nat) :
    Inverse (matMulNum (genMatpair n rnd pos).mat) (matMulNum (genMatpair n rnd pos).inv) ∧
    (genMatpair n rnd pos).times ≤ n * n := by
  unfold genMatpair
  simp only
  generalize randM n rnd pos = R
  generalize pos + rowWords n * n = pos'
  have h0 : Fwd R 0 (⟨R, identityM n, [], true, pos'⟩ : Gen n) :=
    ⟨⟨fun o ho => (by cases ho), rfl, rfl⟩, fun _ c hc => by omega, by simp⟩
  have h := forward_inv R rnd _ h0
  generalize genForward rnd (⟨R, identityM n, [], true, pos'⟩ : Gen n) = s at h
  have hl := h.len
  have hnn : n * n ≥ n := by
    cases n with
    | zero => simp
    | succ k => rw [Nat.succ_mul]; omega
  split
  · next hinv =>
    constructor
    · -- the unlogged backward pass
      have hb : ∃ ops, (∀ o ∈ ops, OpOk n o) ∧ (backElim Gen.temp Gen.nolog s).temp = applyRowOps ops R ∧
          (backElim Gen.temp Gen.nolog s).inv = applyRowOps ops (identityM n) := by
        apply backElim_pres Gen.temp Gen.nolog
          (fun s => ∃ ops, (∀ o ∈ ops, OpOk n o) ∧ s.temp = applyRowOps ops R ∧ s.inv = applyRowOps ops (identityM n))
        · rintro o s ho ⟨ops, h1, h2, h3⟩
          refine ⟨ops ++ [o], ?_, ?_, ?_⟩
          · intro x hx
            rcases List.mem_append.mp hx with hx | hx
            · exact h1 x hx
            · rw [List.mem_singleton.mp hx]; exact ho
          · simp [Gen.nolog, applyRowOps, h2]
          · simp [Gen.nolog, applyRowOps, h3]
        · exact ⟨s.trail, h.logged.ok, h.logged.temp, h.logged.inv⟩
      obtain ⟨ops, h1, h2, h3⟩ := hb
      rw [tm_backElim Gen.temp Gen.nolog (fun o s => rfl), backElim_identity _ (h.tri hinv)] at h2
      rw [h3]
      exact reduce_inverse ops h1 R h2.symm
    · show s.trail.length ≤ n * n
      omega
  · have hb : Logged R (backElim Gen.temp Gen.log s) :=
      backElim_pres Gen.temp Gen.log (Logged R) (fun o s ho hs => log_logged R o s ho hs) s h.logged
    have hlen := backElim_len s
    constructor
    · rw [hb.inv]
      exact log_inverse _ hb.ok
    · show (backElim Gen.temp Gen.log s).trail.length ≤ n * n
      omega

/-- C33: for every random stream the 8-bit and 32-bit generators return inverse matrices; `trail` (64 and 1024 entries)
is large enough. -/
theorem C33_matrix_pairs (rnd : Nat → BitVec 32) (pos : Nat) :
    (Inverse (matMulNum (genMatpair 8 rnd pos).mat) (matMulNum (genMatpair 8 rnd pos).inv) ∧
      (genMatpair 8 rnd pos).times ≤ 64) ∧
    (Inverse (matMulNum (genMatpair 32 rnd pos).mat) (matMulNum (genMatpair 32 rnd pos).inv) ∧
      (genMatpair 32 rnd pos).times ≤ 1024) :=
  ⟨genMatpair_spec rnd pos, genMatpair_spec rnd pos⟩

/-- C33 for the remaining sizes (`trail` has 16, 256 and 4096 entries). -/
theorem C33_other_sizes (rnd : Nat → BitVec 32) (pos : Nat) :
    (Inverse (matMulNum (genMatpair 4 rnd pos).mat) (matMulNum (genMatpair 4 rnd pos).inv) ∧
      (genMatpair 4 rnd pos).times ≤ 16) ∧
    (Inverse (matMulNum (genMatpair 16 rnd pos).mat) (matMulNum (genMatpair 16 rnd pos).inv) ∧
      (genMatpair 16 rnd pos).times ≤ 256) ∧
    (Inverse (matMulNum (genMatpair 64 rnd pos).mat) (matMulNum (genMatpair 64 rnd pos).inv) ∧
      (genMatpair 64 rnd pos).times ≤ 4096) :=
  ⟨genMatpair_spec rnd pos, genMatpair_spec rnd pos, genMatpair_spec rnd pos⟩

/- A stream whose start matrix is singular (all zero), so that the replacement branch runs. -/
example : (genMatpair 4 (fun i => if i < 4 then 0 else 3) 0).times = 9 := by decide +kernel

/- A stream with an invertible start matrix. -/
example : (genMatpair 4 (fun i => #v[0x8, 0xC, 0xE, 0xF][i % 4]'(Nat.mod_lt _ (by decide))) 0).mat = #v[0x8, 0xC, 0xE, 0xF] := by
  decide +kernel

/-- C33: affine pairs are inverse too. -/
theorem C33_affine_pairs (n : Nat) [WSize n] [LawfulWSize n] (rnd : Nat → BitVec 32) (pos : Nat) :
    Inverse (affineU (genaffinepair n rnd pos).1) (affineU (genaffinepair n rnd pos).2.1) := by
  have h := (genMatpair_spec (n := n) rnd pos).1
  constructor
  · intro x
    simp only [genaffinepair, affineU, matMulNum_xor, h.1]
    rw [BitVec.xor_assoc, BitVec.xor_self, BitVec.xor_zero]
  · intro x
    simp only [genaffinepair, affineU, matMulNum_xor, h.2]
    rw [BitVec.xor_assoc, BitVec.xor_self, BitVec.xor_zero]

/-! ### C34 -/

/-- C34: what matrix application means (row times column), that it distributes over xor, and that products and composed
affine maps act one after the other. -/
theorem C34_laws (n : Nat) [WSize n] [LawfulWSize n] (A B : Mat n) (f g : Aff n) (x y : BitVec n) :
    (∀ i, i < n → bits (matMulNum A x) i = gsum n (fun k => bits (A.row i) k && bits x k)) ∧
    matMulNum A (x ^^^ y) = matMulNum A x ^^^ matMulNum A y ∧
    matMulNum (identityM n) x = x ∧
    (∀ i j, i < n → j < n →
      bits ((matMulMat A B).row i) j = gsum n (fun k => bits (A.row i) k && bits (B.row k) j)) ∧
    matMulNum (matMulMat A B) x = matMulNum A (matMulNum B x) ∧
    affineU (affinemix f g) x = affineU f (affineU g x) :=
  ⟨fun _ hi => bits_matMulNum A x hi, matMulNum_xor A x y, matMulNum_identity x, fun _ _ hi hj => mbit_matMulMat A B hi hj,
    matMulNum_matMulMat A B x, affineU_affinemix f g x⟩

/-- C34: four 8-bit maps combined act bytewise. -/
theorem C34_combine (m1 m2 m3 m4 : Mat 8) (a1 a2 a3 a4 : Aff 8) (a b c d : Byte) :
    matMulNum (matrixcom8to32 m1 m2 m3 m4) (a ++ b ++ c ++ d : BitVec 32) =
      (matMulNum m1 a ++ matMulNum m2 b ++ matMulNum m3 c ++ matMulNum m4 d : BitVec 32) ∧
    affineU (affinecom8to32 a1 a2 a3 a4) (a ++ b ++ c ++ d : BitVec 32) =
      (affineU a1 a ++ affineU a2 b ++ affineU a3 c ++ affineU a4 d : BitVec 32) :=
  ⟨matMulNum_com m1 m2 m3 m4 a b c d, affineU_com a1 a2 a3 a4 a b c d⟩

/- The sizes used by the library are instances. -/
example := C34_laws 8 #v[1, 2, 3, 4, 5, 6, 7, 8] (identityM 8) ⟨identityM 8, 5⟩ ⟨identityM 8, 9⟩ 0x53 0xCA
example : matMulNum (n := 4) #v[1, 2, 4, 8] 0b1100 = 0b0011 := by decide +kernel

/-! ### `isinvertMn`, `invsMn` -/

theorem foldlM_range_some {α : Type} (f : α → Nat → Option α) (Q : Nat → α → Prop) (hf : ∀ i a b, Q i a → f a i = some b → Q (i + 1) b)
    (m : Nat) (a b : α) (h0 : Q 0 a) (h : (List.range m).foldlM f a = some b) : Q m b := by
  induction m generalizing b with
  | zero => simp at h; subst h; exact h0
  | succ m ih =>
    rw [List.range_succ, List.foldlM_append] at h
    cases hc : (List.range m).foldlM f a with
    | none => rw [hc] at h; simp at h
    | some c =>
      rw [hc] at h
      simp at h
      exact hf m c b (ih c hc) h

theorem foldlM_range_none {α : Type} (f : α → Nat → Option α) (m : Nat) (a : α) (h : (List.range m).foldlM f a = none) :
    ∃ k c, k < m ∧ (List.range k).foldlM f a = some c ∧ f c k = none := by
  induction m with
  | zero => simp at h
  | succ m ih =>
    cases hc : (List.range m).foldlM f a with
    | none =>
      obtain ⟨k, c, hk, h1, h2⟩ := ih hc
      exact ⟨k, c, by omega, h1, h2⟩
    | some c =>
      rw [List.range_succ, List.foldlM_append, hc] at h
      simp at h
      exact ⟨m, c, by omega, hc, h⟩

/-- No pivot: column `i` of the working matrix depends on the earlier ones. -/
theorem singular_of_no_pivot (i : Nat) (hi : i < n) (M : Mat n) (h : Tri i M) (hs : pivotStep id applyRowOp i M = none) :
    ∃ x : BitVec n, x ≠ 0 ∧ matMulNum M x = 0 := by
  have hcol : ∀ r, r < n → i ≤ r → mbit M r i = false := by
    unfold pivotStep at hs
    simp only [id, has_eq _ hi] at hs
    split at hs
    · exact absurd hs (by simp)
    · next hd =>
      rw [Option.map_eq_none_iff, List.find?_eq_none] at hs
      intro r hr hir
      by_cases he : r = i
      · subst he; simpa using hd
      · have := hs r (by rw [List.mem_range'_1]; omega)
        simpa using this
  have key : ∀ d, d ≤ i → ∃ x : BitVec n, bits x i = true ∧ ∀ r, i - d ≤ r → r < n → bits (matMulNum M x) r = false := by
    intro d
    induction d with
    | zero =>
      intro _
      refine ⟨idRow n i, by rw [idRow_bits hi]; simp, ?_⟩
      intro r hr hrn
      rw [← mbit_of_action M hrn hi]
      exact hcol r hrn (by omega)
    | succ d ih =>
      intro hd
      obtain ⟨x, hx, hz⟩ := ih (by omega)
      by_cases hb : bits (matMulNum M x) (i - (d + 1)) = true
      · refine ⟨x ^^^ idRow n (i - (d + 1)), ?_, ?_⟩
        · rw [bits_xor, hx, idRow_bits (by omega)]; simp; omega
        · intro r hr hrn
          rw [matMulNum_xor, bits_xor, ← mbit_of_action M hrn (show i - (d + 1) < n by omega)]
          by_cases he : r = i - (d + 1)
          · subst he
            rw [hb, (h _ (by omega)).1]; rfl
          · rw [hz r (by omega) hrn, (h (i - (d + 1)) (by omega)).2 r hrn (by omega)]; rfl
      · refine ⟨x, hx, ?_⟩
        intro r hr hrn
        by_cases he : r = i - (d + 1)
        · subst he; simpa using hb
        · exact hz r (by omega) hrn
  obtain ⟨x, hx, hz⟩ := key i (Nat.le_refl _)
  refine ⟨x, ?_, ?_⟩
  · intro h0
    rw [h0, bits_zero] at hx
    exact absurd hx (by decide)
  · apply bits_ext
    intro r hr
    rw [hz r (by omega) hr, bits_zero]

theorem colOps_zero (ops : List RowOp) : colOps ops (fun _ => false) = fun _ => false := by
  induction ops with
  | nil => rfl
  | cons o ops ih =>
    have : colOp o (fun _ => false) = fun _ => false := by
      funext k
      cases o <;> simp [colOp]
    show colOps ops (colOp o _) = _
    rw [this, ih]

/-- Kernel of the working matrix and of the original. -/
theorem kernel_applyOps (ops : List RowOp) (hok : ∀ o ∈ ops, OpOk n o) (M : Mat n) (x : BitVec n)
    (h : matMulNum (applyRowOps ops M) x = 0) : matMulNum M x = 0 := by
  apply bits_inj
  have h1 := action_applyOps ops hok M x
  rw [h] at h1
  have h0 : bits (0 : BitVec n) = fun _ => false := funext fun i => bits_zero i
  have h2 := colOps_reverse ops hok (bits (matMulNum M x))
  rw [← h1, h0, colOps_zero] at h2
  rw [h0]; exact h2.symm

def ElimInv (M : Mat n) (i : Nat) (s : Mat n) : Prop := i ≤ n → Tri i s ∧ ∃ ops, (∀ o ∈ ops, OpOk n o) ∧ s = applyRowOps ops M

theorem elimInv_step (M : Mat n) (i : Nat) (s s' : Mat n) (h : ElimInv M i s) (hs : pivotStep id applyRowOp i s = some s') :
    ElimInv M (i + 1) s' := by
  intro hi
  obtain ⟨h1, h2⟩ := h (by omega)
  refine ⟨pivot_tri i (by omega) s s' h1 hs, ?_⟩
  refine pivotStep_pres id applyRowOp (fun s => ∃ ops, (∀ o ∈ ops, OpOk n o) ∧ s = applyRowOps ops M) ?_ i (by omega) s s' h2 hs
  rintro o s ho ⟨ops, h1, h2⟩
  refine ⟨ops ++ [o], ?_, ?_⟩
  · intro x hx
    rcases List.mem_append.mp hx with hx | hx
    · exact h1 x hx
    · rw [List.mem_singleton.mp hx]; exact ho
  · simp [applyRowOps, h2]

theorem elimInv_zero (M : Mat n) : ElimInv M 0 M :=
  fun _ => ⟨fun c hc => by omega, [], fun o ho => (by cases ho), rfl⟩

def invsAct : RowOp → Mat n × Mat n → Mat n × Mat n := fun o s => (applyRowOp o s.1, applyRowOp o s.2)

def invsStep (s : Mat n × Mat n) (i : Nat) : Mat n × Mat n :=
  (pivotStep Prod.fst invsAct i s).getD (clearRows Prod.fst invsAct (List.range' (i + 1) (n - 1 - i)) i s)

def PairInv (M : Mat n) (s : Mat n × Mat n) : Prop :=
  ∃ ops, (∀ o ∈ ops, OpOk n o) ∧ s.1 = applyRowOps ops M ∧ s.2 = applyRowOps ops (identityM n)

theorem pairInv_act (M : Mat n) (o : RowOp) (s : Mat n × Mat n) (ho : OpOk n o) (h : PairInv M s) :
    PairInv M (invsAct o s) := by
  obtain ⟨ops, h1, h2, h3⟩ := h
  refine ⟨ops ++ [o], ?_, ?_, ?_⟩
  · intro x hx
    rcases List.mem_append.mp hx with hx | hx
    · exact h1 x hx
    · rw [List.mem_singleton.mp hx]; exact ho
  · simp [invsAct, applyRowOps, h2]
  · simp [invsAct, applyRowOps, h3]

theorem invs_forward (M : Mat n) (m : Nat) (hm : m ≤ n) (s : Mat n)
    (h : (List.range m).foldlM (fun s i => pivotStep id applyRowOp i s) M = some s) :
    ((List.range m).foldl invsStep (M, identityM n)).1 = s ∧
    PairInv M ((List.range m).foldl invsStep (M, identityM n)) := by
  induction m generalizing s with
  | zero =>
    simp at h
    subst h
    exact ⟨rfl, [], fun o ho => (by cases ho), rfl, rfl⟩
  | succ m ih =>
    rw [List.range_succ, List.foldlM_append] at h
    cases hc : (List.range m).foldlM (fun s i => pivotStep id applyRowOp i s) M with
    | none => rw [hc] at h; simp at h
    | some c =>
      rw [hc] at h
      simp at h
      obtain ⟨h1, h2⟩ := ih (by omega) c hc
      rw [List.range_succ, List.foldl_append, List.foldl_cons, List.foldl_nil]
      generalize (List.range m).foldl invsStep (M, identityM n) = q at h1 h2
      have ht := tm_pivotStep Prod.fst invsAct (fun o s => rfl) m q
      rw [h1, h] at ht
      cases hq : pivotStep Prod.fst invsAct m q with
      | none => rw [hq] at ht; simp at ht
      | some q' =>
        rw [hq] at ht
        simp at ht
        rw [invsStep, hq, Option.getD_some]
        exact ⟨ht, pivotStep_pres Prod.fst invsAct (PairInv M) (pairInv_act M) m (by omega) q q' h2 hq⟩

/-- C64: `isinvert` answers exactly whether the matrix has an inverse map, and in that case `invs` computes it. -/
theorem C64_matrix_inverse (n : Nat) [WSize n] [LawfulWSize n] (M : Mat n) :
    (isinvertM M = true ↔ ∃ g, Inverse (matMulNum M) g) ∧
    (isinvertM M = true → Inverse (matMulNum M) (matMulNum (invsM M))) := by
  have hgood : isinvertM M = true → Inverse (matMulNum M) (matMulNum (invsM M)) := by
    intro h
    unfold isinvertM at h
    cases hf : (List.range n).foldlM (fun s i => pivotStep id applyRowOp i s) M with
    | none => rw [hf] at h; simp at h
    | some s =>
      obtain ⟨h1, h2⟩ := invs_forward M n (Nat.le_refl _) s hf
      have hT := (foldlM_range_some (fun s i => pivotStep id applyRowOp i s) (ElimInv M) (fun i a b ha hb => elimInv_step M i a b ha hb)
        n M s (elimInv_zero M) hf (Nat.le_refl _)).1
      have hb := backElim_pres Prod.fst invsAct (PairInv M) (pairInv_act M) _ h2
      have ht := tm_backElim Prod.fst invsAct (fun o s => rfl) ((List.range n).foldl invsStep (M, identityM n))
      rw [h1, backElim_identity s hT] at ht
      obtain ⟨ops, o1, o2, o3⟩ := hb
      have he : invsM M = (backElim Prod.fst invsAct ((List.range n).foldl invsStep (M, identityM n))).2 := rfl
      rw [he, o3]
      exact reduce_inverse ops o1 M (by rw [← o2, ht])
  refine ⟨⟨fun h => ⟨_, hgood h⟩, ?_⟩, hgood⟩
  rintro ⟨g, hg⟩
  unfold isinvertM
  cases hf : (List.range n).foldlM (fun s i => pivotStep id applyRowOp i s) M with
  | some s =>
    have hT := (foldlM_range_some (fun s i => pivotStep id applyRowOp i s) (ElimInv M) (fun i a b ha hb => elimInv_step M i a b ha hb)
      n M s (elimInv_zero M) hf (Nat.le_refl _)).1
    simp only [beq_iff_eq]
    apply bits_ext
    intro c hc
    rw [idRow_bits (by omega)]
    by_cases he : n - 1 = c
    · subst he
      have := (hT (n - 1) hc).1
      rw [mbit] at this
      rw [this]; simp
    · have := (hT c hc).2 (n - 1) (by omega) (by omega)
      rw [mbit] at this
      rw [this]; simp [he]
  | none =>
    exfalso
    obtain ⟨k, c, hk, h1, h2⟩ := foldlM_range_none _ n M hf
    obtain ⟨hT, ops, o1, o2⟩ := foldlM_range_some (fun s i => pivotStep id applyRowOp i s) (ElimInv M)
      (fun i a b ha hb => elimInv_step M i a b ha hb) k M c (elimInv_zero M) h1 (by omega)
    obtain ⟨x, hx, hz⟩ := singular_of_no_pivot k hk c hT h2
    rw [o2] at hz
    have hm := kernel_applyOps ops o1 M x hz
    apply hx
    have h0 := hg.1 0
    rw [matMulNum_zero] at h0
    rw [← hg.1 x, hm, h0]

example : isinvertM (n := 4) #v[0x1, 0x2, 0x4, 0x9] = true := by decide +kernel
example : isinvertM (n := 4) #v[0x1, 0x2, 0x4, 0x7] = false := by decide +kernel

/-! ### C35 -/

section perm
variable {N : Nat}

/-- A permutation as a vector. -/
def IsPerm (p : Vector (Fin N) N) : Prop := (∀ a b : Fin N, p[a] = p[b] → a = b) ∧ ∀ x : Fin N, ∃ a : Fin N, p[a] = x

theorem swapAt_get (p : Vector (Fin N) N) (i j a : Fin N) :
    (swapAt p i j)[a] = if a = j then p[i] else if a = i then p[j] else p[a] := by
  have hi : (i.1 = a.1) ↔ (a = i) := ⟨fun h => Fin.ext h.symm, fun h => by rw [h]⟩
  have hj : (j.1 = a.1) ↔ (a = j) := ⟨fun h => Fin.ext h.symm, fun h => by rw [h]⟩
  simp only [swapAt, Fin.getElem_fin, Vector.getElem_set, hi, hj]

theorem swapAt_perm (p : Vector (Fin N) N) (i j : Fin N) (h : IsPerm p) : IsPerm (swapAt p i j) := by
  constructor
  · intro a b hab
    rw [swapAt_get, swapAt_get] at hab
    have inj := h.1
    repeat' split at hab
    all_goals first
      | (subst_vars; rfl)
      | (have := inj _ _ hab; subst_vars; simp_all)
  · intro x
    obtain ⟨a, ha⟩ := h.2 x
    by_cases h1 : a = i
    · exact ⟨j, by rw [swapAt_get, if_pos rfl, ← h1, ha]⟩
    · by_cases h2 : a = j
      · subst h2
        by_cases h3 : i = a
        · exact absurd h3.symm h1
        · exact ⟨i, by rw [swapAt_get, if_neg h3, if_pos rfl, ha]⟩
      · exact ⟨a, by rw [swapAt_get, if_neg h2, if_neg h1, ha]⟩

theorem foldl_set_perm (p : Vector (Fin N) N) (hp : IsPerm p) (l : List (Fin N)) (q : Vector (Fin N) N) (a : Fin N) :
    (l.foldl (fun q i => q.set (p[i] : Fin N) i) q)[p[a]] = if a ∈ l then a else q[p[a]] := by
  induction l generalizing q with
  | nil => simp
  | cons i l ih =>
    rw [List.foldl_cons, ih]
    by_cases hl : a ∈ l
    · simp [hl]
    · by_cases hai : a = i
      · subst hai; simp [hl]
      · have hne : (p[i] : Fin N).1 ≠ (p[a] : Fin N).1 := fun he => hai (hp.1 _ _ (Fin.ext he)).symm
        rw [if_neg hl, if_neg (by simp [hai, hl])]
        simp only [Fin.getElem_fin] at hne ⊢
        rw [Vector.getElem_set_ne _ _ hne]

theorem permShuffle_perm (rnd : Nat → BitVec 32) : IsPerm (permShuffle N rnd) := by
  unfold permShuffle
  have h0 : IsPerm (Vector.ofFn id : Vector (Fin N) N) := by
    constructor
    · intro a b h; simpa using h
    · intro x; exact ⟨x, by simp⟩
  generalize (Vector.ofFn id : Vector (Fin N) N) = p at h0
  generalize List.finRange N = l
  induction l generalizing p with
  | nil => exact h0
  | cons i l ih =>
    rw [List.foldl_cons]
    apply ih
    split
    · exact swapAt_perm p _ _ h0
    · exact h0

theorem permInvert_spec (p junk : Vector (Fin N) N) (hperm : IsPerm p) :
    (∀ a : Fin N, (permInvert p junk)[p[a]] = a) ∧ ∀ a : Fin N, p[(permInvert p junk)[a]] = a := by
  have h1 : ∀ a : Fin N, (permInvert p junk)[p[a]] = a := by
    intro a
    rw [permInvert, foldl_set_perm p hperm, if_pos (List.mem_finRange a)]
  refine ⟨h1, ?_⟩
  intro x
  obtain ⟨a, ha⟩ := hperm.2 x
  subst ha
  exact congrArg (fun z : Fin N => p[z]) (h1 a)

theorem genPermutation_spec (rnd : Nat → BitVec 32) (junk : Vector (Fin N) N) :
    (∀ a : Fin N, (genPermutation rnd junk).2[(genPermutation rnd junk).1[a]] = a) ∧
    (∀ a : Fin N, (genPermutation rnd junk).1[(genPermutation rnd junk).2[a]] = a) :=
  permInvert_spec (permShuffle N rnd) junk (permShuffle_perm rnd)

end perm

/-- C35: for every random stream and any previous content of the output array, the generators return a permutation and
its inverse. -/
theorem C35_permutations (rnd : Nat → BitVec 32) (junk4 : Vector (Fin 16) 16) (junk8 : Vector (Fin 256) 256) :
    ((∀ a : Fin 16, (genPermutation rnd junk4).2[(genPermutation rnd junk4).1[a]] = a) ∧
      ∀ a : Fin 16, (genPermutation rnd junk4).1[(genPermutation rnd junk4).2[a]] = a) ∧
    ((∀ a : Fin 256, (genPermutation rnd junk8).2[(genPermutation rnd junk8).1[a]] = a) ∧
      ∀ a : Fin 256, (genPermutation rnd junk8).1[(genPermutation rnd junk8).2[a]] = a) :=
  ⟨genPermutation_spec rnd junk4, genPermutation_spec rnd junk8⟩

example : (genPermutation (fun _ => 7) (Vector.replicate 16 (0 : Fin 16))).1[0] = 7 := by decide +kernel

end Verif.Props
