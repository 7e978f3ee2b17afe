import Verif.Props.Seed

/-!
C89, continued: which numbers of the generator go where. The generators of matrices and permutations read the numbers they count and no
others, and whatever is drawn next begins with the first number not yet read. An affine map takes its matrix from the second seeding and
its vector from the third.
-/
set_option autoImplicit false

namespace Verif.Props
open Verif Spec Model

/-- A step that reads the numbers from `s.pos` up to the position it leaves, and no others. -/
def Reads {n : Nat} (f : (Nat → BitVec 32) → Gen n → Gen n) : Prop := ∀ rnd rnd' s, s.pos ≤ (f rnd s).pos ∧
  ((∀ k, s.pos ≤ k → k < (f rnd s).pos → rnd k = rnd' k) → f rnd' s = f rnd s)

theorem reads_pure {n : Nat} (f : Gen n → Gen n) (h : ∀ s, (f s).pos = s.pos) : Reads fun _ => f :=
  fun _ _ s => ⟨(h s).ge, fun _ => rfl⟩

theorem reads_comp {n : Nat} {f g : (Nat → BitVec 32) → Gen n → Gen n} (hf : Reads f) (hg : Reads g) :
    Reads fun rnd s => g rnd (f rnd s) := by
  intro rnd rnd' s
  have a := hf rnd rnd' s
  have b := hg rnd rnd' (f rnd s)
  refine ⟨a.1.trans b.1, fun h => ?_⟩
  have e := a.2 fun k h1 h2 => h k h1 (lt_of_lt_of_le h2 b.1)
  have e' := b.2 fun k h1 h2 => h k (a.1.trans h1) h2
  show g rnd' (f rnd' s) = g rnd (f rnd s)
  rw [e, e']

theorem reads_ite {n : Nat} (c : Gen n → Prop) [∀ s, Decidable (c s)] {f g : (Nat → BitVec 32) → Gen n → Gen n} (hf : Reads f)
    (hg : Reads g) : Reads fun rnd s => if c s then f rnd s else g rnd s := by
  intro rnd rnd' s
  by_cases h : c s
  · simp only [if_pos h]; exact hf rnd rnd' s
  · simp only [if_neg h]; exact hg rnd rnd' s

theorem reads_fold {n : Nat} {β : Type} (l : List β) (f : (Nat → BitVec 32) → Gen n → β → Gen n) (h : ∀ b, Reads fun rnd s => f rnd s b) :
    Reads fun rnd s => l.foldl (f rnd) s := by
  induction l with
  | nil => exact reads_pure _ fun _ => rfl
  | cons b l ih => exact reads_comp (h b) ih

theorem pos_fold {n : Nat} {β : Type} (l : List β) (f : Gen n → β → Gen n) (h : ∀ s b, (f s b).pos = s.pos) (s : Gen n) :
    (l.foldl f s).pos = s.pos := by
  induction l generalizing s with
  | nil => rfl
  | cons b l ih => rw [List.foldl_cons, ih, h]

theorem pos_clear {n : Nat} [WSize n] (act : RowOp → Gen n → Gen n) (h : ∀ o s, (act o s).pos = s.pos) (l : List Nat) (i : Nat) (s : Gen n) :
    (clearRows Gen.temp act l i s).pos = s.pos := by
  unfold clearRows
  refine pos_fold l _ (fun s j => ?_) s
  split
  · exact h _ _
  · rfl

theorem pos_back {n : Nat} [WSize n] (act : RowOp → Gen n → Gen n) (h : ∀ o s, (act o s).pos = s.pos) (s : Gen n) :
    (backElim Gen.temp act s).pos = s.pos := by
  unfold backElim
  exact pos_fold _ _ (fun s t => pos_clear act h _ _ s) s

theorem pos_pivot {n : Nat} [WSize n] (i : Nat) (s s' : Gen n) (h : pivotStep Gen.temp Gen.log i s = some s') : s'.pos = s.pos := by
  unfold pivotStep at h
  split at h
  · cases h
    exact pos_clear Gen.log (fun _ _ => rfl) _ _ _
  · obtain ⟨j, _, rfl⟩ := Option.map_eq_some_iff.mp h
    exact pos_clear Gen.log (fun _ _ => rfl) _ _ _

/-- The next number, and with it a step that reads nothing more. -/
theorem reads_next {n : Nat} (f : BitVec 32 → Gen n → Gen n) (h : ∀ r s, (f r s).pos = s.pos) :
    Reads fun rnd s => f (rnd s.pos) { s with pos := s.pos + 1 } := by
  intro rnd rnd' s
  have e : ∀ r, (f r { s with pos := s.pos + 1 }).pos = s.pos + 1 := fun r => h r _
  refine ⟨by show s.pos ≤ (f (rnd s.pos) _).pos; rw [e]; omega, fun hk => ?_⟩
  have := hk s.pos (Nat.le_refl _) (by show s.pos < (f (rnd s.pos) _).pos; rw [e]; omega)
  show f (rnd' s.pos) _ = f (rnd s.pos) _
  rw [this]

theorem reads_fail {n : Nat} (i : Nat) : Reads fun rnd (s : Gen n) => genFail rnd i s := by
  have h1 : Reads fun (_ : Nat → BitVec 32) (s : Gen n) => { s with invertible := false } := reads_pure _ fun _ => rfl
  by_cases hi : i < n - 1
  · have h2 := reads_next (n := n) (fun r s => Gen.log (.swap (i + 1 + r.toNat % (n - 1 - i)) i) s) fun _ _ => rfl
    have h3 := reads_fold (List.range' (i + 1) (n - 1 - i)) _ fun t =>
      reads_next (n := n) (fun r s => if r.toNat % 2 = 1 then Gen.log (.add t i) s else s) (fun r s => by split <;> rfl)
    have h := reads_comp (reads_comp h1 h2) h3
    intro rnd rnd' s
    have := h rnd rnd' s
    simp only [genFail, if_pos hi]
    exact this
  · intro rnd rnd' s
    have e : ∀ rnd, genFail rnd i s = { s with invertible := false } := fun rnd => by simp only [genFail, if_neg hi]
    simp only [e]
    exact ⟨Nat.le_refl _, fun _ => trivial⟩

theorem reads_forward {n : Nat} [WSize n] : Reads fun rnd (s : Gen n) => genForward rnd s := by
  refine reads_fold (List.range n) _ fun i => ?_
  intro rnd rnd' s
  simp only []
  cases h : pivotStep Gen.temp Gen.log i s with
  | none => exact reads_fail i rnd rnd' s
  | some s' => exact ⟨(pos_pivot i s s' h).ge, fun _ => rfl⟩

theorem randM_reads {n : Nat} (rnd rnd' : Nat → BitVec 32) (pos : Nat)
    (h : ∀ k, pos ≤ k → k < pos + rowWords n * n → rnd k = rnd' k) : randM n rnd' pos = randM n rnd pos := by
  unfold randM
  apply Vector.ext
  intro i hi
  simp only [Vector.getElem_ofFn]
  have hw : rowWords n * i + rowWords n ≤ rowWords n * n := by
    rw [← Nat.mul_succ]; exact Nat.mul_le_mul_left _ hi
  unfold randRow
  unfold rowWords at hw h ⊢
  split
  · rename_i h32
    simp only [if_pos h32] at hw h ⊢
    rw [h (pos + 1 * i) (by omega) (by omega)]
  · rename_i h32
    simp only [if_neg h32] at hw h ⊢
    split
    · rename_i h64
      simp only [if_pos h64] at hw h ⊢
      rw [h (pos + 2 * i) (by omega) (by omega), h (pos + 2 * i + 1) (by omega) (by omega)]
    · rename_i h64
      simp only [if_neg h64] at hw h ⊢
      rw [h (pos + 4 * i) (by omega) (by omega), h (pos + 4 * i + 1) (by omega) (by omega), h (pos + 4 * i + 2) (by omega) (by omega),
        h (pos + 4 * i + 3) (by omega) (by omega)]

theorem genMatpair_pos {n : Nat} [WSize n] (rnd : Nat → BitVec 32) (pos : Nat) :
    (genMatpair n rnd pos).pos = (genForward rnd ⟨randM n rnd pos, identityM n, [], true, pos + rowWords n * n⟩).pos := by
  unfold genMatpair
  simp only []
  split
  · rfl
  · exact pos_back Gen.log (fun _ _ => rfl) _

/-- **C89.** The generator of matrix pairs reads the numbers up to the position it returns and no others. -/
theorem C89_matrix_numbers {n : Nat} [WSize n] (rnd rnd' : Nat → BitVec 32) (pos : Nat)
    (h : ∀ k, pos ≤ k → k < (genMatpair n rnd pos).pos → rnd k = rnd' k) : genMatpair n rnd' pos = genMatpair n rnd pos := by
  rw [genMatpair_pos] at h
  have f := reads_forward rnd rnd' (⟨randM n rnd pos, identityM n, [], true, pos + rowWords n * n⟩ : Gen n)
  have hm : randM n rnd' pos = randM n rnd pos := randM_reads rnd rnd' pos fun k h1 h2 => h k h1 (lt_of_lt_of_le h2 f.1)
  have hf := f.2 fun k h1 h2 => h k (le_trans (Nat.le_add_right pos _) h1) h2
  have e : genForward rnd' ⟨randM n rnd pos, identityM n, [], true, pos + rowWords n * n⟩ =
      genForward rnd ⟨randM n rnd pos, identityM n, [], true, pos + rowWords n * n⟩ := hf
  unfold genMatpair
  simp only [hm, e]

theorem randAfter_add (s : RandSt) (m j : Nat) : randAfter (randAfter s m) j = randAfter s (m + j) := by
  induction j with
  | zero => rfl
  | succ j ih =>
    show (cusRandom (randAfter (randAfter s m) j)).2 = (cusRandom (randAfter s (m + j))).2
    rw [ih]

theorem randNth_add (s : RandSt) (m j : Nat) : randNth (randAfter s m) j = randNth s (m + j) := by
  unfold randNth; rw [randAfter_add]

theorem rnd16_shift (rnd rnd' : Nat → BitVec 32) (p p' : Nat) (k : Nat) (h : ∀ j, j < k → rnd (p + j) = rnd' (p' + j)) :
    rnd16 rnd p k = rnd16 rnd' p' k := by
  induction k with
  | zero => rfl
  | succ k ih =>
    show (rnd16 rnd p k <<< 16) ||| _ = (rnd16 rnd' p' k <<< 16) ||| _
    rw [ih fun j hj => h j (by omega), h k (by omega)]

theorem randV_shift (n : Nat) (rnd rnd' : Nat → BitVec 32) (p : Nat) (h : ∀ j, rnd (p + j) = rnd' j) : (randV n rnd p).1 = (randV n rnd' 0).1 := by
  unfold randV
  split
  · show (rnd p).setWidth n = (rnd' 0).setWidth n
    rw [← h 0, Nat.add_zero]
  · show (rnd16 rnd p (n / 16)).setWidth n = (rnd16 rnd' 0 (n / 16)).setWidth n
    rw [rnd16_shift rnd rnd' p 0 _ fun j _ => by rw [h j, Nat.zero_add]]

/-- The numbers after `InitRandom`. -/
def seeded (seed : BitVec 32) : RStream := randNth (initRandom seed)

/-- **C89.** A matrix pair is made from the numbers after the second of two seedings; what is drawn next continues behind them. -/
theorem C89_matrix_seeding (n : Nat) [WSize n] (clock : Nat → BitVec 32) (g : Rng) :
    genMatpair n (drawMat n clock g).1 0 = genMatpair n (seeded ((g.seed + 1) ^^^ clock (g.now + 1))) 0 ∧
    ∀ k, randNth (drawMat n clock g).2.st k =
      seeded ((g.seed + 1) ^^^ clock (g.now + 1)) ((genMatpair n (seeded ((g.seed + 1) ^^^ clock (g.now + 1))) 0).pos + k) :=
  ⟨rfl, fun k => randNth_add _ _ k⟩

/-- **C89.** An affine pair has the matrix from the numbers after the second seeding and the vector from those after the third. -/
theorem C89_affine_seeding (n : Nat) [WSize n] (clock : Nat → BitVec 32) (g : Rng) :
    let P := genMatpair n (seeded ((g.seed + 1) ^^^ clock (g.now + 1))) 0
    let v := randV n (seeded ((g.seed + 1 + 1) ^^^ clock (g.now + 2))) 0
    (genaffinepair n (drawAff n clock g).1 0).1 = ⟨P.mat, v.1⟩ ∧
    (genaffinepair n (drawAff n clock g).1 0).2.1 = ⟨P.inv, matMulNum P.inv v.1⟩ ∧
    ∀ k, randNth (drawAff n clock g).2.st k = seeded ((g.seed + 1 + 1) ^^^ clock (g.now + 2)) (v.2 + k) := by
  intro P v
  have hP : genMatpair n (drawAff n clock g).1 0 = P := by
    refine C89_matrix_numbers (n := n) _ _ 0 fun k _ hk => ?_
    show _ = if k < P.pos then seeded ((g.seed + 1) ^^^ clock (g.now + 1)) k else _
    rw [if_pos hk]
  have hv : (randV n (drawAff n clock g).1 P.pos).1 = v.1 := by
    refine randV_shift n _ _ _ fun j => ?_
    show (if P.pos + j < P.pos then _ else seeded ((g.seed + 1 + 1) ^^^ clock (g.now + 2)) (P.pos + j - P.pos)) = _
    rw [if_neg (by omega), Nat.add_sub_cancel_left]
  refine ⟨?_, ?_, fun k => randNth_add _ _ k⟩
  · show (⟨(genMatpair n (drawAff n clock g).1 0).mat, (randV n (drawAff n clock g).1 (genMatpair n (drawAff n clock g).1 0).pos).1⟩ : Aff n) = _
    rw [hP, hv]
  · show (⟨(genMatpair n (drawAff n clock g).1 0).inv, matMulNum (genMatpair n (drawAff n clock g).1 0).inv
      (randV n (drawAff n clock g).1 (genMatpair n (drawAff n clock g).1 0).pos).1⟩ : Aff n) = _
    rw [hP, hv]

/-- **C89.** Permutations drawn one after the other are made from consecutive stretches of `N - 1` numbers. -/
theorem C89_permutation_numbers (N : Nat) (g : Rng) (k : Nat) :
    (∀ i, (drawN k (drawPerm N) g).1 i = fun j => randNth g.st ((N - 1) * i + j)) ∧
    ∀ j, randNth (drawN k (drawPerm N) g).2.st j = randNth g.st ((N - 1) * k + j) := by
  have h : ∀ k (g : Rng), (rngIter (drawPerm N) k g).st = randAfter g.st ((N - 1) * k) := by
    intro k
    induction k with
    | zero => intro g; rfl
    | succ k ih =>
      intro g
      show (rngIter (drawPerm N) k (drawPerm N g).2).st = _
      rw [ih]
      show randAfter (randAfter g.st (N - 1)) _ = _
      rw [randAfter_add]
      congr 1
      rw [Nat.mul_succ]; omega
  refine ⟨fun i => ?_, fun j => ?_⟩
  · show randNth (rngIter (drawPerm N) i g).st = _
    funext j
    rw [h, randNth_add]
  · show randNth (rngIter (drawPerm N) k g).st j = _
    rw [h, randNth_add]

/- The second matrix of a fresh process at second 1000 needs eight numbers or more; the third permutation begins with number 30. -/
example (clock : Nat → BitVec 32) := C89_affine_seeding 8 clock rngFresh
example : (drawN 5 (drawPerm 16) rngFresh).1 2 = fun j => randNth rngFresh.st (30 + j) := (C89_permutation_numbers 16 rngFresh 5).1 2

end Verif.Props
