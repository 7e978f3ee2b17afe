import Verif.Lemmas.Fpe
import Mathlib.Data.Finset.Prod
import Mathlib.Data.Finset.Card
import Mathlib.Algebra.Order.BigOperators.Group.Finset

/-! The Feistel structure of the FPE modes on pairs of numbers, two rounds at a time. -/
set_option autoImplicit false

namespace Verif
open Model Spec

section pairs
variable {τ : Type}

/-- Rounds `2k` and `2k + 1` on the numbers of the two halves. -/
def pairStep (f : Nat → Nat → Nat × τ) (Nu Nv k : Nat) (p : Nat × Nat) : Nat × Nat :=
  let a := (p.1 + (f (2 * k) p.2).1) % Nu
  (a, (p.2 + (f (2 * k + 1) a).1) % Nv)

/-- The numbers of the two halves before round `2k`. -/
def pairSeq (f : Nat → Nat → Nat × τ) (Nu Nv : Nat) (p : Nat × Nat) : Nat → Nat × Nat
  | 0 => p
  | k + 1 => pairStep f Nu Nv k (pairSeq f Nu Nv p k)

theorem pairSeq_lt (f : Nat → Nat → Nat × τ) (Nu Nv : Nat) (hu : 0 < Nu) (hv : 0 < Nv) (p : Nat × Nat)
    (h : p.1 < Nu ∧ p.2 < Nv) (k : Nat) : (pairSeq f Nu Nv p k).1 < Nu ∧ (pairSeq f Nu Nv p k).2 < Nv := by
  cases k with
  | zero => exact h
  | succ k => exact ⟨Nat.mod_lt _ hu, Nat.mod_lt _ hv⟩

theorem add_mod_inj (a b y N : Nat) (ha : a < N) (hb : b < N) (h : (a + y) % N = (b + y) % N) : a = b := by
  rw [← modSub_add a y N ha, h, modSub_add b y N hb]

theorem pairSeq_inj (f : Nat → Nat → Nat × τ) (Nu Nv : Nat) (hu : 0 < Nu) (hv : 0 < Nv) (p q : Nat × Nat)
    (hp : p.1 < Nu ∧ p.2 < Nv) (hq : q.1 < Nu ∧ q.2 < Nv) (k : Nat)
    (h : pairSeq f Nu Nv p k = pairSeq f Nu Nv q k) : p = q := by
  induction k with
  | zero => exact h
  | succ k ih =>
    apply ih
    have h1 := pairSeq_lt f Nu Nv hu hv p hp k
    have h2 := pairSeq_lt f Nu Nv hu hv q hq k
    simp only [pairSeq, pairStep, Prod.mk.injEq] at h
    obtain ⟨e1, e2⟩ := h
    rw [e1] at e2
    have e3 := add_mod_inj _ _ _ _ h1.2 h2.2 e2
    rw [e3] at e1
    exact Prod.ext (add_mod_inj _ _ _ _ h1.1 h2.1 e1) e3

/-- Both halves only ever have round outputs added to them. -/
theorem pairSeq_sum (f : Nat → Nat → Nat × τ) (Nu Nv M : Nat) (p : Nat × Nat) (h : p.1 < Nu ∧ p.2 < Nv)
    (hM : ∀ i x, (f i x).1 ≤ M) (k : Nat) : ∃ Y Z, Y ≤ k * M ∧ Z ≤ k * M ∧
    (pairSeq f Nu Nv p k).1 = (p.1 + Y) % Nu ∧ (pairSeq f Nu Nv p k).2 = (p.2 + Z) % Nv := by
  induction k with
  | zero => exact ⟨0, 0, by simp, by simp, (Nat.mod_eq_of_lt h.1).symm, (Nat.mod_eq_of_lt h.2).symm⟩
  | succ k ih =>
    obtain ⟨Y, Z, hY, hZ, e1, e2⟩ := ih
    have m1 := hM (2 * k) (pairSeq f Nu Nv p k).2
    have m2 := hM (2 * k + 1) (pairSeq f Nu Nv p (k + 1)).1
    refine ⟨Y + (f (2 * k) (pairSeq f Nu Nv p k).2).1, Z + (f (2 * k + 1) (pairSeq f Nu Nv p (k + 1)).1).1, ?_, ?_, ?_, ?_⟩
    · rw [Nat.add_mul]; omega
    · rw [Nat.add_mul]; omega
    · show ((pairSeq f Nu Nv p k).1 + _) % Nu = _
      rw [e1, Nat.mod_add_mod, Nat.add_assoc]
    · show ((pairSeq f Nu Nv p k).2 + (f (2 * k + 1) (pairSeq f Nu Nv p (k + 1)).1).1) % Nv = _
      rw [e2, Nat.mod_add_mod, Nat.add_assoc]

/-- Adding `δ` to the second half changes nothing else as long as the round function does not see it. -/
theorem pairSeq_shift (f : Nat → Nat → Nat × τ) (Nu Nv δ : Nat) (p : Nat × Nat) (k : Nat)
    (h : ∀ j < k, f (2 * j) (((pairSeq f Nu Nv p j).2 + δ) % Nv) = f (2 * j) (pairSeq f Nu Nv p j).2) :
    pairSeq f Nu Nv (p.1, (p.2 + δ) % Nv) k = ((pairSeq f Nu Nv p k).1, ((pairSeq f Nu Nv p k).2 + δ) % Nv) := by
  induction k with
  | zero => rfl
  | succ k ih =>
    rw [pairSeq, ih (fun j hj => h j (by omega))]
    unfold pairStep
    simp only
    rw [h k (by omega)]
    simp only [pairSeq, pairStep, Prod.mk.injEq, true_and]
    rw [Nat.mod_add_mod, Nat.mod_add_mod, Nat.add_right_comm]

/-- Pairs for which the second half before some round `2j` lies in `bad` are few: the rounds permute the pairs. -/
theorem pairSeq_count (f : Nat → Nat → Nat × τ) (Nu Nv k : Nat) (hu : 0 < Nu) (hv : 0 < Nv) (bad : Finset Nat) :
    ((Finset.range Nu ×ˢ Finset.range Nv).filter fun p => ∃ j < k, (pairSeq f Nu Nv p j).2 ∈ bad).card ≤
      k * (Nu * bad.card) := by
  have hsub : ((Finset.range Nu ×ˢ Finset.range Nv).filter fun p => ∃ j < k, (pairSeq f Nu Nv p j).2 ∈ bad) ⊆
      (Finset.range k).biUnion fun j =>
        (Finset.range Nu ×ˢ Finset.range Nv).filter fun p => (pairSeq f Nu Nv p j).2 ∈ bad := by
    intro p hp
    simp only [Finset.mem_filter, Finset.mem_biUnion, Finset.mem_range] at hp ⊢
    obtain ⟨h1, j, hj, hb⟩ := hp
    exact ⟨j, hj, h1, hb⟩
  refine Nat.le_trans (Finset.card_le_card hsub) ?_
  have := Finset.card_biUnion_le_card_mul (Finset.range k)
    (fun j => (Finset.range Nu ×ˢ Finset.range Nv).filter fun p => (pairSeq f Nu Nv p j).2 ∈ bad) (Nu * bad.card) ?_
  · rwa [Finset.card_range] at this
  · intro j _
    have h2 : (Finset.range Nu ×ˢ bad).card = Nu * bad.card := by rw [Finset.card_product, Finset.card_range]
    rw [← h2]
    apply Finset.card_le_card_of_injOn (fun p => pairSeq f Nu Nv p j)
    · intro p hp
      simp only [Finset.coe_filter, Finset.mem_product, Finset.mem_range, Set.mem_ofPred_eq] at hp
      have := pairSeq_lt f Nu Nv hu hv p hp.1 j
      simp only [Finset.coe_product, Set.mem_prod, Finset.mem_coe, Finset.mem_range]
      exact ⟨this.1, hp.2⟩
    · intro p hp q hq e
      simp only [Finset.coe_filter, Finset.mem_product, Finset.mem_range, Set.mem_ofPred_eq] at hp hq
      exact pairSeq_inj f Nu Nv hu hv p q hp.1 hq.1 j e

variable {n u r : Nat} {q : Nat → Nat} {num : List Nat → Nat} {str : Nat → Nat → List Nat}
  {F : Nat → Nat → Option (Nat × τ)} {f : Nat → Nat → Nat × τ}

theorem fseq_pair (ok : FeistelOk n u r q num str F f) (AB : List Nat × List Nat) (k : Nat) :
    (num (fseq n u q num str f AB (2 * k)).1, num (fseq n u q num str f AB (2 * k)).2) =
      pairSeq f (r ^ u) (r ^ (n - u)) (num AB.1, num AB.2) k := by
  induction k with
  | zero => rfl
  | succ k ih =>
    have hr := ok.r2
    have e0 : halfLen n u (2 * k) = u := by unfold halfLen; rw [if_neg (by omega)]
    have e1 : halfLen n u (2 * k + 1) = n - u := by unfold halfLen; rw [if_pos (by omega)]
    have q0 : q (2 * k) = r ^ u := by rw [ok.hq, e0]
    have q1 : q (2 * k + 1) = r ^ (n - u) := by rw [ok.hq, e1]
    rw [pairSeq, ← ih, show 2 * (k + 1) = 2 * k + 1 + 1 by omega]
    simp only [fseq, pairStep, e0, e1, q0, q1]
    rw [ok.num_str _ _ (Nat.mod_lt _ (by positivity)), ok.num_str _ _ (Nat.mod_lt _ (by positivity))]

theorem ftrace_even (ok : FeistelOk n u r q num str F f) (AB : List Nat × List Nat) (k : Nat) :
    ftrace n u q num str f AB (2 * k) =
      (f (2 * k) (pairSeq f (r ^ u) (r ^ (n - u)) (num AB.1, num AB.2) k).2).2 := by
  rw [← fseq_pair ok]
  rfl

theorem ftrace_odd (ok : FeistelOk n u r q num str F f) (AB : List Nat × List Nat) (k : Nat) :
    ftrace n u q num str f AB (2 * k + 1) =
      (f (2 * k + 1) (pairSeq f (r ^ u) (r ^ (n - u)) (num AB.1, num AB.2) (k + 1)).1).2 := by
  rw [← fseq_pair ok]
  rfl

end pairs

end Verif
