import Verif.Props.Wrand
import Mathlib.Data.Fin.Tuple.Basic
import Mathlib.Data.Nat.Choose.Basic
import Mathlib.Algebra.BigOperators.Fin

/-!
C138: for how many of the random choices the generator of white-box SM4 with dummy rounds stays inside its arrays.
-/
set_option autoImplicit false

namespace Verif.Props
open Verif Model

/-- The choices of a shuffle of `n` entries: in the pass with `i + 1` entries left, one of them. -/
abbrev Picks (n : Nat) := (i : Fin n) → Fin (i.1 + 1)

/-- Numbers for the choices: the pass with `k` entries left uses number `k`. -/
def numbersOf {n : Nat} (c : Picks n) : Nat → BitVec 32 := fun k => if h : 1 ≤ k ∧ k ≤ n then BitVec.ofNat 32 (c ⟨k - 1, by omega⟩).1 else 0

theorem numbersOf_pick {n : Nat} (c : Picks n) (hn : n < 2 ^ 31) (i : Nat) (hi : i < n) :
    (numbersOf c (i + 1)).toNat % (i + 1) = (c ⟨i, hi⟩).1 := by
  have hc := (c ⟨i, hi⟩).2
  unfold numbersOf
  rw [dif_pos ⟨by omega, by omega⟩, BitVec.toNat_ofNat]
  simp only at hc
  show (c ⟨i, hi⟩).1 % 2 ^ 32 % (i + 1) = (c ⟨i, hi⟩).1
  rw [Nat.mod_eq_of_lt (a := (c ⟨i, hi⟩).1) (by omega), Nat.mod_eq_of_lt hc]

theorem shuffleLoop_congr (rn rn' : Nat → BitVec 32) (n : Nat) (h : ∀ k, 1 ≤ k → k ≤ n → (rn k).toNat % k = (rn' k).toNat % k) :
    ∀ l, shuffleLoop rn n l = shuffleLoop rn' n l := by
  induction n with
  | zero => exact fun _ => rfl
  | succ n ih =>
    intro l
    rw [shuffleLoop, shuffleLoop, h (n + 1) (by omega) (Nat.le_refl _)]
    congr 1
    funext l'
    exact ih (fun k h1 h2 => h k h1 (by omega)) l'

/-- The list that is left and the entry that is put last. -/
def pickRest (m : List Byte) (z : Byte) (r : Nat) : List Byte := if r < m.length then m.set r z else m
def pickLast (m : List Byte) (z : Byte) (r : Nat) : Byte := if h : r < m.length then m[r] else z

theorem shuffleLoop_pick (rn : Nat → BitVec 32) (m s : List Byte) (z : Byte) :
    shuffleLoop rn (m.length + 1) (m ++ z :: s) =
      shuffleLoop rn m.length (pickRest m z ((rn (m.length + 1)).toNat % (m.length + 1)) ++
        pickLast m z ((rn (m.length + 1)).toNat % (m.length + 1)) :: s) := by
  rw [shuffleLoop, exchange_last m z s _ (Nat.mod_lt _ (by omega)), Option.bind_some]
  unfold pickRest pickLast
  split <;> rfl

theorem shuffleLoop_append (rn : Nat → BitVec 32) (n : Nat) : ∀ l s : List Byte, l.length = n →
    shuffleLoop rn n (l ++ s) = (shuffleLoop rn n l).map (· ++ s) := by
  induction n with
  | zero => intro l s _; rfl
  | succ n ih =>
    intro l s h
    obtain ⟨m, z, rfl⟩ : ∃ m z, l = m ++ [z] := ⟨_, _, (List.dropLast_append_getLast (by rintro rfl; simp at h)).symm⟩
    obtain rfl : m.length = n := by simpa using h
    have hl : ∀ r, (pickRest m z r).length = m.length := fun r => by unfold pickRest; split <;> simp
    rw [List.append_assoc, List.singleton_append, shuffleLoop_pick, shuffleLoop_pick rn m [] z, ih _ _ (hl _), ih _ _ (hl _),
      Option.map_map]
    congr 1
    funext x
    simp

theorem pick_perm (m : List Byte) (z : Byte) (r : Nat) : (pickLast m z r :: pickRest m z r).Perm (m ++ [z]) := by
  unfold pickLast pickRest
  split
  · rename_i h
    exact (exchange_last_perm m z r h).trans (List.perm_append_singleton _ _).symm
  · exact (List.perm_append_singleton _ _).symm

theorem sum_pick (m : List Byte) (y : Byte) (K : Nat) : (∑ r : Fin m.length, if m[r] = y then K else 0) = m.count y * K := by
  induction m with
  | nil => rw [List.count_nil, Nat.zero_mul]; rfl
  | cons a m ih =>
    rw [show (∑ r : Fin (a :: m).length, if (a :: m)[r] = y then K else 0) =
      (if a = y then K else 0) + ∑ r : Fin m.length, if m[r] = y then K else 0 from Fin.sum_univ_succ (n := m.length) _, ih, List.count_cons]
    by_cases h : a = y
    · simp [h]; rw [Nat.add_mul, Nat.one_mul, Nat.add_comm]
    · simp [h]

theorem sum_last (m : List Byte) (z y : Byte) (K : Nat) :
    (∑ r : Fin (m.length + 1), if pickLast m z r.1 = y then K else 0) = (m ++ [z]).count y * K := by
  rw [Fin.sum_univ_castSucc, List.count_append, Nat.add_mul, ← sum_pick m y K]
  congr 1
  · refine Finset.sum_congr rfl fun r _ => ?_
    unfold pickLast
    simp
  · unfold pickLast
    simp only [Fin.val_last, lt_irrefl, dite_false, List.count_cons, List.count_nil, Nat.zero_add]
    by_cases h : z = y <;> simp [h]

/-- Every arrangement of zeros and ones is the result of equally many sequences of choices. -/
theorem shuffle_count (n : Nat) (hn : n < 2 ^ 31) : ∀ l t : List Byte, l.length = n → t.Perm l → (∀ e ∈ l, e = 0 ∨ e = 1) →
    Nat.card {c : Picks n // shuffleLoop (numbersOf c) n l = some t} = (l.count 0).factorial * (l.count 1).factorial := by
  induction n with
  | zero =>
    intro l t hl hp _
    obtain rfl := List.length_eq_zero_iff.mp hl
    obtain rfl := hp.eq_nil
    have h1 : Nat.card {c : Picks 0 // shuffleLoop (numbersOf c) 0 [] = some []} = 1 := Nat.card_eq_one_iff_unique.mpr
      ⟨⟨fun a b => Subtype.ext (funext fun i => i.elim0)⟩, ⟨⟨fun i => i.elim0, rfl⟩⟩⟩
    rw [h1]
    rfl
  | succ n ih =>
    intro l t hl hp h01
    obtain ⟨m, z, rfl⟩ : ∃ m z, l = m ++ [z] := ⟨_, _, (List.dropLast_append_getLast (by rintro rfl; simp at hl)).symm⟩
    obtain rfl : m.length = n := by simpa using hl
    obtain ⟨t, y, rfl⟩ : ∃ t' y, t = t' ++ [y] :=
      ⟨_, _, (List.dropLast_append_getLast (by rintro rfl; have := hp.length_eq; simp at this)).symm⟩
    have hlen : ∀ r, (pickRest m z r).length = m.length := fun r => by unfold pickRest; split <;> simp
    -- one choice after the other
    have step : ∀ c : Picks (m.length + 1), shuffleLoop (numbersOf c) (m.length + 1) (m ++ [z]) = some (t ++ [y]) ↔
        pickLast m z (c (Fin.last m.length)).1 = y ∧
          shuffleLoop (numbersOf (n := m.length) fun i => c i.castSucc) m.length (pickRest m z (c (Fin.last m.length)).1) = some t := by
      intro c
      rw [shuffleLoop_pick, shuffleLoop_append _ _ _ _ (hlen _), numbersOf_pick c hn m.length (by omega),
        shuffleLoop_congr (numbersOf c) (numbersOf (n := m.length) fun i => c i.castSucc) m.length (by
          intro k h1 h2
          obtain ⟨k, rfl⟩ : ∃ j, k = j + 1 := ⟨k - 1, by omega⟩
          rw [numbersOf_pick c hn k (by omega), numbersOf_pick _ (by omega) k (by omega)]
          rfl)]
      show Option.map (· ++ [pickLast m z (c (Fin.last m.length)).1]) (shuffleLoop _ _ (pickRest m z (c (Fin.last m.length)).1)) =
        some (t ++ [y]) ↔ _
      rw [Option.map_eq_some_iff]
      constructor
      · rintro ⟨u, hu, e⟩
        obtain ⟨e1, e2⟩ := List.append_inj' e rfl
        rw [e1] at hu
        exact ⟨by simpa using e2, hu⟩
      · rintro ⟨h1, h2⟩
        exact ⟨t, h2, by rw [← h1]⟩
    have hK : ∀ r : Fin (m.length + 1), Nat.card {c : Picks m.length // pickLast m z r.1 = y ∧
        shuffleLoop (numbersOf c) m.length (pickRest m z r.1) = some t} =
          if pickLast m z r.1 = y then ((t.count 0).factorial * (t.count 1).factorial) else 0 := by
      intro r
      by_cases h : pickLast m z r.1 = y
      · rw [if_pos h]
        simp only [h, true_and]
        have hpr : (pickRest m z r.1).Perm t := by
          have h1 := (pick_perm m z r.1).trans (hp.symm.trans (List.perm_append_singleton _ _))
          rw [h] at h1
          exact (List.perm_cons _).1 h1
        rw [ih (by omega) (pickRest m z r.1) t (hlen _) hpr.symm (fun e he => h01 e ((pick_perm m z r.1).subset (List.mem_cons_of_mem _ he))),
          hpr.count_eq, hpr.count_eq]
      · rw [if_neg h]
        simp only [h, false_and]
        exact Nat.card_of_isEmpty
    have e : Nat.card {c : Picks (m.length + 1) // shuffleLoop (numbersOf c) (m.length + 1) (m ++ [z]) = some (t ++ [y])} =
        Nat.card ((r : Fin (m.length + 1)) × {c : Picks m.length // pickLast m z r.1 = y ∧
          shuffleLoop (numbersOf c) m.length (pickRest m z r.1) = some t}) := by
      refine Nat.card_congr ⟨fun c => ⟨c.1 (Fin.last m.length), fun i => c.1 i.castSucc, (step c.1).1 c.2⟩,
        fun x => ⟨Fin.snoc (α := fun i : Fin (m.length + 1) => Fin (i.1 + 1)) x.2.1 x.1, (step _).2 ?_⟩, ?_, ?_⟩
      · simp only [Fin.snoc_last, Fin.snoc_castSucc]
        exact x.2.2
      · intro c
        apply Subtype.ext
        exact Fin.snoc_init_self (α := fun i : Fin (m.length + 1) => Fin (i.1 + 1)) c.1
      · rintro ⟨r, c, h⟩
        refine Sigma.subtype_ext ?_ ?_
        · exact Fin.snoc_last (α := fun i : Fin (m.length + 1) => Fin (i.1 + 1)) r c
        · funext i
          exact Fin.snoc_castSucc (α := fun i : Fin (m.length + 1) => Fin (i.1 + 1)) r c i
    rw [e, Nat.card_sigma]
    simp only [hK]
    rw [sum_last m z y]
    have hc : ∀ a, (m ++ [z]).count a = t.count a + if y = a then 1 else 0 := by
      intro a
      rw [← hp.count_eq, List.count_append, List.count_cons, List.count_nil]
      simp
    have hy : y = 0 ∨ y = 1 := h01 y (hp.subset (by simp))
    rcases hy with rfl | rfl
    · have h0 := hc 0
      have h1 := hc 1
      rw [if_pos rfl] at h0
      rw [if_neg (by decide), Nat.add_zero] at h1
      rw [h0, h1, Nat.factorial_succ, Nat.mul_assoc]
    · have h0 := hc 0
      have h1 := hc 1
      rw [if_pos rfl] at h1
      rw [if_neg (by decide), Nat.add_zero] at h0
      rw [h0, h1, Nat.factorial_succ]
      exact Nat.mul_left_comm _ _ _

/-! ### arrangements without neighbours -/

theorem adj_zero (t : List Byte) : Adjacent (0 :: t) ↔ Adjacent t := by
  constructor
  · rintro ⟨pre, post, h⟩
    cases pre with
    | nil => simp at h
    | cons a pre => exact ⟨pre, post, by simpa using (List.cons.inj h).2⟩
  · rintro ⟨pre, post, h⟩
    exact ⟨0 :: pre, post, by rw [h]; rfl⟩

theorem adj_one_zero (t : List Byte) : Adjacent (1 :: 0 :: t) ↔ Adjacent t := by
  constructor
  · rintro ⟨pre, post, h⟩
    cases pre with
    | nil => simp at h
    | cons a pre => exact (adj_zero t).1 ⟨pre, post, by simpa using (List.cons.inj h).2⟩
  · rintro ⟨pre, post, h⟩
    exact ⟨1 :: 0 :: pre, post, by rw [h]; rfl⟩

/-- The arrangements of `a` zeros and `b` ones without neighbouring ones. -/
def loose : Nat → Nat → List (List Byte)
  | 0, 0 => [[]]
  | 0, 1 => [[1]]
  | 0, _ + 2 => []
  | a + 1, 0 => (loose a 0).map (0 :: ·)
  | a + 1, b + 1 => (loose a (b + 1)).map (0 :: ·) ++ (loose a b).map fun t => 1 :: 0 :: t

theorem loose_length (a : Nat) : ∀ b, (loose a b).length = (a + 1).choose b := by
  induction a with
  | zero =>
    intro b
    match b with
    | 0 => rfl
    | 1 => rfl
    | b + 2 => exact (Nat.choose_eq_zero_of_lt (by omega)).symm
  | succ a ih =>
    intro b
    match b with
    | 0 => simp [loose, ih]
    | b + 1 => rw [loose, List.length_append, List.length_map, List.length_map, ih, ih, Nat.choose_succ_succ (a + 1) b, Nat.add_comm]

theorem loose_nodup (a : Nat) : ∀ b, (loose a b).Nodup := by
  have i0 : Function.Injective fun t : List Byte => (0 : Byte) :: t := fun x y h => (List.cons.inj h).2
  have i1 : Function.Injective fun t : List Byte => (1 : Byte) :: 0 :: t := fun x y h => (List.cons.inj (List.cons.inj h).2).2
  induction a with
  | zero =>
    intro b
    match b with
    | 0 => exact List.nodup_singleton _
    | 1 => exact List.nodup_singleton _
    | b + 2 => exact List.nodup_nil
  | succ a ih =>
    intro b
    match b with
    | 0 => exact (ih 0).map i0
    | b + 1 =>
      refine List.Nodup.append ((ih _).map i0) ((ih _).map i1) ?_
      intro t h1 h2
      obtain ⟨u, -, rfl⟩ := List.mem_map.1 h1
      obtain ⟨v, -, e⟩ := List.mem_map.1 h2
      simp at e

theorem loose_mem (a : Nat) : ∀ b t, t ∈ loose a b ↔ (∀ e ∈ t, e = 0 ∨ e = 1) ∧ t.count 0 = a ∧ t.count 1 = b ∧ ¬ Adjacent t := by
  have n0 : ¬ Adjacent [] := fun ⟨pre, post, h⟩ => by simp at h
  have n1 : ¬ Adjacent [1] := fun ⟨pre, post, h⟩ => by
    have := congrArg List.length h
    simp at this
    omega
  have c0 : ∀ t : List Byte, (0 :: t).count 0 = t.count 0 + 1 ∧ (0 :: t).count 1 = t.count 1 := fun t => by simp
  have c1 : ∀ t : List Byte, (1 :: t).count 1 = t.count 1 + 1 ∧ (1 :: t).count 0 = t.count 0 := fun t => by simp
  induction a with
  | zero =>
    intro b t
    have key : (∀ e ∈ t, e = 0 ∨ e = 1) → t.count 0 = 0 → ¬ Adjacent t → t = [] ∨ t = [1] := by
      intro h h0 ha
      have h1 : ∀ e ∈ t, e = 1 := fun e he => (h e he).resolve_left fun e0 => by
        rw [e0] at he; exact absurd (List.count_pos_iff.2 he) (by omega)
      match t, h1, ha with
      | [], _, _ => exact .inl rfl
      | [x], h1, _ => exact .inr (by rw [h1 x (by simp)])
      | x :: y :: t, h1, ha => exact absurd ⟨[], t, by rw [h1 x (by simp), h1 y (by simp)]; rfl⟩ ha
    match b with
    | 0 =>
      show t ∈ [[]] ↔ _
      rw [List.mem_singleton]
      constructor
      · rintro rfl; exact ⟨by simp, rfl, rfl, n0⟩
      · rintro ⟨h, h0, h1, ha⟩
        rcases key h h0 ha with e | e
        · exact e
        · rw [e] at h1; simp at h1
    | 1 =>
      show t ∈ [[1]] ↔ _
      rw [List.mem_singleton]
      constructor
      · rintro rfl; exact ⟨by simp, by simp, by simp, n1⟩
      · rintro ⟨h, h0, h1, ha⟩
        rcases key h h0 ha with e | e
        · rw [e] at h1; simp at h1
        · exact e
    | b + 2 =>
      show t ∈ [] ↔ _
      constructor
      · intro h; simp at h
      · rintro ⟨h, h0, h1, ha⟩
        rcases key h h0 ha with e | e <;> rw [e] at h1 <;> simp at h1
  | succ a ih =>
    intro b t
    have m0 : ∀ b u, 0 :: u ∈ (loose a b).map (0 :: ·) ↔ u ∈ loose a b := fun b u => by simp
    constructor
    · intro ht
      have h0 : ∀ b u, u ∈ loose a b → (∀ e ∈ 0 :: u, e = 0 ∨ e = 1) ∧ (0 :: u).count 0 = a + 1 ∧ (0 :: u).count 1 = b ∧
          ¬ Adjacent (0 :: u) := by
        intro b u hu
        obtain ⟨g1, g2, g3, g4⟩ := (ih b u).1 hu
        refine ⟨fun e he => ?_, by rw [(c0 u).1, g2], by rw [(c0 u).2, g3], fun h => g4 ((adj_zero u).1 h)⟩
        rcases List.mem_cons.1 he with e1 | e1
        · exact .inl e1
        · exact g1 e e1
      match b with
      | 0 =>
        obtain ⟨u, hu, rfl⟩ := List.mem_map.1 ht
        exact h0 0 u hu
      | b + 1 =>
        rcases List.mem_append.1 ht with h | h
        · obtain ⟨u, hu, rfl⟩ := List.mem_map.1 h
          exact h0 (b + 1) u hu
        · obtain ⟨u, hu, rfl⟩ := List.mem_map.1 h
          obtain ⟨g1, g2, g3, g4⟩ := h0 b u hu
          refine ⟨fun e he => ?_, by rw [(c1 _).2, g2], by rw [(c1 _).1, g3], fun h => g4 ((adj_zero u).2 ((adj_one_zero u).1 h))⟩
          rcases List.mem_cons.1 he with e1 | e1
          · exact .inr e1
          · exact g1 e e1
    · rintro ⟨h, h0, h1, ha⟩
      match t, h, h0, h1, ha with
      | [], _, h0, _, _ => simp at h0
      | x :: u, h, h0, h1, ha =>
        rcases h x (by simp) with rfl | rfl
        · have hu : u ∈ loose a b := (ih b u).2 ⟨fun e he => h e (List.mem_cons_of_mem _ he), by rw [(c0 u).1] at h0; omega,
            by rw [(c0 u).2] at h1; exact h1, fun h => ha ((adj_zero u).2 h)⟩
          match b with
          | 0 => exact (m0 0 u).2 hu
          | b + 1 => exact List.mem_append.2 (.inl ((m0 (b + 1) u).2 hu))
        · match u, h, h0, h1, ha with
          | [], _, h0, _, _ => simp at h0
          | y :: u, h, h0, h1, ha =>
            rcases h y (by simp) with rfl | rfl
            · rw [(c1 _).1, (c0 _).2] at h1
              rw [(c1 _).2, (c0 _).1] at h0
              match b, h1 with
              | b + 1, h1 =>
                have hu : u ∈ loose a b := (ih b u).2 ⟨fun e he => h e (by simp [he]), by omega, by omega,
                  fun h => ha ((adj_one_zero u).2 h)⟩
                exact List.mem_append.2 (.inr (List.mem_map.2 ⟨u, hu, rfl⟩))
            · exact absurd ⟨[], u, rfl⟩ ha

/-! ### the generator -/

/-- The list before the shuffle is one zero, then 31 zeros and `d` ones; its result for given numbers. -/
theorem shuffle_rounds (d : Nat) : ∃ L : List Byte, L.Perm (List.replicate 31 0 ++ List.replicate d 1) ∧
    ∀ rnd : Nat → BitVec 32, randomShuffleU8 rnd (List.replicate 32 0 ++ List.replicate d 1) =
      (shuffleLoop rnd (31 + d) L).map (· ++ [0]) := by
  obtain ⟨m, z, e⟩ : ∃ m z, List.replicate 31 (0 : Byte) ++ List.replicate d 1 = m ++ [z] :=
    ⟨_, _, (List.dropLast_append_getLast (by simp [List.replicate_succ])).symm⟩
  have hlen : m.length + 1 = 31 + d := by
    have := congrArg List.length e
    simp at this
    omega
  refine ⟨z :: m, by rw [e]; exact (List.perm_append_singleton _ _).symm, fun rnd => ?_⟩
  have hl : List.replicate 32 (0 : Byte) ++ List.replicate d 1 = 0 :: m ++ [z] := by
    rw [List.cons_append, ← e, List.replicate_succ]; rfl
  have h0 : (randNumber rnd ((0 :: m).length + 1) ((0 :: m).length + 1)).toNat % ((0 :: m).length + 1) = 0 := by
    unfold randNumber
    rw [if_neg (by omega)]
    simp
  unfold randomShuffleU8
  rw [hl, show (0 :: m ++ [z]).length = (0 :: m).length + 1 by simp, shuffleLoop_pick, h0]
  have hr : pickRest (0 :: m) z 0 = z :: m := by simp [pickRest]
  have hp : pickLast (0 :: m) z 0 = 0 := by simp [pickLast]
  rw [hr, hp, shuffleLoop_append _ _ _ _ (by simp), shuffleLoop_congr _ rnd _ (by
    intro k h1 h2
    unfold randNumber
    rw [if_pos (by omega)]) (z :: m), ← hlen]
  rfl

theorem picks_card (n : Nat) : Nat.card (Picks n) = n.factorial := by
  rw [Nat.card_eq_fintype_card, Fintype.card_pi]
  simp only [Fintype.card_fin]
  induction n with
  | zero => rfl
  | succ n ih =>
    rw [Fin.prod_univ_castSucc, Nat.factorial_succ, Nat.mul_comm, Fin.val_last]
    congr 1

theorem perm_loose (d : Nat) (t : List Byte) (h : t.Perm (List.replicate 31 0 ++ List.replicate d 1)) :
    (∀ e ∈ t, e = 0 ∨ e = 1) ∧ t.count 0 = 31 ∧ t.count 1 = d := by
  refine ⟨fun e he => ?_, ?_, ?_⟩
  · have := h.mem_iff.1 he
    rw [List.mem_append, List.mem_replicate, List.mem_replicate] at this
    rcases this with h | h
    · exact .inl h.2
    · exact .inr h.2
  · rw [h.count_eq]; simp [List.count_replicate]
  · rw [h.count_eq]; simp

theorem loose_perm (d : Nat) (t : List Byte) (h : t ∈ loose 31 d) : t.Perm (List.replicate 31 0 ++ List.replicate d 1) := by
  obtain ⟨h01, h0, h1, -⟩ := (loose_mem 31 d t).1 h
  rw [List.perm_iff_count]
  intro a
  by_cases a0 : a = 0
  · rw [a0, h0]; simp [List.count_replicate]
  · by_cases a1 : a = 1
    · rw [a1, h1]; simp
    · have hx : t.count a = 0 := List.count_eq_zero.2 fun hm => by rcases h01 a hm with e | e <;> contradiction
      rw [hx, List.count_append, List.count_replicate, List.count_replicate, if_neg (by simpa using Ne.symm a0),
        if_neg (by simpa using Ne.symm a1)]

theorem adj_last (t : List Byte) : Adjacent (t ++ [0]) ↔ Adjacent t := by
  constructor
  · rintro ⟨pre, post, h⟩
    rcases List.eq_nil_or_concat post with rfl | ⟨post, z, rfl⟩
    · have := congrArg List.getLast? h
      rw [List.getLast?_concat, show pre ++ [1, 1] = (pre ++ [1]) ++ [1] by simp, List.getLast?_concat] at this
      simp at this
    · rw [List.concat_eq_append, show pre ++ 1 :: 1 :: (post ++ [z]) = (pre ++ 1 :: 1 :: post) ++ [z] by simp] at h
      exact ⟨pre, post, (List.append_inj' h rfl).1⟩
  · rintro ⟨pre, post, h⟩
    exact ⟨pre, post ++ [0], by rw [h]; simp⟩

/-- C138: every placement of the dummy groups that ends with a real round comes from equally many choices. -/
theorem C138_equally (d : Nat) (hd : 31 + d < 2 ^ 31) (t : List Byte) (h : t.Perm (List.replicate 31 0 ++ List.replicate d 1)) :
    Nat.card {c : Picks (31 + d) // randomShuffleU8 (numbersOf c) (List.replicate 32 0 ++ List.replicate d 1) = some (t ++ [0])} =
      Nat.factorial 31 * d.factorial := by
  obtain ⟨L, hL, hs⟩ := shuffle_rounds d
  obtain ⟨g1, g2, g3⟩ := perm_loose d L hL
  have hc := shuffle_count (31 + d) hd L t (by rw [hL.length_eq, List.length_append, List.length_replicate, List.length_replicate])
    (h.trans hL.symm) g1
  rw [g2, g3] at hc
  rw [← hc]
  refine Nat.card_congr (Equiv.subtypeEquivRight fun c => ?_)
  rw [hs, Option.map_eq_some_iff]
  constructor
  · rintro ⟨u, hu, e⟩
    rw [hu, (List.append_inj' e rfl).1]
  · intro hu
    exact ⟨t, hu, rfl⟩

/-- C138: the generator depends on the numbers of the shuffle only by their remainders: number `k` modulo `k`. -/
theorem C138_remainders (r : Wbsm4Rnd) (junk : Nat → WbRound) (mode : EncMode) (d : Nat) (key : List Byte) (s s' : Nat → BitVec 32)
    (h : ∀ k, 1 ≤ k → k ≤ 31 + d → (s k).toNat % k = (s' k).toNat % k) :
    wbsm4GenTable { r with shuf := s } junk mode d key = wbsm4GenTable { r with shuf := s' } junk mode d key := by
  obtain ⟨L, -, hs⟩ := shuffle_rounds d
  have e : dummyArray s d = dummyArray s' d := by
    unfold dummyArray
    rw [hs, hs, shuffleLoop_congr s s' _ h]
  unfold wbsm4GenTable
  show (dummyArray s d).bind _ = (dummyArray s' d).bind _
  have g : ∀ ds i point flag, genRounds { r with shuf := s } (sm4InitKey key mode) junk ds i point flag =
      genRounds { r with shuf := s' } (sm4InitKey key mode) junk ds i point flag := by
    intro ds
    induction ds with
    | nil => intros; rfl
    | cons a ds ih =>
      intro i point flag
      unfold genRounds
      simp only [ih]
      rfl
  rw [e]
  congr 1
  funext ds
  unfold genTableWith
  rw [g]
  rfl

theorem defined_iff (r : Wbsm4Rnd) (junk : Nat → WbRound) (mode : EncMode) (d : Nat) (key : List Byte) :
    ∃ t : List Byte, randomShuffleU8 r.shuf (List.replicate 32 0 ++ List.replicate d 1) = some (t ++ [0]) ∧
      t.Perm (List.replicate 31 0 ++ List.replicate d 1) ∧ ((wbsm4GenTable r junk mode d key).isSome ↔ t ∈ loose 31 d) := by
  obtain ⟨t, h, p⟩ := C75_last_fixed r.shuf 0 (List.replicate 31 0 ++ List.replicate d 1)
  have hl : List.replicate 32 (0 : Byte) ++ List.replicate d 1 = 0 :: (List.replicate 31 0 ++ List.replicate d 1) := by
    rw [List.replicate_succ]; rfl
  rw [← hl] at h
  obtain ⟨h1, h2⟩ := dummy_of_shuffle r junk mode d key _ h
  obtain ⟨g1, g2, g3⟩ := perm_loose d t p
  refine ⟨t, h, p, ?_⟩
  rw [loose_mem, ← adj_last, ← adjacent_before]
  constructor
  · intro hs
    refine ⟨g1, g2, g3, fun ha => ?_⟩
    rw [h1 ha] at hs
    simp at hs
  · rintro ⟨-, -, -, ha⟩
    obtain ⟨ctx, hc⟩ := h2 ha
    rw [hc]; rfl

/-- C138: of the (31 + d)! sequences of choices exactly C(32, d) 31! d! make tables, for the others the generator leaves its
arrays. -/
theorem C138_defined (r : Wbsm4Rnd) (junk : Nat → WbRound) (mode : EncMode) (d : Nat) (hd : 31 + d < 2 ^ 31) (key : List Byte) :
    Nat.card {c : Picks (31 + d) // (wbsm4GenTable { r with shuf := numbersOf c } junk mode d key).isSome} =
      Nat.choose 32 d * (Nat.factorial 31 * d.factorial) ∧
    Nat.card (Picks (31 + d)) = (31 + d).factorial := by
  refine ⟨?_, picks_card _⟩
  classical
  have hD : ∀ c : Picks (31 + d), (wbsm4GenTable { r with shuf := numbersOf c } junk mode d key).isSome ↔
      ∃ t ∈ (loose 31 d).toFinset, randomShuffleU8 (numbersOf c) (List.replicate 32 0 ++ List.replicate d 1) = some (t ++ [0]) := by
    intro c
    obtain ⟨t, h, -, hi⟩ := defined_iff { r with shuf := numbersOf c } junk mode d key
    rw [hi]
    constructor
    · intro ht
      exact ⟨t, List.mem_toFinset.2 ht, h⟩
    · rintro ⟨u, hu, e⟩
      rw [show randomShuffleU8 (numbersOf c) _ = _ from h] at e
      rw [(List.append_inj' (Option.some.inj e) rfl).1]
      exact List.mem_toFinset.1 hu
  have e : Nat.card {c : Picks (31 + d) // (wbsm4GenTable { r with shuf := numbersOf c } junk mode d key).isSome} =
      Nat.card ((t : (loose 31 d).toFinset) × {c : Picks (31 + d) //
        randomShuffleU8 (numbersOf c) (List.replicate 32 0 ++ List.replicate d 1) = some (t.1 ++ [0])}) := by
    refine (Nat.card_eq_of_bijective (fun x => ⟨x.2.1, (hD x.2.1).2 ⟨x.1.1, x.1.2, x.2.2⟩⟩) ⟨?_, ?_⟩).symm
    · rintro ⟨t, c, h⟩ ⟨t', c', h'⟩ e
      have ec : c = c' := congrArg Subtype.val e
      subst ec
      rw [h] at h'
      have et : t = t' := Subtype.ext (List.append_inj' (Option.some.inj h') rfl).1
      subst et
      rfl
    · rintro ⟨c, h⟩
      obtain ⟨t, ht, e⟩ := (hD c).1 h
      exact ⟨⟨⟨t, ht⟩, c, e⟩, rfl⟩
  rw [e, Nat.card_sigma]
  rw [Finset.sum_congr rfl fun t _ => C138_equally d hd t.1 (loose_perm d t.1 (List.mem_toFinset.1 t.2)), Finset.sum_const, smul_eq_mul,
    Finset.card_univ, Fintype.card_coe, List.toFinset_card_of_nodup (loose_nodup 31 d), loose_length]

/-- C138: with at most one group generation is defined for all random numbers; with six or more it is for fewer than half of the
choices. -/
theorem C138_half (junk : Nat → WbRound) (mode : EncMode) (d : Nat) (key : List Byte) :
    (d ≤ 1 → ∀ r : Wbsm4Rnd, (wbsm4GenTable r junk mode d key).isSome) ∧
    (6 ≤ d → 2 * (Nat.choose 32 d * (Nat.factorial 31 * d.factorial)) < (31 + d).factorial) := by
  constructor
  · intro hd r
    obtain ⟨t, -, p, hi⟩ := defined_iff r junk mode d key
    obtain ⟨g1, g2, g3⟩ := perm_loose d t p
    refine hi.2 ((loose_mem 31 d t).2 ⟨g1, g2, g3, ?_⟩)
    rintro ⟨pre, post, h⟩
    rw [h] at g3
    simp at g3
    omega
  · intro hd
    by_cases h : d < 33
    · have key : ∀ d : Fin 33, 6 ≤ d.1 → 2 * (Nat.choose 32 d.1 * (Nat.factorial 31 * d.1.factorial)) < (31 + d.1).factorial := by
        decide +kernel
      exact key ⟨d, h⟩ hd
    · rw [Nat.choose_eq_zero_of_lt (by omega), Nat.zero_mul, Nat.mul_zero]
      exact Nat.factorial_pos _

/- Three groups: C(32, 3) of C(34, 3) placements, about five in six; 32 groups: one placement. -/
example (r : Wbsm4Rnd) (junk : Nat → WbRound) (key : List Byte) := C138_defined r junk .encrypt 3 (by decide) key
example : Nat.choose 32 3 = 4960 ∧ Nat.choose 34 3 = 5984 ∧ Nat.choose 32 32 = 1 := by decide +kernel
example : loose 2 2 = [[0, 1, 0, 1], [1, 0, 0, 1], [1, 0, 1, 0]] := by decide

end Verif.Props
