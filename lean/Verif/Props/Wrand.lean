import Verif.Model.Wrand
import Verif.Props.Shuffle
import Verif.Props.Wbsm4
import Mathlib.Data.BitVec
import Mathlib.Data.Fintype.BigOperators
import Mathlib.SetTheory.Cardinal.Finite
import Mathlib.Tactic.NormNum
import Mathlib.Algebra.Group.Action.Defs
import Mathlib.Algebra.Module.Defs

/-! C74: `wRand32`, `wRand64` are uniform. C75: what `wRandomShuffleU8` can and cannot produce. -/
set_option autoImplicit false

namespace Verif.Props
open Verif Model

/-! ### counting preimages -/

theorem card_bitvec (n : Nat) : Nat.card (BitVec n) = 2 ^ n := by
  rw [Nat.card_congr BitVec.equivFin.toEquiv, Nat.card_eq_fintype_card, Fintype.card_fin]

instance finite_bitvec (n : Nat) : Finite (BitVec n) := Finite.of_equiv _ BitVec.equivFin.toEquiv.symm

/-- If every value has as many preimages as any other, the number is the quotient. -/
theorem fiber_count {α β : Type} [Finite α] [Finite β] (f : α → β) (k : Nat) (hb : 0 < Nat.card β)
    (he : ∀ v w : β, Nat.card {x // f x = v} = Nat.card {x // f x = w}) (hk : Nat.card α = Nat.card β * k) (v : β) :
    Nat.card {x // f x = v} = k := by
  classical
  have := Fintype.ofFinite α
  have := Fintype.ofFinite β
  have h1 : Nat.card α = ∑ w : β, Nat.card {x // f x = w} := by
    rw [Nat.card_congr (Equiv.sigmaFiberEquiv f).symm, Nat.card_sigma]
  rw [Finset.sum_congr rfl (fun w _ => he w v), Finset.sum_const, Finset.card_univ, ← Nat.card_eq_fintype_card] at h1
  rw [nsmul_eq_mul, Nat.cast_id] at h1
  rw [hk] at h1
  exact (Nat.eq_of_mul_eq_mul_left hb h1).symm

theorem fiber_equiv {α β : Type} (f : α → β) (v w : β) (t : α → α) (ht : ∀ x, t (t x) = x)
    (h : ∀ x, f x = v ↔ f (t x) = w) : Nat.card {x // f x = v} = Nat.card {x // f x = w} := by
  refine Nat.card_congr ⟨fun x => ⟨t x.1, (h x.1).1 x.2⟩, fun x => ⟨t x.1, (h (t x.1)).2 (by rw [ht]; exact x.2)⟩, ?_, ?_⟩
  · intro x; exact Subtype.ext (ht x.1)
  · intro x; exact Subtype.ext (ht x.1)

theorem xor_eq_iff {n : Nat} (x d v w : BitVec n) (h : d = v ^^^ w) : x = v ↔ x ^^^ d = w := by
  subst h
  constructor
  · rintro rfl
    rw [← BitVec.xor_assoc, BitVec.xor_self, BitVec.zero_xor]
  · intro h
    have := congrArg (fun y => y ^^^ (v ^^^ w)) h
    simp only [BitVec.xor_assoc, BitVec.xor_self, BitVec.xor_zero] at this
    rw [this, BitVec.xor_comm v w, ← BitVec.xor_assoc, BitVec.xor_self, BitVec.zero_xor]

theorem xor_xor {n : Nat} (x d : BitVec n) : x ^^^ d ^^^ d = x := by
  rw [BitVec.xor_assoc, BitVec.xor_self, BitVec.xor_zero]

theorem wRand32_xor (a b a' b' : BitVec 31) : wRand32 (a ^^^ a') (b ^^^ b') = wRand32 a b ^^^ wRand32 a' b' := by
  unfold wRand32
  simp only [BitVec.truncate_eq_setWidth, BitVec.setWidth_xor, BitVec.shiftLeft_xor_distrib]
  ac_rfl

theorem wRand64_xor (a b c a' b' c' : BitVec 31) :
    wRand64 (a ^^^ a') (b ^^^ b') (c ^^^ c') = wRand64 a b c ^^^ wRand64 a' b' c' := by
  have e : ∀ (n : Nat) (x y : BitVec 31), ((x ^^^ y).zeroExtend 64) <<< n = (x.zeroExtend 64 <<< n) ^^^ (y.zeroExtend 64 <<< n) := by
    intro n x y
    rw [show (x ^^^ y).zeroExtend 64 = x.zeroExtend 64 ^^^ y.zeroExtend 64 from BitVec.setWidth_xor, BitVec.shiftLeft_xor_distrib]
  have e0 : (a ^^^ a').zeroExtend 64 = a.zeroExtend 64 ^^^ a'.zeroExtend 64 := BitVec.setWidth_xor
  have ac : ∀ x y z x' y' z' : BitVec 64, x ^^^ x' ^^^ (y ^^^ y') ^^^ (z ^^^ z') = x ^^^ y ^^^ z ^^^ (x' ^^^ y' ^^^ z') := by
    intros; ac_rfl
  unfold wRand64
  rw [e0, e, e]
  exact ac _ _ _ _ _ _

theorem wRand32_surj (v : BitVec 32) : ∃ a b, wRand32 a b = v := by
  refine ⟨(v.truncate 1).zeroExtend 31, (v >>> 1).truncate 31, ?_⟩
  unfold wRand32
  ext i hi
  by_cases h1 : i < 1
  · simp [h1, BitVec.getLsbD_eq_getElem hi]
  · simp [h1, show 1 + (i - 1) = i by omega, show i - 1 < 31 by omega, BitVec.getLsbD_eq_getElem hi]

theorem wRand64_surj (v : BitVec 64) : ∃ a b c, wRand64 a b c = v := by
  refine ⟨(v.truncate 21).zeroExtend 31, ((v >>> 21).truncate 21).zeroExtend 31, (v >>> 42).truncate 31, ?_⟩
  unfold wRand64
  ext i hi
  rcases (show i < 21 ∨ (21 ≤ i ∧ i < 42) ∨ 42 ≤ i by omega) with h | h | h
  · simp [h, show i < 42 by omega, BitVec.getLsbD_eq_getElem hi]
  · simp [show ¬ i < 21 by omega, show i < 42 by omega, show i - 21 < 21 by omega, show 21 + (i - 21) = i by omega,
      BitVec.getLsbD_eq_getElem hi]
  · simp [show ¬ i < 21 by omega, show ¬ i < 42 by omega, show ¬ i - 21 < 21 by omega, show i - 42 < 31 by omega,
      show 42 + (i - 42) = i by omega, BitVec.getLsbD_eq_getElem hi]

/-- C74: over all pairs of 31-bit numbers `wRand32` takes each of the 2^32 values the same number of times, 2^30. -/
theorem C74_wrand32_uniform (v : BitVec 32) :
    Nat.card {p : BitVec 31 × BitVec 31 // wRand32 p.1 p.2 = v} = 2 ^ 30 := by
  refine fiber_count (fun p : BitVec 31 × BitVec 31 => wRand32 p.1 p.2) (2 ^ 30) (by rw [card_bitvec]; decide) ?_
    (by rw [Nat.card_prod, card_bitvec, card_bitvec]; norm_num) v
  intro v w
  obtain ⟨a, b, h⟩ := wRand32_surj (v ^^^ w)
  refine fiber_equiv _ v w (fun p => (p.1 ^^^ a, p.2 ^^^ b)) (fun p => by simp only [xor_xor]) (fun p => ?_)
  dsimp only
  rw [wRand32_xor]
  exact xor_eq_iff _ _ _ _ h

/-- C74: over all triples of 31-bit numbers `wRand64` takes each of the 2^64 values 2^29 times. -/
theorem C74_wrand64_uniform (v : BitVec 64) :
    Nat.card {p : BitVec 31 × BitVec 31 × BitVec 31 // wRand64 p.1 p.2.1 p.2.2 = v} = 2 ^ 29 := by
  refine fiber_count (fun p : BitVec 31 × BitVec 31 × BitVec 31 => wRand64 p.1 p.2.1 p.2.2) (2 ^ 29)
    (by rw [card_bitvec]; decide) ?_ (by rw [Nat.card_prod, Nat.card_prod, card_bitvec, card_bitvec]; norm_num) v
  intro v w
  obtain ⟨a, b, c, h⟩ := wRand64_surj (v ^^^ w)
  refine fiber_equiv _ v w (fun p => (p.1 ^^^ a, p.2.1 ^^^ b, p.2.2 ^^^ c)) (fun p => by simp only [xor_xor]) (fun p => ?_)
  dsimp only
  rw [wRand64_xor]
  exact xor_eq_iff _ _ _ _ h

example : wRand32 0x7fffffff 0x7fffffff = 0x80000001 := by decide
example : wRand64 1 1 1 = 0x40000200001 := by decide

/-! ### the shuffle -/

theorem exchange_last (l : List Byte) (x : Byte) (s : List Byte) (r : Nat) (hr : r < l.length + 1) :
    exchange (l ++ x :: s) l.length r = some (if h : r < l.length then l.set r x ++ l[r] :: s else l ++ x :: s) := by
  unfold exchange
  by_cases h : r < l.length
  · rw [dif_pos h]
    simp [h, List.getElem?_append_left h]
  · obtain rfl : r = l.length := by omega
    simp

theorem exchange_last_perm (l : List Byte) (x : Byte) (r : Nat) (h : r < l.length) : (l[r] :: l.set r x).Perm (x :: l) := by
  rw [List.perm_iff_count]
  intro a
  have hc : l[r] = a → 0 < l.count a := fun e => List.count_pos_iff.mpr (e ▸ List.getElem_mem h)
  rw [List.count_cons, List.count_cons, List.count_set h]
  simp only [beq_iff_eq]
  by_cases h1 : l[r] = a <;> by_cases h2 : x = a <;> simp [h1, h2]
  · have := hc h1; omega
  · have := hc h1; omega

/-- The loop touches only the first `n` entries. -/
theorem shuffleLoop_frame (rn : Nat → BitVec 32) (n : Nat) : ∀ l s : List Byte, l.length = n →
    ∃ l', shuffleLoop rn n (l ++ s) = some (l' ++ s) ∧ l'.Perm l := by
  induction n with
  | zero => intro l s h; obtain rfl := List.length_eq_zero_iff.mp h; exact ⟨[], rfl, .refl _⟩
  | succ n ih =>
    intro l s h
    obtain ⟨l, x, rfl⟩ : ∃ l0 x, l = l0 ++ [x] := ⟨_, _, (List.dropLast_append_getLast (by rintro rfl; simp at h)).symm⟩
    obtain rfl : l.length = n := by simpa using h
    rw [List.append_assoc, List.singleton_append, shuffleLoop,
      exchange_last l x s _ (Nat.mod_lt _ (by omega)), Option.bind_some]
    generalize (rn (l.length + 1)).toNat % (l.length + 1) = q
    split
    · next hr =>
      obtain ⟨l', e, p⟩ := ih (l.set q x) (l[q] :: s) (by simp)
      refine ⟨l' ++ [l[q]], by rw [e, List.append_assoc]; rfl, ?_⟩
      refine (List.perm_append_singleton _ _).trans ((p.cons _).trans ((exchange_last_perm l x _ hr).trans ?_))
      exact (List.perm_append_singleton _ _).symm
    · obtain ⟨l', e, p⟩ := ih l (x :: s) rfl
      exact ⟨l' ++ [x], by rw [e, List.append_assoc]; rfl, p.append_right _⟩

/-- The loop can bring the first `n` entries into any order. -/
theorem shuffleLoop_reach (n : Nat) (hn : n < 2 ^ 31) : ∀ l t s : List Byte, l.length = n → t.Perm l →
    ∃ f : Nat → Nat, (∀ k, f k < 2 ^ 31) ∧ ∀ rn : Nat → BitVec 32, (∀ k, 1 ≤ k → k ≤ n → (rn k).toNat = f k) →
      shuffleLoop rn n (l ++ s) = some (t ++ s) := by
  induction n with
  | zero =>
    intro l t s h p
    obtain rfl := List.length_eq_zero_iff.mp h
    obtain rfl := p.eq_nil
    exact ⟨fun _ => 0, fun _ => by norm_num, fun _ _ => rfl⟩
  | succ n ih =>
    intro l t s h p
    obtain ⟨t, y, rfl⟩ : ∃ t0 y, t = t0 ++ [y] :=
      ⟨_, _, (List.dropLast_append_getLast (by rintro rfl; rw [← p.length_eq] at h; simp at h)).symm⟩
    obtain ⟨l, x, rfl⟩ : ∃ l0 x, l = l0 ++ [x] := ⟨_, _, (List.dropLast_append_getLast (by rintro rfl; simp at h)).symm⟩
    obtain rfl : l.length = n := by simpa using h
    have p' : (y :: t).Perm (x :: l) :=
      (List.perm_append_singleton _ _).symm.trans (p.trans (List.perm_append_singleton _ _))
    have step : ∃ r, r < l.length + 1 ∧ ∃ l1, l1.length = l.length ∧ t.Perm l1 ∧
        exchange (l ++ x :: s) l.length r = some (l1 ++ y :: s) := by
      by_cases hxy : y = x
      · subst hxy
        refine ⟨l.length, by omega, l, rfl, (List.perm_cons y).1 p', ?_⟩
        rw [exchange_last l y s _ (by omega), dif_neg (by omega)]
      · have hy : y ∈ l := by
          have := p'.mem_iff.1 (List.mem_cons_self (a := y) (l := t))
          rcases List.mem_cons.1 this with h | h
          · exact absurd h hxy
          · exact h
        obtain ⟨r, hr, rfl⟩ := List.getElem_of_mem hy
        refine ⟨r, by omega, l.set r x, by simp, ?_, ?_⟩
        · exact (List.perm_cons l[r]).1 (p'.trans (exchange_last_perm l x r hr).symm)
        · rw [exchange_last l x s _ (by omega), dif_pos hr]
    obtain ⟨r, hr, l1, hl1, hp1, hex⟩ := step
    obtain ⟨f, hf, hs⟩ := ih (by omega) l1 t (y :: s) hl1 hp1
    refine ⟨fun k => if k = l.length + 1 then r else f k, fun k => ?_, fun rn hrn => ?_⟩
    · dsimp only; split
      · omega
      · exact hf k
    · have h1 := hrn (l.length + 1) (by omega) (Nat.le_refl _)
      dsimp only at h1
      rw [if_pos rfl] at h1
      rw [List.append_assoc, List.singleton_append, shuffleLoop, h1, Nat.mod_eq_of_lt hr, hex, Option.bind_some,
        hs rn (fun k a b => by rw [hrn k a (by omega)]; exact if_neg (by omega)), List.append_assoc]
      rfl

/-- C75: whatever the random numbers, the last element of the result is the first element of the list given: the entry of
`randNumbers` that decides about it lies behind the random ones and is always 0. -/
theorem C75_last_fixed (rnd : Nat → BitVec 32) (x : Byte) (l : List Byte) :
    ∃ l', randomShuffleU8 rnd (x :: l) = some (l' ++ [x]) ∧ l'.Perm l := by
  have h0 : (randNumber rnd (x :: l).length (l.length + 1)).toNat % (l.length + 1) = 0 := by
    unfold randNumber
    rw [if_neg (by simp)]
    simp
  unfold randomShuffleU8
  rcases List.eq_nil_or_concat l with rfl | ⟨m, z, rfl⟩
  · exact ⟨[], by rw [List.length_cons, shuffleLoop, List.length_nil] at *; rw [h0]; rfl, .refl _⟩
  · rw [List.concat_eq_append] at *
    rw [List.length_cons, shuffleLoop]
    rw [List.length_cons] at h0
    rw [h0]
    have hx := exchange_last (x :: m) z [] 0 (by simp)
    rw [dif_pos (by simp)] at hx
    simp only [List.set_cons_zero, List.getElem_cons_zero] at hx
    rw [show (m ++ [z]).length = (x :: m).length by simp, show x :: (m ++ [z]) = x :: m ++ [z] from rfl, hx, Option.bind_some]
    obtain ⟨l', e, p⟩ := shuffleLoop_frame (randNumber rnd ((x :: m).length + 1)) (x :: m).length (z :: m) [x] (by simp)
    exact ⟨l', e, p.trans (List.perm_append_singleton _ _).symm⟩

/-- C75: and nothing else is excluded: every rearrangement that ends with the first element is the result for some stream of
31-bit random numbers. -/
theorem C75_reachable (x : Byte) (l t : List Byte) (h : t.Perm l) (hl : l.length < 2 ^ 31) :
    ∃ rnd : Nat → BitVec 32, (∀ k, (rnd k).toNat < 2 ^ 31) ∧ randomShuffleU8 rnd (x :: l) = some (t ++ [x]) := by
  rcases List.eq_nil_or_concat l with rfl | ⟨m, z, rfl⟩
  · obtain rfl := h.eq_nil
    exact ⟨fun _ => 0, fun _ => by simp, rfl⟩
  · rw [List.concat_eq_append] at *
    have hp : t.Perm (z :: m) := h.trans (List.perm_append_singleton _ _)
    obtain ⟨f, hf, hs⟩ := shuffleLoop_reach (x :: m).length (by simp at hl ⊢; omega) (z :: m) t [x] (by simp) hp
    have hfn : ∀ k, (BitVec.ofNat 32 (f k)).toNat = f k := fun k => by
      rw [BitVec.toNat_ofNat, Nat.mod_eq_of_lt (by have := hf k; omega)]
    refine ⟨fun k => BitVec.ofNat 32 (f k), fun k => by rw [hfn]; exact hf k, ?_⟩
    unfold randomShuffleU8
    have h0 : (randNumber (fun k => BitVec.ofNat 32 (f k)) ((m ++ [z]).length + 1) ((m ++ [z]).length + 1)).toNat %
        ((m ++ [z]).length + 1) = 0 := by
      unfold randNumber
      rw [if_neg (by simp)]
      simp
    rw [List.length_cons, shuffleLoop, h0]
    have hx := exchange_last (x :: m) z [] 0 (by simp)
    rw [dif_pos (by simp)] at hx
    simp only [List.set_cons_zero, List.getElem_cons_zero] at hx
    rw [show (m ++ [z]).length = (x :: m).length by simp, show x :: (m ++ [z]) = x :: m ++ [z] from rfl, hx, Option.bind_some]
    apply hs
    intro k h1 h2
    unfold randNumber
    rw [if_pos (by omega), hfn]

example : ([3, 1, 2] : List Byte).Perm [1, 2, 3] ∧ ([1, 2, 3] : List Byte).length < 2 ^ 31 := by decide

/-! ### consequences for the dummy rounds of white-box SM4 -/

/-- Two dummy groups next to each other. -/
def Adjacent (da : List Byte) : Prop := ∃ pre post, da = pre ++ 1 :: 1 :: post

theorem adjacent_before (l : List Byte) : AdjacentBefore (l ++ [0]) ↔ Adjacent (l ++ [0]) := by
  constructor
  · rintro ⟨pre, post, h, -⟩
    exact ⟨pre, post, h⟩
  · rintro ⟨pre, post, h⟩
    refine ⟨pre, post, h, ?_⟩
    have h1 := congrArg List.getLast? h
    rw [List.getLast?_concat] at h1
    rcases List.eq_nil_or_concat post with rfl | ⟨m, z, rfl⟩
    · rw [show pre ++ [1, 1] = pre ++ [1] ++ [1] by simp, List.getLast?_concat] at h1
      exact absurd h1 (by decide)
    · rw [List.concat_eq_append] at h1 ⊢
      rw [show pre ++ 1 :: 1 :: (m ++ [z]) = (pre ++ 1 :: 1 :: m) ++ [z] by simp, List.getLast?_concat] at h1
      rw [← Option.some.inj h1]
      simp

theorem dummy_of_shuffle (r : Wbsm4Rnd) (junk : Nat → WbRound) (mode : EncMode) (d : Nat) (key da : List Byte)
    (hda : randomShuffleU8 r.shuf (List.replicate 32 0 ++ List.replicate d 1) = some da) :
    (AdjacentBefore da → wbsm4GenTable r junk mode d key = none) ∧
    (¬ AdjacentBefore da → ∃ ctx, wbsm4GenTable r junk mode d key = some ctx) := by
  have hperm : da.Perm (List.replicate 32 0 ++ List.replicate d 1) := by
    obtain ⟨l, h, p⟩ := C58_shuffle r.shuf (List.replicate 32 0 ++ List.replicate d 1)
    rw [hda] at h
    rw [Option.some.inj h]
    exact p
  have hdum : dummyArray r.shuf d = some (expandDummy da) := by rw [dummyArray, hda]; rfl
  have h01 : ∀ e ∈ da, e = 0 ∨ e = 1 := by
    intro e he
    have := hperm.mem_iff.mp he
    rw [List.mem_append, List.mem_replicate, List.mem_replicate] at this
    rcases this with h | h
    · exact .inl h.2
    · exact .inr h.2
  have hc : 0 + da.count 0 = 32 := by
    rw [hperm.count_eq]
    simp [List.count_replicate]
  constructor
  · intro hadj
    rw [wbsm4GenTable, hdum, Option.bind_some, genTableWith,
      gen_adj r _ junk da h01 0 0 false 0 hc ⟨by simp, by simp⟩ (.inl hadj)]
    rfl
  · intro hadj
    obtain ⟨rs, hrs, -⟩ := gen_ok r (sm4InitKey key mode) junk da h01 hadj 0 0 false 0 hc (.inr (.inl ⟨rfl, rfl⟩))
    rw [wbsm4GenTable, hdum, Option.bind_some, genTableWith, hrs]
    exact ⟨_, rfl⟩

/-- A placement that ends with a real round and has no neighbouring dummy groups has no more dummy groups than real rounds. -/
theorem count_of_not_adjacent (n : Nat) : ∀ l : List Byte, l.length ≤ n → (∀ e ∈ l, e = 0 ∨ e = 1) → ¬ Adjacent l →
    (l = [] ∨ l.getLast? = some 0) → l.count 1 ≤ l.count 0 := by
  induction n with
  | zero => intro l h _ _ _; obtain rfl := List.length_eq_zero_iff.mp (Nat.le_zero.mp h); simp
  | succ n ih =>
    intro l h h01 hadj hlast
    cases l with
    | nil => simp
    | cons a l =>
      have hl : l = [] ∨ l.getLast? = some 0 := by
        cases l with
        | nil => exact .inl rfl
        | cons b l => exact .inr (by simpa using hlast)
      have hadj' : ¬ Adjacent l := fun ⟨pre, post, e⟩ => hadj ⟨a :: pre, post, by rw [e]; rfl⟩
      have h01' : ∀ e ∈ l, e = 0 ∨ e = 1 := fun e he => h01 e (List.mem_cons_of_mem _ he)
      simp only [List.length_cons] at h
      rcases h01 a List.mem_cons_self with rfl | rfl
      · have := ih l (by omega) h01' hadj' hl
        rw [List.count_cons_of_ne (by decide), List.count_cons_self]
        omega
      · cases l with
        | nil => simp at hlast
        | cons b l =>
          rcases h01' b List.mem_cons_self with rfl | rfl
          · have hl2 : l = [] ∨ l.getLast? = some 0 := by
              cases l with
              | nil => exact .inl rfl
              | cons c l => exact .inr (by simpa using hlast)
            have := ih l (by simp only [List.length_cons] at h; omega) (fun e he => h01' e (List.mem_cons_of_mem _ he))
              (fun ⟨pre, post, e⟩ => hadj ⟨1 :: 0 :: pre, post, by rw [e]; rfl⟩) hl2
            rw [List.count_cons_self, List.count_cons_of_ne (by decide), List.count_cons_of_ne (by decide), List.count_cons_self]
            omega
          · exact absurd ⟨[], l, rfl⟩ hadj

/-- C75: the last round of a white-box SM4 context is never a dummy round, and the generator stays inside its arrays exactly
if no two dummy groups are neighbours. -/
theorem C75_dummy_placement (r : Wbsm4Rnd) (junk : Nat → WbRound) (mode : EncMode) (d : Nat) (key : List Byte) :
    ∃ da : List Byte, da.Perm (List.replicate 31 0 ++ List.replicate d 1) ∧
      dummyArray r.shuf d = some (expandDummy da ++ [0]) ∧
      (wbsm4GenTable r junk mode d key = none ↔ Adjacent (da ++ [0])) := by
  obtain ⟨da, h, p⟩ := C75_last_fixed r.shuf 0 (List.replicate 31 0 ++ List.replicate d 1)
  have hl : List.replicate 32 (0 : Byte) ++ List.replicate d 1 = 0 :: (List.replicate 31 0 ++ List.replicate d 1) := by
    rw [List.replicate_succ]; rfl
  rw [← hl] at h
  obtain ⟨h1, h2⟩ := dummy_of_shuffle r junk mode d key _ h
  refine ⟨da, p, ?_, ?_⟩
  · rw [dummyArray, h, Option.map_some, show expandDummy (da ++ [0]) = expandDummy da ++ expandDummy [0] from List.flatMap_append]
    rfl
  · rw [← adjacent_before]
    constructor
    · intro hn
      by_cases ha : AdjacentBefore (da ++ [0])
      · exact ha
      · obtain ⟨ctx, hc⟩ := h2 ha
        rw [hn] at hc
        cases hc
    · exact h1

/-- C75: with more than 32 dummy groups the generator always leaves its arrays; with at most 32 there are random numbers for
which it does not. -/
theorem C75_dummy_limit (junk : Nat → WbRound) (mode : EncMode) (d : Nat) (key : List Byte) :
    (32 < d → ∀ r : Wbsm4Rnd, wbsm4GenTable r junk mode d key = none) ∧
    (d ≤ 32 → ∀ r : Wbsm4Rnd, ∃ shuf ctx, wbsm4GenTable { r with shuf := shuf } junk mode d key = some ctx) := by
  constructor
  · intro hd r
    obtain ⟨da, p, -, h⟩ := C75_dummy_placement r junk mode d key
    rw [h]
    by_cases ha : Adjacent (da ++ [0])
    · exact ha
    exfalso
    have h01 : ∀ e ∈ da ++ [0], e = 0 ∨ e = 1 := by
      intro e he
      rcases List.mem_append.1 he with he | he
      · have := p.mem_iff.mp he
        rw [List.mem_append, List.mem_replicate, List.mem_replicate] at this
        rcases this with h | h
        · exact .inl h.2
        · exact .inr h.2
      · exact .inl (by simpa using he)
    have := count_of_not_adjacent _ (da ++ [0]) (Nat.le_refl _) h01 ha (.inr (List.getLast?_concat ..))
    rw [List.count_append, List.count_append, p.count_eq, p.count_eq] at this
    simp [List.count_replicate] at this
    omega
  · intro hd r
    have hna : ∀ n m, ¬ Adjacent ((List.replicate n [1, 0]).flatten ++ List.replicate m (0 : Byte)) := by
      intro n m
      induction n with
      | zero =>
        rintro ⟨pre, post, e⟩
        have : (1 : Byte) ∈ List.replicate m (0 : Byte) := by
          rw [show List.replicate m (0 : Byte) = (List.replicate 0 [1, 0]).flatten ++ List.replicate m 0 from rfl, e]
          simp
        rw [List.mem_replicate] at this
        exact absurd this.2 (by decide)
      | succ n ih =>
        rintro ⟨pre, post, e⟩
        rw [List.replicate_succ, List.flatten_cons] at e
        match pre, e with
        | [], e => simp at e
        | [a], e => simp at e
        | a :: b :: pre, e =>
          simp at e
          exact ih ⟨pre, post, by simpa using e.2.2⟩
    have hlen : (List.replicate d [(1 : Byte), 0]).flatten ++ List.replicate (32 - d) (0 : Byte) ≠ [] := by
      intro e
      have := congrArg List.length e
      simp at this
      omega
    have hlast : ((List.replicate d [(1 : Byte), 0]).flatten ++ List.replicate (32 - d) (0 : Byte)).getLast hlen = 0 := by
      have key : ∀ n m (h : (List.replicate n [(1 : Byte), 0]).flatten ++ List.replicate m (0 : Byte) ≠ []),
          ((List.replicate n [(1 : Byte), 0]).flatten ++ List.replicate m (0 : Byte)).getLast h = 0 := by
        intro n m h
        rcases Nat.eq_zero_or_pos m with rfl | hm
        · cases n with
          | zero => simp at h
          | succ n => simp [List.replicate_succ']
        · obtain ⟨k, rfl⟩ : ∃ k, m = k + 1 := ⟨m - 1, by omega⟩
          simp [List.replicate_succ']
      exact key _ _ _
    have hsplit := List.dropLast_append_getLast hlen
    rw [hlast] at hsplit
    generalize hda : ((List.replicate d [(1 : Byte), 0]).flatten ++ List.replicate (32 - d) (0 : Byte)).dropLast = da at hsplit
    have hp : da.Perm (List.replicate 31 0 ++ List.replicate d 1) := by
      have : (da ++ [0]).Perm ((List.replicate 31 0 ++ List.replicate d 1) ++ [0]) := by
        rw [hsplit, List.perm_iff_count]
        intro a
        have hf : ∀ n, (List.replicate n [(1 : Byte), 0]).flatten.count a =
            n * ((if (1 : Byte) = a then 1 else 0) + if (0 : Byte) = a then 1 else 0) := by
          intro n
          induction n with
          | zero => simp
          | succ n ih =>
            rw [List.replicate_succ, List.flatten_cons, List.count_append, ih]
            simp [List.count_cons, Nat.add_mul]
            omega
        simp only [List.count_append, hf, List.count_replicate, List.count_cons, List.count_nil, beq_iff_eq]
        by_cases h0 : (0 : Byte) = a
        · subst h0; simp; omega
        · by_cases h1 : (1 : Byte) = a
          · subst h1; simp
          · have h0' : ¬ (0#8 = a) := h0
            have h1' : ¬ (1#8 = a) := h1
            simp [h0', h1']
      exact (List.perm_append_right_iff _).1 this
    obtain ⟨shuf, -, hs⟩ := C75_reachable 0 (List.replicate 31 0 ++ List.replicate d 1) da hp (by simp; omega)
    have hl : List.replicate 32 (0 : Byte) ++ List.replicate d 1 = 0 :: (List.replicate 31 0 ++ List.replicate d 1) := by
      rw [List.replicate_succ]; rfl
    rw [← hl] at hs
    refine ⟨shuf, (dummy_of_shuffle { r with shuf := shuf } junk mode d key _ hs).2 ?_⟩
    rw [adjacent_before, hsplit]
    exact hna _ _

end Verif.Props
