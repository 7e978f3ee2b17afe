import Verif.Props.SeedNumbers
import Verif.Props.MatrixRandom
import Mathlib.Data.Fintype.Perm

/-!
C137: which permutations the generators `genPermutation4` and `genPermutation8` make, the non-linear encodings of the white-box tables.
-/
set_option autoImplicit false

namespace Verif.Props
open Verif Spec Model

section
variable {N : Nat}

/-- The loop body of the shuffle. -/
def shufStep (rnd : Nat → BitVec 32) (p : Vector (Fin N) N) (i : Fin N) : Vector (Fin N) N :=
  if h : i.1 + 1 < N then
    swapAt p i ⟨i.1 + (rnd i.1).toNat % (N - i.1), by
      have := Nat.mod_lt (rnd i.1).toNat (show 0 < N - i.1 by omega); omega⟩
  else p

/-- The array after `k` passes. -/
def shufAt (N : Nat) (rnd : Nat → BitVec 32) (k : Nat) : Vector (Fin N) N := ((List.finRange N).take k).foldl (shufStep rnd) (Vector.ofFn id)

theorem shufAt_last (rnd : Nat → BitVec 32) : shufAt N rnd N = permShuffle N rnd := by
  unfold shufAt
  rw [List.take_of_length_le (by rw [List.length_finRange])]
  rfl

theorem shufAt_succ (rnd : Nat → BitVec 32) (k : Nat) (hk : k < N) : shufAt N rnd (k + 1) = shufStep rnd (shufAt N rnd k) ⟨k, hk⟩ := by
  unfold shufAt
  rw [List.take_add_one, List.getElem?_eq_getElem (by rw [List.length_finRange]; exact hk), List.getElem_finRange]
  simp

theorem shufStep_keep (rnd : Nat → BitVec 32) (p : Vector (Fin N) N) (i a : Fin N) (h : a.1 < i.1) : (shufStep rnd p i)[a] = p[a] := by
  unfold shufStep
  split
  · rw [swapAt_get, if_neg (by intro e; rw [e] at h; simp at h), if_neg (by intro e; rw [e] at h; omega)]
  · rfl

theorem shufStep_at (rnd : Nat → BitVec 32) (p : Vector (Fin N) N) (i j : Fin N) (h : i.1 + 1 < N)
    (hj : j.1 = i.1 + (rnd i.1).toNat % (N - i.1)) : (shufStep rnd p i)[i] = p[j] := by
  have e : j = ⟨i.1 + (rnd i.1).toNat % (N - i.1), hj ▸ j.2⟩ := Fin.ext hj
  unfold shufStep
  rw [dif_pos h, ← e, swapAt_get]
  split
  · rename_i e'; rw [← e']
  · rw [if_pos rfl]

theorem shufAt_keep (rnd : Nat → BitVec 32) (k m : Nat) (hkm : k ≤ m) (hm : m ≤ N) (a : Fin N) (ha : a.1 < k) :
    (shufAt N rnd m)[a] = (shufAt N rnd k)[a] := by
  induction m, hkm using Nat.le_induction with
  | base => rfl
  | succ m hkm ih =>
    rw [shufAt_succ rnd m (by omega), shufStep_keep rnd _ _ _ (by show a.1 < m; omega), ih (by omega)]

theorem shufAt_perm (rnd : Nat → BitVec 32) (k : Nat) : IsPerm (shufAt N rnd k) := by
  unfold shufAt
  have h0 : IsPerm (Vector.ofFn id : Vector (Fin N) N) := by
    constructor
    · intro a b h; simpa using h
    · intro x; exact ⟨x, by simp⟩
  generalize (Vector.ofFn id : Vector (Fin N) N) = p at h0
  generalize (List.finRange N).take k = l
  induction l generalizing p with
  | nil => exact h0
  | cons i l ih =>
    rw [List.foldl_cons]
    apply ih
    unfold shufStep
    split
    · exact swapAt_perm p _ _ h0
    · exact h0

/-- The position drawn in pass `i`. -/
theorem pick_lt (rnd : Nat → BitVec 32) (i : Nat) (h : i < N) : i + (rnd i).toNat % (N - i) < N := by
  have := Nat.mod_lt (rnd i).toNat (show 0 < N - i by omega); omega

theorem shuf_final (rnd : Nat → BitVec 32) (k : Nat) (hk : k + 1 < N) :
    (permShuffle N rnd)[(⟨k, by omega⟩ : Fin N)] = (shufAt N rnd k)[(⟨k + (rnd k).toNat % (N - k), pick_lt rnd k (by omega)⟩ : Fin N)] := by
  rw [← shufAt_last, shufAt_keep rnd (k + 1) N (by omega) (Nat.le_refl _) ⟨k, by omega⟩ (by show k < k + 1; omega),
    shufAt_succ rnd k (by omega)]
  exact shufStep_at rnd _ ⟨k, by omega⟩ ⟨k + (rnd k).toNat % (N - k), pick_lt rnd k (by omega)⟩ hk rfl

/-- C137: two streams give the same permutation exactly if number `i` has the same remainder modulo `N - i`, for the first `N - 1`
numbers. -/
theorem C137_same (rnd rnd' : Nat → BitVec 32) : permShuffle N rnd = permShuffle N rnd' ↔
    ∀ i, i + 1 < N → (rnd i).toNat % (N - i) = (rnd' i).toNat % (N - i) := by
  constructor
  · intro h
    have key : ∀ k, k ≤ N → shufAt N rnd k = shufAt N rnd' k ∧
        ∀ i, i < k → i + 1 < N → (rnd i).toNat % (N - i) = (rnd' i).toNat % (N - i) := by
      intro k
      induction k with
      | zero => exact fun _ => ⟨rfl, fun i hi => absurd hi (by omega)⟩
      | succ k ih =>
        intro hk
        obtain ⟨e, hi⟩ := ih (by omega)
        by_cases h1 : k + 1 < N
        · have f1 := shuf_final rnd k h1
          have f2 := shuf_final rnd' k h1
          rw [h, f2, e] at f1
          have hd := congrArg Fin.val ((shufAt_perm rnd' k).1 _ _ f1)
          have hd' : (rnd k).toNat % (N - k) = (rnd' k).toNat % (N - k) := by
            simp only at hd; omega
          refine ⟨?_, fun i hik h2 => ?_⟩
          · rw [shufAt_succ rnd k (by omega), shufAt_succ rnd' k (by omega), e]
            unfold shufStep
            simp only [hd']
          · by_cases hik' : i < k
            · exact hi i hik' h2
            · rw [show i = k by omega]; exact hd'
        · refine ⟨?_, fun i hik h2 => hi i (by omega) h2⟩
          rw [shufAt_succ rnd k (by omega), shufAt_succ rnd' k (by omega), e]
          unfold shufStep
          rw [dif_neg h1, dif_neg h1]
    exact fun i hi => (key N (Nat.le_refl _)).2 i (by omega) hi
  · intro h
    have key : ∀ k, k ≤ N → shufAt N rnd k = shufAt N rnd' k := by
      intro k
      induction k with
      | zero => exact fun _ => rfl
      | succ k ih =>
        intro hk
        rw [shufAt_succ rnd k (by omega), shufAt_succ rnd' k (by omega), ih (by omega)]
        unfold shufStep
        by_cases h1 : k + 1 < N
        · simp only [h k h1]
        · rw [dif_neg h1, dif_neg h1]
    rw [← shufAt_last, ← shufAt_last, key N (Nat.le_refl _)]

/-- C137: every permutation is made from some numbers, also small ones. -/
theorem C137_every (hN : N ≤ 2 ^ 32) (p : Vector (Fin N) N) (hp : IsPerm p) :
    ∃ rnd : Nat → BitVec 32, (∀ i, i + 1 < N → (rnd i).toNat < N - i) ∧ permShuffle N rnd = p := by
  have key : ∀ k, k ≤ N → ∃ rnd : Nat → BitVec 32, (∀ i, i < k → i + 1 < N → (rnd i).toNat < N - i) ∧
      ∀ a : Fin N, a.1 < k → a.1 + 1 < N → (shufAt N rnd k)[a] = p[a] := by
    intro k
    induction k with
    | zero => exact fun _ => ⟨fun _ => 0, fun i hi => absurd hi (by omega), fun a ha => absurd ha (by omega)⟩
    | succ k ih =>
      intro hk
      obtain ⟨rnd, h1, h2⟩ := ih (by omega)
      by_cases hlast : k + 1 < N
      · obtain ⟨j, hj⟩ := (shufAt_perm rnd k).2 p[(⟨k, by omega⟩ : Fin N)]
        have hkj : k ≤ j.1 := by
          by_contra hlt
          have e := h2 j (by omega) (by omega)
          rw [hj] at e
          have := congrArg Fin.val (hp.1 _ _ e)
          simp only at this
          omega
        have hjN := j.2
        let rnd' : Nat → BitVec 32 := fun i => if i = k then BitVec.ofNat 32 (j.1 - k) else rnd i
        have hk' : (rnd' k).toNat = j.1 - k := by
          show (if k = k then BitVec.ofNat 32 (j.1 - k) else rnd k).toNat = _
          rw [if_pos rfl, BitVec.toNat_ofNat, Nat.mod_eq_of_lt (by omega)]
        have ho : ∀ i, i < k → rnd' i = rnd i := fun i hi => if_neg (by omega)
        have hs : ∀ m, m ≤ k → shufAt N rnd' m = shufAt N rnd m := by
          intro m
          induction m with
          | zero => exact fun _ => rfl
          | succ m ihm =>
            intro hm
            rw [shufAt_succ rnd m (by omega), shufAt_succ rnd' m (by omega), ihm (by omega)]
            unfold shufStep
            simp only [ho m (by omega)]
        refine ⟨rnd', fun i hi hiN => ?_, fun a ha haN => ?_⟩
        · by_cases e : i = k
          · rw [e, hk']; omega
          · rw [ho i (by omega)]; exact h1 i (by omega) hiN
        · rw [shufAt_succ rnd' k (by omega), hs k (Nat.le_refl _)]
          by_cases e : a.1 = k
          · have ea : a = ⟨k, by omega⟩ := Fin.ext e
            rw [ea, shufStep_at rnd' _ ⟨k, by omega⟩ j hlast (by
              show j.1 = k + (rnd' k).toNat % (N - k)
              rw [hk', Nat.mod_eq_of_lt (by omega)]; omega), hj]
          · rw [shufStep_keep rnd' _ _ _ (by show a.1 < k; omega)]
            exact h2 a (by omega) haN
      · refine ⟨rnd, fun i hi hiN => h1 i (by omega) hiN, fun a ha haN => ?_⟩
        rw [shufAt_succ rnd k (by omega)]
        unfold shufStep
        rw [dif_neg hlast]
        exact h2 a (by omega) haN
  obtain ⟨rnd, h1, h2⟩ := key N (Nat.le_refl _)
  refine ⟨rnd, fun i hi => h1 i (by omega) hi, ?_⟩
  rw [shufAt_last] at h2
  -- the last entry is the one that is left
  have hq := permShuffle_perm (N := N) rnd
  apply Vector.ext
  intro i hi
  by_cases hl : i + 1 < N
  · exact h2 ⟨i, hi⟩ hi hl
  · obtain ⟨a, ha⟩ := hq.2 p[(⟨i, hi⟩ : Fin N)]
    by_cases e : a.1 + 1 < N
    · rw [h2 a (by omega) e] at ha
      have := congrArg Fin.val (hp.1 _ _ ha)
      simp only at this
      omega
    · have ea : a = ⟨i, hi⟩ := Fin.ext (by have := a.2; simp only; omega)
      rw [ea] at ha
      exact ha

/-! ### how often -/

/-- Words with a given remainder. -/
theorem residue_card (m d : Nat) (hd : d < m) :
    2 ^ 32 / m ≤ Nat.card {w : BitVec 32 // w.toNat % m = d} ∧ Nat.card {w : BitVec 32 // w.toNat % m = d} ≤ 2 ^ 32 / m + 1 := by
  have hm : 0 < m := by omega
  have hfin : Finite (BitVec 32) := Finite.of_injective (fun x : BitVec 32 => x.toFin) (fun a b h => by cases a; cases b; cases h; rfl)
  constructor
  · have hlt : ∀ q, q < 2 ^ 32 / m → d + m * q < 2 ^ 32 := by
      intro q hq
      have h1 : m * (q + 1) ≤ m * (2 ^ 32 / m) := Nat.mul_le_mul_left _ hq
      have h2 := Nat.mul_div_le (2 ^ 32) m
      rw [Nat.mul_succ] at h1
      omega
    let f : Fin (2 ^ 32 / m) → {w : BitVec 32 // w.toNat % m = d} := fun q => ⟨BitVec.ofNat 32 (d + m * q.1), by
      rw [BitVec.toNat_ofNat, Nat.mod_eq_of_lt (hlt q.1 q.2), Nat.add_mul_mod_self_left, Nat.mod_eq_of_lt hd]⟩
    have hf : Function.Injective f := by
      intro a b h
      have h' := congrArg (fun w : {w : BitVec 32 // w.toNat % m = d} => w.1.toNat) h
      simp only [f, BitVec.toNat_ofNat] at h'
      rw [Nat.mod_eq_of_lt (hlt a.1 a.2), Nat.mod_eq_of_lt (hlt b.1 b.2)] at h'
      exact Fin.ext (Nat.eq_of_mul_eq_mul_left hm (by omega))
    have := Nat.card_le_card_of_injective f hf
    rwa [Nat.card_eq_fintype_card, Fintype.card_fin] at this
  · let f : {w : BitVec 32 // w.toNat % m = d} → Fin (2 ^ 32 / m + 1) := fun w =>
      ⟨w.1.toNat / m, Nat.lt_succ_of_le (Nat.div_le_div_right (Nat.le_of_lt w.1.isLt))⟩
    have hf : Function.Injective f := by
      intro a b h
      have h' : a.1.toNat / m = b.1.toNat / m := congrArg Fin.val h
      have ha := Nat.div_add_mod a.1.toNat m
      have hb := Nat.div_add_mod b.1.toNat m
      rw [a.2, h'] at ha
      rw [b.2] at hb
      exact Subtype.ext (BitVec.eq_of_toNat_eq (by omega))
    have := Nat.card_le_card_of_injective f hf
    rwa [Nat.card_eq_fintype_card (α := Fin _), Fintype.card_fin] at this

/-- C137: of all sequences of `N - 1` numbers almost the same share makes each permutation. -/
theorem C137_count (K : Nat) (hK : K + 1 = N) (hN : N ≤ 2 ^ 32) (rest : Nat → BitVec 32) (p : Vector (Fin N) N) (hp : IsPerm p) :
    ∏ i : Fin K, 2 ^ 32 / (N - i.1) ≤ Nat.card {s : Fin K → BitVec 32 // permShuffle N (streamOf K rest s) = p} ∧
    Nat.card {s : Fin K → BitVec 32 // permShuffle N (streamOf K rest s) = p} ≤ ∏ i : Fin K, (2 ^ 32 / (N - i.1) + 1) := by
  obtain ⟨rnd, hr, rfl⟩ := C137_every hN p hp
  have e : Nat.card {s : Fin K → BitVec 32 // permShuffle N (streamOf K rest s) = permShuffle N rnd} =
      ∏ i : Fin K, Nat.card {w : BitVec 32 // w.toNat % (N - i.1) = (rnd i.1).toNat} := by
    rw [← Nat.card_pi]
    refine Nat.card_congr ⟨fun s i => ⟨s.1 i, ?_⟩, fun t => ⟨fun i => (t i).1, ?_⟩, fun s => rfl, fun t => rfl⟩
    · have h := (C137_same _ _).1 s.2 i.1 (by have := i.2; omega)
      rw [Nat.mod_eq_of_lt (hr i.1 (by have := i.2; omega))] at h
      rw [← h]
      unfold streamOf
      rw [dif_pos i.2]
    · rw [C137_same]
      intro i hi
      rw [Nat.mod_eq_of_lt (hr i hi)]
      unfold streamOf
      rw [dif_pos (show i < K by omega)]
      exact (t ⟨i, by omega⟩).2
  rw [e]
  exact ⟨Finset.prod_le_prod' fun i _ => (residue_card _ _ (hr i.1 (by have := i.2; omega))).1,
    Finset.prod_le_prod' fun i _ => (residue_card _ _ (hr i.1 (by have := i.2; omega))).2⟩

/-- Permutations as vectors and as functions. -/
theorem perm_card : Nat.card {p : Vector (Fin N) N // IsPerm p} = N.factorial := by
  rw [Nat.card_congr (show {p : Vector (Fin N) N // IsPerm p} ≃ Equiv.Perm (Fin N) from
    ⟨fun p => Equiv.ofBijective (fun a => p.1[a]) ⟨fun a b h => p.2.1 a b h, p.2.2⟩,
     fun f => ⟨Vector.ofFn f, fun a b h => by simpa using h, fun x => ⟨f.symm x, by simp⟩⟩,
     fun p => Subtype.ext (Vector.ext fun i hi => by simp), fun f => Equiv.ext fun a => by simp⟩),
    Nat.card_eq_fintype_card, Fintype.card_perm, Fintype.card_fin]

/-- C137: they are not equally likely, however many numbers are random. -/
theorem C137_not_uniform (hN : 3 ≤ N) (K : Nat) (rest : Nat → BitVec 32) : ∃ A B : Vector (Fin N) N, IsPerm A ∧ IsPerm B ∧
    Nat.card {s : Fin K → BitVec 32 // permShuffle N (streamOf K rest s) = A} ≠
      Nat.card {s : Fin K → BitVec 32 // permShuffle N (streamOf K rest s) = B} := by
  by_contra hcon
  push Not at hcon
  let f : (Fin K → BitVec 32) → {p : Vector (Fin N) N // IsPerm p} := fun s => ⟨permShuffle N (streamOf K rest s), permShuffle_perm _⟩
  have hid : IsPerm (permShuffle N fun _ => 0) := permShuffle_perm _
  have hfinw : Finite (BitVec 32) := Finite.of_injective (fun x : BitVec 32 => x.toFin) (fun a b h => by cases a; cases b; cases h; rfl)
  have hfin : Finite (Vector (Fin N) N) := Finite.of_injective (fun M : Vector (Fin N) N => fun i : Fin N => M[i]) fun A B h =>
    Vector.ext fun i hi => congrFun h ⟨i, hi⟩
  have hsum : Nat.card (Fin K → BitVec 32) = Nat.card {p : Vector (Fin N) N // IsPerm p} *
      Nat.card {s : Fin K → BitVec 32 // permShuffle N (streamOf K rest s) = permShuffle N fun _ => 0} := by
    have : Fintype {p : Vector (Fin N) N // IsPerm p} := Fintype.ofFinite _
    rw [← Nat.card_congr (Equiv.sigmaFiberEquiv f), Nat.card_sigma, Nat.card_eq_fintype_card, ← Finset.card_univ, ← smul_eq_mul,
      ← Finset.sum_const]
    refine Finset.sum_congr rfl fun A _ => ?_
    rw [← hcon A.1 _ A.2 hid]
    exact Nat.card_congr (Equiv.subtypeEquivRight fun s => ⟨fun e => congrArg Subtype.val e, fun e => Subtype.ext e⟩)
  have h3 : 3 ∣ Nat.card (Fin K → BitVec 32) := by
    rw [hsum, perm_card]
    exact Dvd.dvd.mul_right (Nat.dvd_factorial (by decide) hN) _
  have hc : Nat.card (Fin K → BitVec 32) = (2 ^ 32) ^ K := by
    rw [Nat.card_fun, Nat.card_eq_fintype_card (α := Fin K), Fintype.card_fin, card_word]
  rw [hc, ← Nat.pow_mul] at h3
  have := Nat.prime_three.dvd_of_dvd_pow h3
  omega

end

theorem ratio16 : (∏ i : Fin 15, (2 ^ 32 / (16 - i.1) + 1)) * 2 ^ 24 ≤ (∏ i : Fin 15, 2 ^ 32 / (16 - i.1)) * (2 ^ 24 + 1) := by decide +kernel
theorem ratio256 : (∏ i : Fin 255, (2 ^ 32 / (256 - i.1) + 1)) * 2 ^ 16 ≤ (∏ i : Fin 255, 2 ^ 32 / (256 - i.1)) * (2 ^ 16 + 1) := by
  decide +kernel

/-- C137: if all numbers were random, no permutation of nibbles would be more likely than another by more than a factor of
1 + 2^-24, and none of bytes by more than 1 + 2^-16. -/
theorem C137_nearly_uniform (rest : Nat → BitVec 32) :
    (∀ A B : Vector (Fin 16) 16, IsPerm A → IsPerm B →
      Nat.card {s : Fin 15 → BitVec 32 // permShuffle 16 (streamOf 15 rest s) = A} * 2 ^ 24 ≤
        Nat.card {s : Fin 15 → BitVec 32 // permShuffle 16 (streamOf 15 rest s) = B} * (2 ^ 24 + 1)) ∧
    ∀ A B : Vector (Fin 256) 256, IsPerm A → IsPerm B →
      Nat.card {s : Fin 255 → BitVec 32 // permShuffle 256 (streamOf 255 rest s) = A} * 2 ^ 16 ≤
        Nat.card {s : Fin 255 → BitVec 32 // permShuffle 256 (streamOf 255 rest s) = B} * (2 ^ 16 + 1) := by
  constructor
  · intro A B hA hB
    have a := (C137_count (N := 16) 15 rfl (by decide) rest A hA).2
    have b := (C137_count (N := 16) 15 rfl (by decide) rest B hB).1
    exact le_trans (Nat.mul_le_mul_right _ a) (le_trans ratio16 (Nat.mul_le_mul_right _ b))
  · intro A B hA hB
    have a := (C137_count (N := 256) 255 rfl (by decide) rest A hA).2
    have b := (C137_count (N := 256) 255 rfl (by decide) rest B hB).1
    exact le_trans (Nat.mul_le_mul_right _ a) (le_trans ratio256 (Nat.mul_le_mul_right _ b))

/-! ### the library's own numbers -/

/-- A step that takes `c` numbers. -/
def Takes {α : Type} (a : Rng → α × Rng) (c : Nat) : Prop := ∀ g : Rng, (a g).2.st = randAfter g.st c

theorem takes_perm (N : Nat) : Takes (drawPerm N) (N - 1) := fun _ => rfl

theorem takes_pair {α β : Type} {a : Rng → α × Rng} {b : Rng → β × Rng} {c d : Nat} (ha : Takes a c) (hb : Takes b d) :
    Takes (drawPair a b) (c + d) := by
  intro g
  show (b (a g).2).2.st = _
  rw [hb, ha, randAfter_add]

theorem takes_iter {α : Type} {a : Rng → α × Rng} {c : Nat} (ha : Takes a c) (k : Nat) :
    ∀ g : Rng, (rngIter a k g).st = randAfter g.st (c * k) := by
  induction k with
  | zero => exact fun _ => rfl
  | succ k ih =>
    intro g
    show (rngIter a k (a g).2).st = _
    rw [ih, ha, randAfter_add]
    congr 1
    rw [Nat.mul_succ]; omega

/-- The numbers of permutation `m` after a seeding. -/
def permNumbers (N : Nat) (t : BitVec 32) (m : Nat) : RStream := fun n => seeded t ((N - 1) * m + n)

theorem nib_pair (t : BitVec 32) (m : Nat) (g : Rng) (hg : g.st = randAfter (initRandom t) (15 * m)) (k : Nat) :
    (∀ i, ((drawN k (drawPair (drawPerm 16) (drawPerm 16)) g).1 i).1 = permNumbers 16 t (m + 2 * i) ∧
      ((drawN k (drawPair (drawPerm 16) (drawPerm 16)) g).1 i).2 = permNumbers 16 t (m + 2 * i + 1)) ∧
    (drawN k (drawPair (drawPerm 16) (drawPerm 16)) g).2.st = randAfter (initRandom t) (15 * (m + 2 * k)) := by
  have hs : ∀ i, (rngIter (drawPair (drawPerm 16) (drawPerm 16)) i g).st = randAfter (initRandom t) (15 * (m + 2 * i)) := by
    intro i
    rw [takes_iter (takes_pair (takes_perm 16) (takes_perm 16)) i g, hg, randAfter_add]
    congr 1; omega
  refine ⟨fun i => ⟨?_, ?_⟩, hs k⟩
  · show randNth (rngIter (drawPair (drawPerm 16) (drawPerm 16)) i g).st = _
    funext n
    rw [hs, randNth_add]
    rfl
  · show randNth (randAfter (rngIter (drawPair (drawPerm 16) (drawPerm 16)) i g).st 15) = _
    funext n
    rw [hs, randAfter_add, randNth_add]
    show randNth (initRandom t) _ = randNth (initRandom t) _
    congr 1

/-- C137: a white-box AES context takes its 4096 permutations of nibbles one after the other from the numbers of one seeding with the
clock. -/
theorem C137_places (clock : Nat → BitVec 32) (g : Rng) (jp : Vector (Fin 16) 16) (jk : Nat → Byte) :
    let t := clock (g.now + 424)
    let r := (wbaesDraw clock jp jk g).1
    (∀ i j k, r.1.outII i j k = permNumbers 16 t (2 * (8 * (16 * i.1 + j.1) + k.1)) ∧
      r.1.outIII i j k = permNumbers 16 t (2 * (8 * (16 * i.1 + j.1) + k.1) + 1)) ∧
    (∀ i j k, r.1.outIVII1 i j k = permNumbers 16 t (2304 + 2 * (8 * (8 * i.1 + j.1) + k.1)) ∧
      r.1.outIVIII1 i j k = permNumbers 16 t (2304 + 2 * (8 * (8 * i.1 + j.1) + k.1) + 1)) ∧
    (∀ i j k, r.1.outIVII2 i j k = permNumbers 16 t (3456 + 2 * (8 * (4 * i.1 + j.1) + k.1)) ∧
      r.1.outIVIII2 i j k = permNumbers 16 t (3456 + 2 * (8 * (4 * i.1 + j.1) + k.1) + 1)) ∧
    ∀ i j, r.1.inII i j = permNumbers 16 t (4032 + 2 * (2 * i.1 + j.1)) ∧
      r.2 i j = permNumbers 16 t (4032 + 2 * (2 * i.1 + j.1) + 1) := by
  intro t r
  have h0 : (rngTime clock (drawN 16 (drawPair (drawMat 8 clock) (drawMat 8 clock))
      (drawN 36 (drawMat 32 clock) (drawN 144 (drawMat 8 clock) g).2).2).2).st = randAfter (initRandom t) (15 * 0) := by
    unfold rngTime
    simp only [mats_now]
    rfl
  obtain ⟨a1, b1⟩ := nib_pair t 0 _ h0 1152
  obtain ⟨a2, b2⟩ := nib_pair t 2304 _ b1 576
  obtain ⟨a3, b3⟩ := nib_pair t 3456 _ b2 288
  have b4 : (roundDraw clock jp jk g).2.st = randAfter (initRandom t) (15 * 4032) := b3
  obtain ⟨a4, -⟩ := nib_pair t 4032 (roundDraw clock jp jk g).2 b4 32
  refine ⟨fun i j k => ⟨?_, ?_⟩, fun i j k => ⟨?_, ?_⟩, fun i j k => ⟨?_, ?_⟩, fun i j => ⟨?_, ?_⟩⟩
  · exact ((a1 _).1.trans (by rw [Nat.zero_add]))
  · exact ((a1 _).2.trans (by rw [Nat.zero_add]))
  · exact (a2 (8 * (8 * i.1 + j.1) + k.1)).1
  · exact (a2 (8 * (8 * i.1 + j.1) + k.1)).2
  · exact (a3 (8 * (4 * i.1 + j.1) + k.1)).1
  · exact (a3 (8 * (4 * i.1 + j.1) + k.1)).2
  · exact (a4 (2 * i.1 + j.1)).1
  · exact (a4 (2 * i.1 + j.1)).2

local instance : Finite (BitVec 32) := Finite.of_injective (fun x : BitVec 32 => x.toFin) (fun a b h => by cases a; cases b; cases h; rfl)
local instance {N : Nat} : Finite (Vector (Fin N) N) := Finite.of_injective (fun M : Vector (Fin N) N => fun i : Fin N => M[i]) fun A B h =>
    Vector.ext fun i hi => congrFun h ⟨i, hi⟩

theorem numbers_card (N K : Nat) : {p : Vector (Fin N) N | ∃ (t : BitVec 32) (m : Fin K), permShuffle N (permNumbers N t m.1) = p}.ncard ≤
    2 ^ 32 * K := by
  have e : {p : Vector (Fin N) N | ∃ (t : BitVec 32) (m : Fin K), permShuffle N (permNumbers N t m.1) = p} =
      (fun x : BitVec 32 × Fin K => permShuffle N (permNumbers N x.1 x.2.1)) '' Set.univ := by
    ext p
    constructor
    · rintro ⟨t, m, h⟩; exact ⟨(t, m), trivial, h⟩
    · rintro ⟨⟨t, m⟩, -, h⟩; exact ⟨t, m, h⟩
  rw [e]
  refine le_trans (Set.ncard_image_le (Set.toFinite _)) ?_
  rw [Set.ncard_univ, Nat.card_prod, card_word, Nat.card_eq_fintype_card, Fintype.card_fin]

/-- C137: of the 16! permutations of nibbles at most 2^44 occur, at all 4096 places of a context and all seconds taken together; at one
place at most 2^32. -/
theorem C137_few : {p : Vector (Fin 16) 16 | ∃ (t : BitVec 32) (m : Fin 4096), permShuffle 16 (permNumbers 16 t m.1) = p}.ncard ≤ 2 ^ 44 ∧
    (∀ m, {p : Vector (Fin 16) 16 | ∃ t : BitVec 32, permShuffle 16 (permNumbers 16 t m) = p}.ncard ≤ 2 ^ 32) ∧
    2 ^ 44 < Nat.card {p : Vector (Fin 16) 16 // IsPerm p} := by
  refine ⟨numbers_card 16 4096, fun m => ?_, ?_⟩
  · have e : {p : Vector (Fin 16) 16 | ∃ t : BitVec 32, permShuffle 16 (permNumbers 16 t m) = p} =
      (fun t : BitVec 32 => permShuffle 16 (permNumbers 16 t m)) '' Set.univ := by
      ext p
      constructor
      · rintro ⟨t, h⟩; exact ⟨t, trivial, h⟩
      · rintro ⟨t, -, h⟩; exact ⟨t, h⟩
    rw [e]
    refine le_trans (Set.ncard_image_le (Set.toFinite _)) ?_
    rw [Set.ncard_univ, card_word]
  · rw [perm_card]; decide +kernel

/-- C137: so some permutation of nibbles occurs nowhere in any white-box AES context, whatever the clock, the key and the calls before. -/
theorem C137_missed : ∃ p : Vector (Fin 16) 16, IsPerm p ∧ ∀ (clock : Nat → BitVec 32) (g : Rng) (jp : Vector (Fin 16) 16) (jk : Nat → Byte),
    let r := (wbaesDraw clock jp jk g).1
    (∀ i j k, permShuffle 16 (r.1.outII i j k) ≠ p ∧ permShuffle 16 (r.1.outIII i j k) ≠ p) ∧
    (∀ i j k, permShuffle 16 (r.1.outIVII1 i j k) ≠ p ∧ permShuffle 16 (r.1.outIVIII1 i j k) ≠ p) ∧
    (∀ i j k, permShuffle 16 (r.1.outIVII2 i j k) ≠ p ∧ permShuffle 16 (r.1.outIVIII2 i j k) ≠ p) ∧
    ∀ i j, permShuffle 16 (r.1.inII i j) ≠ p ∧ permShuffle 16 (r.2 i j) ≠ p := by
  obtain ⟨h1, -, h3⟩ := C137_few
  obtain ⟨p, hp, hn⟩ : ∃ p : Vector (Fin 16) 16, IsPerm p ∧ ∀ (t : BitVec 32) (m : Fin 4096), permShuffle 16 (permNumbers 16 t m.1) ≠ p := by
    by_contra hcon
    push Not at hcon
    have := Set.ncard_le_ncard (s := {p : Vector (Fin 16) 16 | IsPerm p}) hcon (Set.toFinite _)
    rw [← Nat.card_coe_set_eq] at this
    exact absurd (lt_of_lt_of_le h3 (le_trans this h1)) (by decide)
  refine ⟨p, hp, fun clock g jp jk => ?_⟩
  obtain ⟨e1, e2, e3, e4⟩ := C137_places clock g jp jk
  have hn' : ∀ (t : BitVec 32) (m : Nat), m < 4096 → permShuffle 16 (permNumbers 16 t m) ≠ p := fun t m hm => hn t ⟨m, hm⟩
  refine ⟨fun i j k => ⟨?_, ?_⟩, fun i j k => ⟨?_, ?_⟩, fun i j k => ⟨?_, ?_⟩, fun i j => ⟨?_, ?_⟩⟩
  · rw [(e1 i j k).1]; exact hn' _ _ (by omega)
  · rw [(e1 i j k).2]; exact hn' _ _ (by omega)
  · rw [(e2 i j k).1]; exact hn' _ _ (by omega)
  · rw [(e2 i j k).2]; exact hn' _ _ (by omega)
  · rw [(e3 i j k).1]; exact hn' _ _ (by omega)
  · rw [(e3 i j k).2]; exact hn' _ _ (by omega)
  · rw [(e4 i j).1]; exact hn' _ _ (by omega)
  · rw [(e4 i j).2]; exact hn' _ _ (by omega)

/- A permutation of four symbols, from the numbers 1, 0, 1; adding 4, 3 and 2 to them changes nothing. -/
example : permShuffle 4 (fun i => if i = 0 then 1 else if i = 1 then 0 else 1) = #v[1, 0, 3, 2] := by decide +kernel
example : permShuffle 4 (fun i => if i = 0 then 5 else if i = 1 then 3 else 3) = #v[1, 0, 3, 2] := by decide +kernel
example : ∃ rnd : Nat → BitVec 32, (∀ i, i + 1 < 4 → (rnd i).toNat < 4 - i) ∧ permShuffle 4 rnd = #v[1, 0, 3, 2] :=
  C137_every (by decide) _ (by constructor <;> decide)
example := C137_not_uniform (N := 16) (by decide) 15 fun _ => 0

end Verif.Props
