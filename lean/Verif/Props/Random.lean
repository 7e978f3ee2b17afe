import Verif.Model.Random
import Mathlib.NumberTheory.LucasPrimality
import Mathlib.NumberTheory.LegendreSymbol.Basic
import Mathlib.Data.Fintype.EquivFin
import Mathlib.Tactic.NormNum.Prime
import Mathlib.Tactic.ReduceModChar

/-!
# C59: the pseudo random generator

`permuteQPR` is a permutation of the 32-bit integers because 4294967291 is a prime congruent 3 modulo 4.  From
this follows the exact period of the generator: in any 2^32 successive calls each value comes exactly once.
-/

set_option autoImplicit false

namespace Verif.Props
open Verif Model

theorem prime_22605091 : Nat.Prime 22605091 := by norm_num

theorem zmod_ne_one (r : Nat) (h : r % 4294967291 ≠ 1) : ((r : Nat) : ZMod 4294967291) ≠ 1 := by
  intro e
  rw [← Nat.cast_one, ZMod.natCast_eq_natCast_iff'] at e
  exact h e

/-- 4294967291 is prime (Lucas test with base 2). -/
theorem prime_qpr : Nat.Prime qprPrime := by
  unfold qprPrime
  refine lucas_primality _ (2 : ZMod 4294967291) ?_ ?_
  · norm_num; reduce_mod_char
  · intro q hq hd
    have hf : q = 2 ∨ q = 5 ∨ q = 19 ∨ q = 22605091 := by
      rw [show 4294967291 - 1 = 2 * (5 * (19 * 22605091)) from rfl, hq.dvd_mul, hq.dvd_mul, hq.dvd_mul,
        Nat.prime_dvd_prime_iff_eq hq Nat.prime_two, Nat.prime_dvd_prime_iff_eq hq (by norm_num),
        Nat.prime_dvd_prime_iff_eq hq (by norm_num), Nat.prime_dvd_prime_iff_eq hq prime_22605091] at hd
      exact hd
    rcases hf with rfl | rfl | rfl | rfl
    · rw [show (2 : ZMod 4294967291) ^ ((4294967291 - 1) / 2) = (4294967290 : Nat) by norm_num; reduce_mod_char]
      exact zmod_ne_one _ (by norm_num)
    · rw [show (2 : ZMod 4294967291) ^ ((4294967291 - 1) / 5) = (149005400 : Nat) by norm_num; reduce_mod_char]
      exact zmod_ne_one _ (by norm_num)
    · rw [show (2 : ZMod 4294967291) ^ ((4294967291 - 1) / 19) = (81549662 : Nat) by norm_num; reduce_mod_char]
      exact zmod_ne_one _ (by norm_num)
    · rw [show (2 : ZMod 4294967291) ^ ((4294967291 - 1) / 22605091) = (1073745729 : Nat) by norm_num; reduce_mod_char]
      exact zmod_ne_one _ (by norm_num)

instance : Fact (Nat.Prime qprPrime) := ⟨prime_qpr⟩

/-- The value of the step as a number: the square or its negative modulo the prime. -/
theorem permuteQPR_toNat (x : BitVec 32) (h : x.toNat < qprPrime) :
    (permuteQPR x).toNat = if x.toNat ≤ qprPrime / 2 then x.toNat * x.toNat % qprPrime
      else qprPrime - x.toNat * x.toNat % qprPrime := by
  have hp : qprPrime = 4294967291 := rfl
  have h64 : x.toNat * x.toNat % 2 ^ 64 = x.toNat * x.toNat := by
    refine Nat.mod_eq_of_lt ?_
    have : x.toNat * x.toNat ≤ 4294967291 * 4294967291 := Nat.mul_le_mul (by omega) (by omega)
    omega
  have hr : x.toNat * x.toNat % qprPrime < qprPrime := Nat.mod_lt _ (by omega)
  unfold permuteQPR
  rw [if_neg (by omega), h64]
  simp only
  generalize x.toNat * x.toNat % qprPrime = r at hr
  split
  · rw [BitVec.toNat_ofNat]; omega
  · by_cases h0 : r = 0
    · subst h0
      rw [BitVec.toNat_sub, BitVec.toNat_ofNat, BitVec.toNat_ofNat]
      omega
    · rw [BitVec.toNat_sub, BitVec.toNat_ofNat, BitVec.toNat_ofNat]; omega

theorem sq_ne_zero_mod (x : Nat) (h0 : 0 < x) (h : x < qprPrime) : 0 < x * x % qprPrime := by
  refine Nat.pos_of_ne_zero fun e => ?_
  have := Nat.dvd_of_mod_eq_zero e
  rw [prime_qpr.dvd_mul, or_self] at this
  exact absurd (Nat.le_of_dvd h0 this) (by omega)

/-- Two numbers below the prime with the same square are equal or add up to the prime. -/
theorem sq_mod_eq (a b : Nat) (ha : a < qprPrime) (hb : b < qprPrime) (h : a * a % qprPrime = b * b % qprPrime) :
    a = b ∨ a + b = qprPrime ∨ a + b = 0 := by
  have e : ((a : ZMod qprPrime)) * a = (b : ZMod qprPrime) * b := by
    have := (ZMod.natCast_eq_natCast_iff' (a * a) (b * b) qprPrime).2 h
    simpa using this
  rcases mul_self_eq_mul_self_iff.1 e with h1 | h1
  · left
    rw [ZMod.natCast_eq_natCast_iff', Nat.mod_eq_of_lt ha, Nat.mod_eq_of_lt hb] at h1
    exact h1
  · right
    have : ((a + b : Nat) : ZMod qprPrime) = 0 := by push_cast; rw [h1]; ring
    rw [ZMod.natCast_eq_zero_iff] at this
    obtain ⟨k, hk⟩ := this
    match k with
    | 0 => right; omega
    | 1 => left; omega
    | k + 2 => exfalso; rw [Nat.mul_add] at hk; omega

/-- A square is never the negative of a nonzero square modulo the prime. -/
theorem sq_add_sq_ne (a b : Nat) (hb0 : 0 < b) (hb : b < qprPrime) :
    a * a % qprPrime ≠ qprPrime - b * b % qprPrime := by
  intro h
  have hr : b * b % qprPrime < qprPrime := Nat.mod_lt _ prime_qpr.pos
  have e : (a : ZMod qprPrime) * a + (b : ZMod qprPrime) * b = 0 := by
    have : ((a * a % qprPrime + b * b % qprPrime : Nat) : ZMod qprPrime) = 0 := by
      rw [h, Nat.sub_add_cancel (by omega)]; exact ZMod.natCast_self _
    push_cast at this
    rw [ZMod.natCast_mod, ZMod.natCast_mod] at this
    push_cast at this
    exact this
  have hb' : (b : ZMod qprPrime) ≠ 0 := by
    rw [Ne, ZMod.natCast_eq_zero_iff]
    intro hd
    exact absurd (Nat.le_of_dvd hb0 hd) (by omega)
  have hs : IsSquare (-1 : ZMod qprPrime) := by
    refine ⟨(a : ZMod qprPrime) / b, ?_⟩
    rw [div_mul_div_comm, eq_comm, div_eq_iff (mul_ne_zero hb' hb')]
    rw [eq_neg_of_add_eq_zero_left e, neg_one_mul]
  exact ZMod.exists_sq_eq_neg_one_iff.1 hs rfl

theorem permuteQPR_lt (x : BitVec 32) (h : x.toNat < qprPrime) : (permuteQPR x).toNat < qprPrime := by
  rw [permuteQPR_toNat x h]
  have hr : x.toNat * x.toNat % qprPrime < qprPrime := Nat.mod_lt _ prime_qpr.pos
  split
  · exact hr
  · have := sq_ne_zero_mod x.toNat (by omega) h
    omega

theorem permuteQPR_ge (x : BitVec 32) (h : qprPrime ≤ x.toNat) : permuteQPR x = x := by
  unfold permuteQPR; rw [if_pos h]

theorem permuteQPR_injective : Function.Injective permuteQPR := by
  have hp : qprPrime = 4294967291 := rfl
  intro x y h
  by_cases hx : x.toNat < qprPrime
  · by_cases hy : y.toNat < qprPrime
    · have e := congrArg BitVec.toNat h
      rw [permuteQPR_toNat x hx, permuteQPR_toNat y hy] at e
      apply BitVec.eq_of_toNat_eq
      have hrx : x.toNat * x.toNat % qprPrime < qprPrime := Nat.mod_lt _ prime_qpr.pos
      have hry : y.toNat * y.toNat % qprPrime < qprPrime := Nat.mod_lt _ prime_qpr.pos
      split at e <;> split at e
      · rcases sq_mod_eq _ _ hx hy e with h1 | h1 | h1
        · exact h1
        · omega
        · omega
      · exact absurd e (sq_add_sq_ne _ _ (by omega) hy)
      · exact absurd e.symm (sq_add_sq_ne _ _ (by omega) hx)
      · rcases sq_mod_eq _ _ hx hy (by omega) with h1 | h1 | h1
        · exact h1
        · omega
        · omega
    · rw [permuteQPR_ge y (by omega)] at h
      have := permuteQPR_lt x hx
      rw [h] at this
      omega
  · rw [permuteQPR_ge x (by omega)] at h
    by_cases hy : y.toNat < qprPrime
    · have := permuteQPR_lt y hy
      rw [← h] at this
      omega
    · rw [permuteQPR_ge y (by omega)] at h
      exact h

/-- C59: the step is a permutation of the 32-bit integers. -/
theorem C59_permuteQPR_bijective : Function.Bijective permuteQPR := by
  have : Finite (BitVec 32) := Finite.of_injective BitVec.toFin (fun _ _ h => BitVec.eq_of_toFin_eq h)
  exact Finite.injective_iff_bijective.1 permuteQPR_injective

theorem randAfter_index (s : RandSt) (n : Nat) :
    randAfter s n = ⟨s.index + BitVec.ofNat 32 n, s.offset⟩ := by
  induction n with
  | zero => simp [randAfter]
  | succ n ih =>
    rw [randAfter, ih]
    simp only [cusRandom, RandSt.mk.injEq, and_true]
    rw [BitVec.add_assoc, BitVec.ofNat_add]
    rfl

/-- C59: two calls return the same value exactly if their distance is a multiple of 2^32. -/
theorem C59_random_period (s : RandSt) (n m : Nat) : randNth s n = randNth s m ↔ n % 2 ^ 32 = m % 2 ^ 32 := by
  unfold randNth
  rw [randAfter_index, randAfter_index]
  simp only [cusRandom]
  rw [permuteQPR_injective.eq_iff, BitVec.xor_left_inj, BitVec.add_left_inj, permuteQPR_injective.eq_iff,
    BitVec.add_right_inj]
  constructor
  · intro h
    have := congrArg BitVec.toNat h
    simpa using this
  · intro h
    apply BitVec.eq_of_toNat_eq
    simpa using h

/-- C59: every 32-bit value comes exactly once in any 2^32 successive calls, from any state. -/
theorem C59_random_each_once (s : RandSt) (v : BitVec 32) : ∃! n, n < 2 ^ 32 ∧ randNth s n = v := by
  have hfin : Function.Injective fun x : BitVec 32 => randNth s x.toNat := by
    intro a b h
    have := (C59_random_period s a.toNat b.toNat).1 h
    apply BitVec.eq_of_toNat_eq
    have ha := a.isLt
    have hb := b.isLt
    omega
  have : Finite (BitVec 32) := Finite.of_injective BitVec.toFin (fun _ _ h => BitVec.eq_of_toFin_eq h)
  obtain ⟨x, hx⟩ := (Finite.injective_iff_bijective.1 hfin).2 v
  refine ⟨x.toNat, ⟨x.isLt, hx⟩, ?_⟩
  rintro m ⟨hm, he⟩
  have := (C59_random_period s m x.toNat).1 (he.trans hx.symm)
  have := x.isLt
  omega

/-- C59: different seeds give different index sequences: the start index determines the seed. -/
theorem C59_seed_injective (a b : BitVec 32) : (initRandom a).index = (initRandom b).index ↔ a = b := by
  simp only [initRandom]
  rw [permuteQPR_injective.eq_iff, BitVec.add_left_inj, permuteQPR_injective.eq_iff]

/-- A value of each branch: a low number, a high number and a number above the prime. -/
example : permuteQPR 3 = 9 ∧ permuteQPR 4294967288 = 4294967282 ∧ permuteQPR 4294967293 = 4294967293 := by decide

end Verif.Props
