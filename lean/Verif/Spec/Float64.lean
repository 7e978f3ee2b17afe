import Mathlib.Analysis.SpecialFunctions.Log.Base

/-! Finite IEEE 754 binary64 numbers and what the C library promises about `log2` and the product. -/
set_option autoImplicit false

namespace Verif.Spec

/-- A finite binary64 number: 53 bits of significand, exponents as for normal and subnormal numbers. -/
def IsDouble (x : ℝ) : Prop := ∃ m e : ℤ, |m| < 2 ^ 53 ∧ -1074 ≤ e ∧ e ≤ 971 ∧ x = m * 2 ^ e

/-- `y` is the double next to `x` on one side: what an operation gives in any of the rounding modes, and a library function
with an error of less than one unit in the last place that is exact where the result is a double. -/
def Rounded (x y : ℝ) : Prop :=
  IsDouble y ∧ ((x ≤ y ∧ ∀ z, IsDouble z → x ≤ z → y ≤ z) ∨ (y ≤ x ∧ ∀ z, IsDouble z → z ≤ x → z ≤ y))

/-- `lg` is `(unsigned int) ceil(k * log2(r))` computed with doubles, for the radices in use and up to `2^20` digits: `log2` and the
product are rounded, `ceil` and the conversion are exact. -/
def FloatLg (lg : Nat → Nat → Nat) : Prop :=
  ∀ r k : Nat, 2 ≤ r → r ≤ 36 → k ≤ 2 ^ 20 → ∃ l p : ℝ, Rounded (Real.logb 2 r) l ∧ Rounded (k * l) p ∧ lg r k = ⌈p⌉₊

end Verif.Spec
