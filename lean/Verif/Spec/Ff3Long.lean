import Verif.Spec.Fpe
import Mathlib.Data.Finset.Card

/-! Numeral strings longer than FF3 allows: `radix ^ ⌈n/2⌉ > 2^96`. -/
set_option autoImplicit false

namespace Verif.Spec

/-- The `m` digits of `x`, least significant first: the order in which FF3 reads a half. -/
def digitsLE (radix m x : Nat) : List Nat := (List.range m).map fun i => x / radix ^ i % radix

/-- The numeral string whose halves have the numbers `p.1` and `p.2`. -/
def halvesText (radix u v : Nat) (p : Nat × Nat) : List Byte :=
  (digitsLE radix u p.1 ++ digitsLE radix v p.2).map numeralChar

/-- The number of bytes of `x`, at least one. -/
def byteLen (x : Nat) : Nat := Nat.log 256 x + 1

/-- `x` cut to its most significant twelve bytes. -/
def leading12 (x : Nat) : Nat := x / 256 ^ (byteLen x - 12)

/-- The numbers below `N` whose leading twelve bytes change when `δ` is added modulo `N`. -/
def crossings (N δ : Nat) : Finset Nat := (Finset.range N).filter fun b => leading12 ((b + δ) % N) ≠ leading12 b

end Verif.Spec
