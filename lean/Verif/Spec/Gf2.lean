import Verif.Basic

/-!
Linear algebra over GF(2), stated on bits.  Bit 0 is the most significant bit of a word (the convention of the matrix
library: row 0 of the identity is 0x80...).
-/
set_option autoImplicit false

namespace Verif.Spec

/-- Sum over GF(2) of `f 0, ..., f (n-1)`. -/
def gsum : Nat → (Nat → Bool) → Bool
  | 0, _ => false
  | n + 1, f => gsum n f ^^ f n

/-- Bits of a word, most significant first. -/
def bits {n : Nat} (x : BitVec n) : Nat → Bool := fun i => x.getMsbD i

/-- Two maps on words undo each other. -/
def Inverse {n : Nat} (f g : BitVec n → BitVec n) : Prop := (∀ x, g (f x) = x) ∧ ∀ x, f (g x) = x

end Verif.Spec
