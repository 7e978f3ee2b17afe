import Verif.Spec.Fpe

/-! What the FPE functions take a character for when it need not be a numeral. -/
set_option autoImplicit false

namespace Verif.Spec

/-- The value taken for a character: `a` and everything above counts from 10, everything else is the distance to `0`, a 32-bit
number. -/
def charDigit (c : Byte) : Nat :=
  if 97 ≤ c.toNat then c.toNat - 87 else if 48 ≤ c.toNat then c.toNat - 48 else 2 ^ 32 - (48 - c.toNat)

/-- The numeral a character in the place of a numeral is taken for: the characters from `:` to `S` are `a` to `z`. -/
def takenFor (c : Byte) : Byte := if 58 ≤ c.toNat ∧ c.toNat ≤ 83 then c + 39 else c

end Verif.Spec
