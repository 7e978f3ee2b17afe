import Verif.Spec.Fpe

/-! The two halves of FF3: rounds 0-3 and rounds 4-7. -/
set_option autoImplicit false

namespace Verif.Spec

/-- The first four rounds of FF3 (Algorithm 9) with tweak `T`. -/
def ff3Four (E : Block → Block) (radix : Nat) (T : List Byte) (X : List Nat) : List Nat :=
  let n := X.length
  let AB := (List.range 4).foldl (ff3EncRound E radix n T) (X.take ((n + 1) / 2), X.drop ((n + 1) / 2))
  AB.1 ++ AB.2

/-- The tweak with bit 2 of the bytes 3 and 7 flipped. -/
def slid (T : List Byte) : List Byte :=
  (List.range T.length).map fun i => if i = 3 ∨ i = 7 then T.getD i 0 ^^^ 4 else T.getD i 0

end Verif.Spec
