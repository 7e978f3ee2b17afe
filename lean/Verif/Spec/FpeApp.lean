import Verif.Spec.Fpe

/-! What the masked FPE applications promise: positions shown by the mask stay, all others are replaced. -/
set_option autoImplicit false

namespace Verif.Spec

/-- The characters at the positions with flag `b`. -/
def pick {α : Type} (b : Bool) : List Bool → List α → List α
  | m :: ms, x :: xs => if m = b then x :: pick b ms xs else pick b ms xs
  | _, _ => []

/-- Replace the hidden positions (flag `false`) by the elements of the third list in order. -/
def fill {α : Type} : List Bool → List α → List α → List α
  | true :: ms, x :: xs, r => x :: fill ms xs r
  | false :: ms, _ :: xs, y :: r => y :: fill ms xs r
  | _, _, _ => []

/-- The flags of a sample for `len` characters: an empty sample hides all, otherwise every character other than
`*` shows its position. -/
def maskOf (sample : List Byte) (len : Nat) : List Bool :=
  if sample = [] then List.replicate len false else (sample.take len).map fun c => c != 0x2a

/-- Position `i` is encrypted: there is no sample, or it has a star there. -/
def Hidden (sample : List Byte) (i : Nat) : Prop := sample = [] ∨ sample[i]? = some 0x2a

/-- The number of encrypted positions of a text of `len` characters. -/
def hiddenCount (sample : List Byte) (len : Nat) : Nat := if sample = [] then len else (sample.take len).count 0x2a

/-- The three-byte UTF-8 form of a code point from `U+0800` to `U+FFFF` (RFC 3629, section 3). -/
def utf8Three (cp : Nat) : List Byte :=
  [BitVec.ofNat 8 (0xE0 + cp / 4096), BitVec.ofNat 8 (0x80 + cp / 64 % 64), BitVec.ofNat 8 (0x80 + cp % 64)]

/-- UTF-8 text of such code points. -/
def utf8Text (cps : List Nat) : List Byte := cps.flatMap utf8Three

/-- The range that the Chinese text application can encrypt. -/
def InCnRange (cp : Nat) : Prop := 0x4E00 ≤ cp ∧ cp ≤ 0x9EFF

end Verif.Spec
