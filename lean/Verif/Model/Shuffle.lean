import Verif.Basic

/-! Model of `wRandomShuffleU8` in `/repo/src/utils/wrandom.c`. -/
set_option autoImplicit false

namespace Verif.Model

/-- Exchange of `list[i]` and `list[j]`; `none` when an index is outside the list. -/
def exchange (l : List Byte) (i j : Nat) : Option (List Byte) := do
  let a ← l[i]?
  let b ← l[j]?
  some ((l.set i b).set j a)

/-- `randNumbers` after lines 60-62: the first `len` entries come from `wRandomList`, the ten extra ones are 0. -/
def randNumber (rnd : Nat → BitVec 32) (len k : Nat) : BitVec 32 := if k < len then rnd k else 0

/-- The `while (len > 0)` loop (lines 63-69). -/
def shuffleLoop (rn : Nat → BitVec 32) : Nat → List Byte → Option (List Byte)
  | 0, l => some l
  | len + 1, l => (exchange l len ((rn (len + 1)).toNat % (len + 1))).bind (shuffleLoop rn len)

/-- `wRandomShuffleU8(list, len)` (wrandom.c lines 57-72) with `len` the length of the list. -/
def randomShuffleU8 (rnd : Nat → BitVec 32) (l : List Byte) : Option (List Byte) :=
  shuffleLoop (randNumber rnd l.length) l.length l

end Verif.Model
