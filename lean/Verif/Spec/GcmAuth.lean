import Verif.Spec.Gcm

/-! What the tag of GCM depends on: used to state how many hash keys accept a forged message. -/
set_option autoImplicit false

namespace Verif.Spec

/-- The blocks that GHASH runs over. -/
def gcmBlocks (a c : List Byte) : List (BitVec 128) := (chunks a).map padBV ++ (chunks c).map padBV ++ [lenBlock a c]

/-- Their number: blocks of AAD, blocks of ciphertext, one for the lengths. -/
def gcmBlockCount (a c : List Byte) : Nat := (a.length + 15) / 16 + (c.length + 15) / 16 + 1

end Verif.Spec
