import Verif.Spec.Aes
import Verif.Model.Wbaes

/-!
Reading the key off the tables of a white-box AES context. Only `TypeIa` and the first round of `TypeII` are looked at. Each
nibble of such an entry is an unknown permutation of an unknown linear function of the S-box output, that is, of an affine
function of `1 / (x + k)`. A candidate for `k` is kept if every nibble, seen as a function of `1 / (x + k)`, has a period.
-/
set_option autoImplicit false

namespace Verif.Spec
open Verif.Model

def eachByte : List Byte := (List.finRange 256).map BitVec.ofFin

/-- The `TypeII` entry of the first round for table `j` and the plain input byte `x` at the place that `ShiftRows` moves to `j`. -/
def firstLook (c : WbaesTables) (j : Fin 16) (x : Byte) : BitVec 32 := c.typeII 0 j (c.typeIa shiftTab[j] x)

/-- Nibble `m`, as a function of `t = 1 / (x + k)`, has a period. -/
def hasPeriod (c : WbaesTables) (j : Fin 16) (k : Byte) (m : Fin 8) : Bool :=
  eachByte.any fun w => w != 0 && eachByte.all fun t =>
    nib (firstLook c j (aesInv t ^^^ k)) m == nib (firstLook c j (aesInv (t ^^^ w) ^^^ k)) m

/-- The first byte for which all nibbles have a period. -/
def findKeyByte (c : WbaesTables) (j : Fin 16) : Byte :=
  (eachByte.find? fun k => (List.finRange 8).all fun m => hasPeriod c j k m).getD 0

/-- The table that byte `s` of the state goes to. -/
def unshiftTab : Vector (Fin 16) 16 := #v[0, 13, 10, 7, 4, 1, 14, 11, 8, 5, 2, 15, 12, 9, 6, 3]

def wbaesExtract (c : WbaesTables) : Block := Vector.ofFn fun s => findKeyByte c unshiftTab[s]

end Verif.Spec
