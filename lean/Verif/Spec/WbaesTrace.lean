import Verif.Spec.WbaesExtract
import Verif.Spec.WbTrace
import Verif.Model.WbaesTrace

/-!
Finding the key of white-box AES from the entries of `TypeII[1]` that encryptions of chosen texts look up. The procedure sees no
table: not one value in them. The texts are zero but for one byte.
-/
set_option autoImplicit false

namespace Verif.Spec
open Verif.Model

/-- The text with byte `x` at `s` and zeros elsewhere. -/
def oneByteText (s : Fin 16) (x : Byte) : Block := Vector.ofFn fun i => if i = s then x else 0

/-- What is seen of the entry of `TypeII[1][j]` among the lookups of an encryption. -/
def waSee (g : Byte → Byte) (look : Block → List WaLook) (j : Fin 16) (x : Block) : List Byte :=
  (look x).filterMap fun l => match l with
    | .ii 1 j' a => if j' = j then some (g a) else none
    | _ => none

/-- Whether what is seen for texts with one byte at `s`, as a function of `t = 1 / (x + k)`, has a period. -/
def seenPeriod (see : Fin 16 → Block → List Byte) (s : Fin 16) (k : Byte) : Bool :=
  eachByte.any fun w => w != 0 && eachByte.all fun t =>
    see unshiftTab[unshiftTab[s]] (oneByteText s (aesInv t ^^^ k)) == see unshiftTab[unshiftTab[s]] (oneByteText s (aesInv (t ^^^ w) ^^^ k))

/-- The key: for each byte the first for which there is a period. -/
def waKey (see : Fin 16 → Block → List Byte) : Block :=
  Vector.ofFn fun s => (eachByte.find? fun k => seenPeriod see s k).getD 0

end Verif.Spec
