import Verif.Spec.Gcm

/-! How many blocks GHASH takes for an IV: used to state how many hash keys make two IVs collide. -/
set_option autoImplicit false

namespace Verif.Spec

/-- Number of blocks that are hashed for an IV: none for 12 bytes, otherwise its blocks and the length. -/
def ivBlockCount (iv : List Byte) : Nat := if iv.length = 12 then 0 else (iv.length + 15) / 16 + 1

end Verif.Spec
