import Verif.Spec.Fpe

/-! Encryption of a single numeral. -/
set_option autoImplicit false

namespace Verif.Spec

/-- The numeral `k` places after `c`, counted cyclically. -/
def shiftNumeral (radix k : Nat) (c : Byte) : Byte := numeralChar ((numeralVal c + k) % radix)

end Verif.Spec
