import Verif.Basic

/-! Specification of the padding rule used by the library (PKCS#7 without the extra block). -/
set_option autoImplicit false

namespace Verif.Spec

/-- Number of pad bytes needed to reach a multiple of 16 (0 when already a multiple). -/
def padCount (n : Nat) : Nat := (16 - n % 16) % 16

/-- The padded message: the message followed by `padCount` bytes each equal to that count. -/
def pkcs7 (m : List Byte) : List Byte :=
  m ++ List.replicate (padCount m.length) (BitVec.ofNat 8 (padCount m.length))

end Verif.Spec
