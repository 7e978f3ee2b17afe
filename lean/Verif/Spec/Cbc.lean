import Verif.Basic

/-! Textbook CBC (NIST SP 800-38A, section 6.2). -/
set_option autoImplicit false

namespace Verif.Spec

/-- `C_i = E(P_i xor C_{i-1})`, `C_0 = IV`. -/
def cbcEncrypt (E : Block → Block) : Block → List Block → List Block
  | _, [] => []
  | iv, p :: ps => E (p ^^^ iv) :: cbcEncrypt E (E (p ^^^ iv)) ps

/-- `P_i = D(C_i) xor C_{i-1}`, `C_0 = IV`. -/
def cbcDecrypt (D : Block → Block) : Block → List Block → List Block
  | _, [] => []
  | iv, c :: cs => (D c ^^^ iv) :: cbcDecrypt D c cs

end Verif.Spec
