import Verif.Basic

/-! When a machine that insists on aligned words runs a program. -/
set_option autoImplicit false

namespace Verif.Spec

/-- All accesses are at multiples of the word size. -/
def Aligned (W : Nat) (l : List Nat) : Prop := ∀ a ∈ l, W ∣ a

end Verif.Spec
