import Verif.Spec.WbExtract
import Verif.Model.Heap

/-!
What a caller of `malloc`-style functions expects: every context that was handed out can be released once, releasing gives back
everything, a refused call keeps nothing.
-/
set_option autoImplicit false

namespace Verif.Spec
open Verif.Model

/-- A call: make a context (with or without MAC), or release the context made by call number `i` among the making calls. -/
inductive OwnOp where
  | init (mac : Bool) (tweak : List Byte) (radix : Nat)
  | free (i : Nat)

/-- What became of a making call: refused, in use, released. -/
inductive OwnSt where
  | null
  | inUse (objects : Nat)
  | released
  deriving DecidableEq

/-- Objects a context needs: structure and tweak, and the outer structure with MAC. -/
def ctxObjects (mac : Bool) : Nat := if mac then 3 else 2

/-- One call; `none` if a context is released twice or was never made. The number counts refused calls. -/
def ownStep (s : List OwnSt × Nat) : OwnOp → Option (List OwnSt × Nat)
  | .init mac _ radix =>
    if 2 ≤ radix ∧ radix ≤ 36 then some (s.1 ++ [.inUse (ctxObjects mac)], s.2) else some (s.1 ++ [.null], s.2 + 1)
  | .free i =>
    match s.1[i]? with
    | some .null => some s
    | some (.inUse _) => some (s.1.set i .released, s.2)
    | _ => none

def ownRun (s : List OwnSt × Nat) : List OwnOp → Option (List OwnSt × Nat)
  | [] => some s
  | o :: os => (ownStep s o).bind fun s => ownRun s os

/-- Objects held by contexts in use. -/
def inUseObjects (l : List OwnSt) : Nat := (l.map fun | .inUse n => n | _ => 0).sum

/-! ### reading memory -/

/-- The key from the round keys of a plain SM4 context. -/
def sm4ReadKey (mode : EncMode) (c : Sm4Ctx) : Block :=
  match mode with
  | .encrypt => (unschedule 4 ⟨c[0], c[1], c[2], c[3]⟩).toBlock
  | .decrypt => (unschedule 32 ⟨c[3], c[2], c[1], c[0]⟩).toBlock

/-- The hash key from the tables of a GCM context. -/
def gcmReadHashKey (c : GcmCtx) : BitVec 128 := c.HH[8] ++ c.HL[8]

end Verif.Spec
