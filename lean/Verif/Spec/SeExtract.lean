import Verif.Spec.WbExtract
import Verif.Model.SeWbsm4

/-!
Reading the key off a context of white-box SM4 from self-equivalences, as in `Verif.Spec.WbExtract`: the procedure sees the
context only and uses its first rounds on chosen words.
-/
set_option autoImplicit false

namespace Verif.Spec
open Verif.Model

/-- The state after the first `n` rounds, from the plain words `X`. -/
def sePrefix (c : SeCtx) (n : Nat) (X : Quad) : B4 :=
  ((List.finRange 32).take n).foldl (seStep c)
    ⟨affineU (c.SE 0) X.a, affineU (c.SE 1) X.b, affineU (c.SE 2) X.c, affineU (c.SE 3) X.d⟩

/-- Given the first round keys `rks`: the new word of the next round for the input byte `u`, if byte `j` of its key is `k`. -/
def seProbe (c : SeCtx) (rks : List Word) (j : Fin 4) (k u : Byte) : Word :=
  (sePrefix c (rks.length + 1) (rks.foldr sm4Unround ⟨sm4L (byteIn j (sm4Sbox (u ^^^ k))), byteIn j u, 0, 0⟩)).b3

/-- The first byte for which all probes agree. -/
def seFindByte (c : SeCtx) (rks : List Word) (j : Fin 4) : Byte :=
  (((List.finRange 256).map BitVec.ofFin).find? fun k =>
    ((List.finRange 256).map BitVec.ofFin).all fun u => seProbe c rks j k u == seProbe c rks j k 0).getD 0

/-- The next round key. -/
def seNextRk (c : SeCtx) (rks : List Word) : Word :=
  (seFindByte c rks 0 ++ seFindByte c rks 1) ++ (seFindByte c rks 2 ++ seFindByte c rks 3)

/-- The first `n` round keys. -/
def seFindRks (c : SeCtx) : Nat → List Word
  | 0 => []
  | n + 1 => seFindRks c n ++ [seNextRk c (seFindRks c n)]

/-- The key; `mode` is the field `encmode` of the context. -/
def seExtract (mode : EncMode) (c : SeCtx) : Block :=
  match seFindRks c 4, mode with
  | [a, b, c, d], .encrypt => (unschedule 4 ⟨a, b, c, d⟩).toBlock
  | [a, b, c, d], .decrypt => (unschedule 32 ⟨d, c, b, a⟩).toBlock
  | _, _ => zeroBlock

end Verif.Spec
