import Verif.Spec.Sm4
import Verif.Model.Wbsm4

/-!
Reading the key off the tables of a white-box SM4 context. The procedure sees a context only: no random numbers, no key.
It sends chosen words through the first rounds of the tables and looks for key bytes that make a round cancel out: at most
`4 * 4 * 256 * 256` runs of at most four rounds.
-/
set_option autoImplicit false

namespace Verif.Spec
open Verif.Model

/-- A round that does something: its S-box tables are not all zero. -/
def isReal (T : WbRound) : Bool := (List.finRange 4).any fun j => (List.finRange 256).any fun x => T.table j (BitVec.ofFin x) != 0

/-- The state after the first `n` real rounds, from the plain words `X`. -/
def wbPrefix (c : Wbsm4Ctx) (n : Nat) (X : Quad) : B4 :=
  ((c.rnds.filter isReal).take n).foldl wbRoundStep ⟨(c.se 0).look X.a, (c.se 1).look X.b, (c.se 2).look X.c, (c.se 3).look X.d⟩

/-- A round of SM4 undone. -/
def sm4Unround (rk : Word) (X : Quad) : Quad := ⟨X.d ^^^ sm4T (X.a ^^^ X.b ^^^ X.c ^^^ rk), X.a, X.b, X.c⟩

/-- The word with byte `x` at place `j`, counted from the most significant. -/
def byteIn (j : Fin 4) (x : Byte) : Word := x.zeroExtend 32 <<< (24 - 8 * j.1)

/-- Given the first round keys `rks`: the new word of the next round for the input byte `u`, if byte `j` of its key is `k`. -/
def probe (c : Wbsm4Ctx) (rks : List Word) (j : Fin 4) (k u : Byte) : Word :=
  (wbPrefix c (rks.length + 1) (rks.foldr sm4Unround ⟨sm4L (byteIn j (sm4Sbox (u ^^^ k))), byteIn j u, 0, 0⟩)).b3

/-- The first byte for which all probes agree. -/
def findByte (c : Wbsm4Ctx) (rks : List Word) (j : Fin 4) : Byte :=
  (((List.finRange 256).map BitVec.ofFin).find? fun k =>
    ((List.finRange 256).map BitVec.ofFin).all fun u => probe c rks j k u == probe c rks j k 0).getD 0

/-- The next round key. -/
def nextRk (c : Wbsm4Ctx) (rks : List Word) : Word :=
  (findByte c rks 0 ++ findByte c rks 1) ++ (findByte c rks 2 ++ findByte c rks 3)

/-- The first `n` round keys. -/
def findRks (c : Wbsm4Ctx) : Nat → List Word
  | 0 => []
  | n + 1 => findRks c n ++ [nextRk c (findRks c n)]

/-- One step of the key schedule undone. -/
def keyUnstep (i : Nat) (k : Quad) : Quad := ⟨k.d ^^^ sm4T' (k.a ^^^ k.b ^^^ k.c ^^^ sm4CK i), k.a, k.b, k.c⟩

/-- The key schedule undone from window `n`. -/
def unschedule : Nat → Quad → Quad
  | 0, k => ⟨k.a ^^^ 0xA3B1BAC6, k.b ^^^ 0x56AA3350, k.c ^^^ 0x677D9197, k.d ^^^ 0xB27022DC⟩
  | n + 1, k => unschedule n (keyUnstep n k)

/-- The key: from the first four round keys of a context for encryption, or the last four, which come first in one for
decryption. -/
def wbsm4Extract (c : Wbsm4Ctx) : Block :=
  match findRks c 4, c.encmode with
  | [a, b, c, d], .encrypt => (unschedule 4 ⟨a, b, c, d⟩).toBlock
  | [a, b, c, d], .decrypt => (unschedule 32 ⟨d, c, b, a⟩).toBlock
  | _, _ => zeroBlock

end Verif.Spec
