import Verif.Spec.WbExtract
import Verif.Model.WbTrace

/-!
Finding the key of white-box SM4 from the entries that encryptions of chosen texts look up. The procedure sees no table: not
one value in them.
-/
set_option autoImplicit false

namespace Verif.Spec
open Verif.Model

/-- The text for which the state before the round after `rks` has byte `u` in its second word and in its first word what the
round adds to it if byte `j` of its key is `k`. -/
def lookText (rks : List Word) (j : Fin 4) (k u : Byte) : Block :=
  (rks.foldr sm4Unround ⟨sm4L (byteIn j (sm4Sbox (u ^^^ k))), byteIn j u, 0, 0⟩).toBlock

/-- Whether the same is seen for all 256 texts. -/
def lookSame (see : Block → Word) (rks : List Word) (j : Fin 4) (k : Byte) : Bool :=
  ((List.finRange 256).map BitVec.ofFin).all fun u => see (lookText rks j k u) == see (lookText rks j k 0)

/-- The first byte for which it is. -/
def lookByte (see : Block → Word) (rks : List Word) (j : Fin 4) : Byte :=
  (((List.finRange 256).map BitVec.ofFin).find? fun k => lookSame see rks j k).getD 0

/-- The first `n` round keys; `see n` is what is looked at for number `n`. -/
def lookRks (see : Nat → Block → Word) : Nat → List Word
  | 0 => []
  | n + 1 => lookRks see n ++ [(lookByte (see n) (lookRks see n) 0 ++ lookByte (see n) (lookRks see n) 1) ++
      (lookByte (see n) (lookRks see n) 2 ++ lookByte (see n) (lookRks see n) 3)]

/-- The key. -/
def lookKey (mode : EncMode) (see : Nat → Block → Word) : Block :=
  match lookRks see 4, mode with
  | [a, b, c, d], .encrypt => (unschedule 4 ⟨a, b, c, d⟩).toBlock
  | [a, b, c, d], .decrypt => (unschedule 32 ⟨d, c, b, a⟩).toBlock
  | _, _ => zeroBlock

/-- What is seen of four entry numbers, as a word: of each only what its function lets through. -/
def see4 (g : Fin 4 → Byte → Byte) : List Byte → Word
  | [a, b, c, d] => (g 0 a ++ g 1 b) ++ (g 2 c ++ g 3 d)
  | _ => 0

/-- All bytes. -/
def byteList : List Byte := (List.range 256).map (BitVec.ofNat 8)

/-- A function that lets some bits through, one at least, or that does not send half of all bytes to the same value. -/
def Telling (g : Byte → Byte) : Prop :=
  (∃ m, m ≠ 0 ∧ ∀ x, g x = x &&& m) ∨ ∀ b, byteList.countP (fun x => g x = b) ≤ 126

/-- The number of the cache line (counted from the one the table begins in) of an entry of a table with entries of `size` bytes that
begins `o` bytes after the beginning of a cache line of 64 bytes. -/
def cacheLine (size o : Nat) (x : Byte) : Byte := BitVec.ofNat 8 ((o + size * x.toNat) / 64)

/-- White-box SM4: what is seen of the entries of `Table[n + 1]` among the lookups of an encryption. -/
def wbSee (g : Nat → Fin 4 → Byte → Byte) (look : Block → List WbLook) (n : Nat) (x : Block) : Word :=
  see4 (g (n + 1)) (((look x).filter fun l => l.tab = .table (n + 1)).map WbLook.idx)

/-- White-box SM4: the entries of `DD[i]` among the lookups of an encryption. -/
def wbSeeDD (look : Block → List WbLook) (i : Nat) (x : Block) : List Byte :=
  ((look x).filter fun l => l.tab = .dd i).map WbLook.idx

/-- The scheme from self-equivalences: what is seen of the entries of the S-box in round `n + 1`. -/
def seSee (g : Byte → Byte) (look : Block → List Byte) (n : Nat) (x : Block) : Word :=
  see4 (fun _ => g) (((look x).drop (4 * (n + 1))).take 4)

end Verif.Spec
