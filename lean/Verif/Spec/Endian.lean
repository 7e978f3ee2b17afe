import Verif.Spec.Sm4
import Verif.Spec.Aes

/-! SM4 and AES with other functions in the rounds, to say what the white-box ciphers compute on a big-endian machine. -/
set_option autoImplicit false

namespace Verif.Spec

/-- The word with its four bytes in the opposite order. -/
def mirror (x : Word) : Word :=
  (x.extractLsb' 0 8 ++ x.extractLsb' 8 8) ++ (x.extractLsb' 16 8 ++ x.extractLsb' 24 8)

/-- A round of SM4 with the function `F` in the place of `z ↦ T (z ⊕ rk)`. -/
def sm4RoundWith (x : Quad) (F : Word → Word) : Quad := ⟨x.b, x.c, x.d, x.a ^^^ F (x.b ^^^ x.c ^^^ x.d)⟩

/-- SM4 with the round functions `Fs` on a block. -/
def sm4With (Fs : List (Word → Word)) (x : Block) : Block := (Fs.foldl sm4RoundWith (quadOf x)).rev.toBlock

/-- The columns of a state turned upside down. -/
def flipColumns (s : Block) : Block := Vector.ofFn fun i => s[4 * (i.1 / 4) + (3 - i.1 % 4)]

/-- AES rounds in which MixColumns is followed by `flipColumns`. -/
def aesRoundsFlip (key x : Block) : Nat → Block
  | 0 => x ^^^ roundKey key 0
  | n + 1 => flipColumns (mixColumns (aesShiftRows (subBytes (aesRoundsFlip key x n)))) ^^^ roundKey key (n + 1)

/-- AES-128 with flipped columns in rounds 1 to 9. -/
def aes128Flip (key x : Block) : Block := aesShiftRows (subBytes (aesRoundsFlip key x 9)) ^^^ roundKey key 10

end Verif.Spec
