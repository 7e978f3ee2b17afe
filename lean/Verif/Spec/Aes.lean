import Verif.Basic

/-!
AES-128 (FIPS 197), written from the standard: arithmetic in GF(2^8), S-box as inverse followed by the affine map,
the four transformations on a 16-byte state in column order (byte `4c + r` is row `r` of column `c`), key expansion.
-/
set_option autoImplicit false

namespace Verif.Spec

/-- Multiplication by `x` modulo `x^8 + x^4 + x^3 + x + 1`. -/
def xtime (a : Byte) : Byte := (a <<< 1) ^^^ (if a.msb then 0x1b else 0)

/-- `x^i * a`. -/
def xtimes : Nat → Byte → Byte
  | 0, a => a
  | i + 1, a => xtime (xtimes i a)

/-- Product in GF(2^8): the sum of `x^i * a` over the bits `i` set in `b`. -/
def aesMul (a b : Byte) : Byte := (List.range 8).foldl (fun t i => if b.getLsbD i then t ^^^ xtimes i a else t) 0

/-- Inverse in GF(2^8), with 0 mapped to 0: `a^254 = a^2 a^4 ... a^128`. -/
def aesInv (a : Byte) : Byte :=
  let a2 := aesMul a a
  let a4 := aesMul a2 a2
  let a8 := aesMul a4 a4
  let a16 := aesMul a8 a8
  let a32 := aesMul a16 a16
  let a64 := aesMul a32 a32
  let a128 := aesMul a64 a64
  aesMul a2 (aesMul a4 (aesMul a8 (aesMul a16 (aesMul a32 (aesMul a64 a128)))))

/-- S-box (5.1.1): inverse, then `b_i + b_(i+4) + b_(i+5) + b_(i+6) + b_(i+7) + c_i` with `c = 63`. -/
def aesSbox (a : Byte) : Byte :=
  let b := aesInv a
  b ^^^ b.rotateLeft 1 ^^^ b.rotateLeft 2 ^^^ b.rotateLeft 3 ^^^ b.rotateLeft 4 ^^^ 0x63

def subBytes (s : Block) : Block := Vector.ofFn fun i => aesSbox s[i]

/-- `s'[r, c] = s[r, (c + r) mod 4]` (5.1.2). -/
def aesShiftRows (s : Block) : Block := Vector.ofFn fun i => s[4 * ((i.1 / 4 + i.1 % 4) % 4) + i.1 % 4]'(by omega)

/-- `s'[r, c] = 02 s[r, c] + 03 s[r+1, c] + s[r+2, c] + s[r+3, c]` (5.1.3). -/
def mixColumns (s : Block) : Block := Vector.ofFn fun i =>
  aesMul 2 (s[4 * (i.1 / 4) + i.1 % 4]'(by omega)) ^^^ aesMul 3 (s[4 * (i.1 / 4) + (i.1 % 4 + 1) % 4]'(by omega)) ^^^
    s[4 * (i.1 / 4) + (i.1 % 4 + 2) % 4]'(by omega) ^^^ s[4 * (i.1 / 4) + (i.1 % 4 + 3) % 4]'(by omega)

abbrev AesWord := Vector Byte 4

def AesWord.xor (a b : AesWord) : AesWord := Vector.ofFn fun i => a[i] ^^^ b[i]

/-- RotWord, then SubWord. -/
def subRot (w : AesWord) : AesWord := #v[aesSbox w[1], aesSbox w[2], aesSbox w[3], aesSbox w[0]]

/-- `Rcon[i] = [x^(i-1), 0, 0, 0]`. -/
def aesRcon (i : Nat) : AesWord := #v[xtimes (i - 1) 1, 0, 0, 0]

/-- Key expansion (5.2) for `Nk = 4`: word `i`. -/
def aesWord (key : Block) (i : Nat) : AesWord :=
  if h : i < 4 then #v[key[4 * i], key[4 * i + 1], key[4 * i + 2], key[4 * i + 3]]
  else
    let temp := aesWord key (i - 1)
    let temp := if i % 4 = 0 then (subRot temp).xor (aesRcon (i / 4)) else temp
    (aesWord key (i - 4)).xor temp

/-- Round key `i`: words `4i .. 4i+3`. -/
def roundKey (key : Block) (i : Nat) : Block := Vector.ofFn fun m => (aesWord key (4 * i + m.1 / 4))[m.1 % 4]'(by omega)

/-- The state before the last round after `n` full rounds. -/
def aesRounds (key : Block) (x : Block) : Nat → Block
  | 0 => x ^^^ roundKey key 0
  | n + 1 => mixColumns (aesShiftRows (subBytes (aesRounds key x n))) ^^^ roundKey key (n + 1)

/-- The cipher (5.1) with 10 rounds. -/
def aes128 (key : Block) (x : Block) : Block :=
  aesShiftRows (subBytes (aesRounds key x 9)) ^^^ roundKey key 10

end Verif.Spec
