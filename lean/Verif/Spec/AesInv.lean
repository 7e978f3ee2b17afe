import Verif.Spec.Aes

/-! The inverse cipher of AES-128 (FIPS 197, 5.3), written from the standard. -/
set_option autoImplicit false

namespace Verif.Spec

/-- Inverse S-box: the byte whose S-box value is `y` (5.3.2), by inverting the affine map first. -/
def aesInvSbox (y : Byte) : Byte := aesInv (y.rotateLeft 1 ^^^ y.rotateLeft 3 ^^^ y.rotateLeft 6 ^^^ 0x05)

def invSubBytes (s : Block) : Block := Vector.ofFn fun i => aesInvSbox s[i]

/-- `s'[r, (c + r) mod 4] = s[r, c]` (5.3.1). -/
def invShiftRows (s : Block) : Block := Vector.ofFn fun i => s[4 * ((i.1 / 4 + 4 - i.1 % 4) % 4) + i.1 % 4]'(by omega)

/-- `s'[r, c] = 0e s[r, c] + 0b s[r+1, c] + 0d s[r+2, c] + 09 s[r+3, c]` (5.3.3). -/
def invMixColumns (s : Block) : Block := Vector.ofFn fun i =>
  aesMul 0x0e (s[4 * (i.1 / 4) + i.1 % 4]'(by omega)) ^^^ aesMul 0x0b (s[4 * (i.1 / 4) + (i.1 % 4 + 1) % 4]'(by omega)) ^^^
    aesMul 0x0d (s[4 * (i.1 / 4) + (i.1 % 4 + 2) % 4]'(by omega)) ^^^
    aesMul 0x09 (s[4 * (i.1 / 4) + (i.1 % 4 + 3) % 4]'(by omega))

end Verif.Spec
