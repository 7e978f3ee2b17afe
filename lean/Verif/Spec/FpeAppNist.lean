import Verif.Spec.FpeApp
import Verif.Spec.Aes
import Verif.Spec.Sm4

/-! What the masked FPE applications compute, in the words of NIST SP 800-38G: the hidden characters are the numeral
string, the shown characters the tweak. -/
set_option autoImplicit false

namespace Verif.Spec

/-- The block cipher behind a cipher name of the FPE applications (`wbsm4` is treated apart). -/
def namedCipher (cipher : String) (k : Block) : Block → Block := if cipher = "sm4" then sm4Encrypt k else aes128 k

/-- Encryption of a numeral string by the named mode: `ff1` is FF1 with the whole tweak, everything else FF3 with its
first eight bytes. The standard applies the cipher of FF3 under the byte-reversed key, the applications under the key
itself; so `E` here is what the standard calls FF3 for the reversed key. -/
def namedFpe (ffx : String) (E : Block → Block) (radix : Nat) (T : List Byte) (X : List Nat) : List Nat :=
  if ffx = "ff1" then ff1Enc E radix T X else ff3Enc E radix (T.take 8) X

/-- Decryption by the named mode. -/
def namedFpeInv (ffx : String) (E : Block → Block) (radix : Nat) (T : List Byte) (X : List Nat) : List Nat :=
  if ffx = "ff1" then ff1Dec E radix T X else ff3Dec E radix (T.take 8) X

/-- The lengths for which the named mode is defined in the standard: `shown` tweak characters (the terminator is added
to them) and `hidden` numerals. -/
def FpeLens (ffx : String) (radix shown hidden : Nat) : Prop :=
  if ffx = "ff1" then 2 ≤ hidden ∧ hidden < 2 ^ 30
  else 7 ≤ shown ∧ 1 ≤ hidden ∧ radix ^ ((hidden + 1) / 2) ≤ 2 ^ 96

/-- The digits of a Chinese character: four digits to base twelve of its distance from `U+4E00`, least significant
first. -/
def cnDigits (cps : List Nat) : List Nat :=
  cps.flatMap fun cp =>
    [(cp - 0x4E00) % 12, (cp - 0x4E00) / 12 % 12, (cp - 0x4E00) / 144 % 12, (cp - 0x4E00) / 1728 % 12]

end Verif.Spec
