import Verif.Model.Mem
import Verif.Spec.AesInv

/-!
# Model of the AES wrapper (`src/aes/aes.c`)

The three functions of the external library (OpenSSL `AES_set_encrypt_key`, `AES_encrypt`, `AES_decrypt`) are not
part of the repository.  They are modelled by what the library documents: a schedule of eleven round keys, which
`AES_encrypt` uses in order with the cipher and `AES_decrypt` uses in order with the equivalent inverse cipher
(FIPS 197, 5.3.5), the form that needs the schedule made by `AES_set_decrypt_key`.
-/
set_option autoImplicit false

namespace Verif.Model
open Spec

/-- `AES_KEY`, 128-bit keys: round keys 0 to 10. -/
abbrev AesSched := Nat → Block

/-- `AES_set_encrypt_key(key, 128, ..)` of the library. -/
def aesSetEncryptKey (key : Block) : AesSched := fun i => roundKey key i

/-- `AES_set_decrypt_key(key, 128, ..)` of the library: order reversed, `InvMixColumns` on the inner round keys.  The
repository never calls it. -/
def aesSetDecryptKey (key : Block) : AesSched := fun i =>
  if i = 0 then roundKey key 10 else if i = 10 then roundKey key 0 else invMixColumns (roundKey key (10 - i))

def libRounds (rk : AesSched) (x : Block) : Nat → Block
  | 0 => x ^^^ rk 0
  | n + 1 => mixColumns (aesShiftRows (subBytes (libRounds rk x n))) ^^^ rk (n + 1)

/-- `AES_encrypt` of the library. -/
def libEncrypt (rk : AesSched) (x : Block) : Block := aesShiftRows (subBytes (libRounds rk x 9)) ^^^ rk 10

def libInvRounds (rk : AesSched) (x : Block) : Nat → Block
  | 0 => x ^^^ rk 0
  | n + 1 => invMixColumns (invShiftRows (invSubBytes (libInvRounds rk x n))) ^^^ rk (n + 1)

/-- `AES_decrypt` of the library. -/
def libDecrypt (rk : AesSched) (x : Block) : Block := invShiftRows (invSubBytes (libInvRounds rk x 9)) ^^^ rk 10

/-- `WBCRYPTO_aes_init_key` (aes.c lines 19-25): `input_key` and `keylen` (lines 20-22) are computed and not used;
the library reads 16 bytes at `key`.  `memcpy` reads `min keylen 16` bytes first. -/
def aesInitKey (key : List Byte) (keylen : Nat) : Option AesSched :=
  if key.length < min keylen 16 then none
  else (rdBlk key 0).bind fun k => some (aesSetEncryptKey k)

/-- `WBCRYPTO_aes_encrypt` (aes.c lines 27-30). -/
def aesEncrypt (ctx : AesSched) (x : Block) : Block := libEncrypt ctx x

/-- `WBCRYPTO_aes_decrypt` (aes.c lines 32-35): the schedule in the context is the one made by
`AES_set_encrypt_key`. -/
def aesDecrypt (ctx : AesSched) (x : Block) : Block := libDecrypt ctx x

end Verif.Model
