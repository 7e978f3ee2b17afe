import Verif.Model.FpeApp
import Verif.Model.AesWrap
import Verif.Model.Wbsm4
import Verif.Model.Wbaes

/-! Model of `/repo/src/fpe_app/init.c`. -/
set_option autoImplicit false

namespace Verif.Model

/-- Everything `WBCRYPTO_fpe_app_init` takes from uninitialised memory or the random generators: the array `input_key`,
and what the white-box table generators use. -/
structure AppInitMem where
  inputKey : Nat → Byte
  sm4 : Wbsm4Rnd
  sm4Junk : Nat → WbRound
  aes : WbaesRnd
  aesOut : Fin 16 → Fin 2 → Nat → BitVec 32

/-- `keylen = keylen >= 16 ? 16 : keylen; uint8_t input_key[16]; memcpy(input_key, key, keylen)` (init.c lines 8-10). -/
def appInputKey (mem : AppInitMem) (key : List Byte) (keylen : Nat) : Option Block :=
  let n := if 16 ≤ keylen then 16 else keylen
  if n ≤ key.length then some (Vector.ofFn fun i => if i.1 < n then key.getD i.1 0 else mem.inputKey i.1) else none

/-- `WBCRYPTO_fpe_app_init` (init.c lines 4-36), with the block function that the calls in `phone.c`, `idcard.c` and
`cn_utf8.c` then take for the cipher named.  The white-box SM4 context is made for encryption with one group of
dummy rounds (line 16). -/
def fpeAppInit (mem : AppInitMem) (key : List Byte) (keylen : Nat) (cipher ffx : String) : Option FpeApp :=
  (appInputKey mem key keylen).bind fun k =>
    let mk := fun E => some (FpeApp.mk E (ffxOf ffx))
    if cipher = "sm4" then mk (sm4Encrypt (sm4InitKey k.toList .encrypt))
    else if cipher = "wbsm4" then
      (wbsm4GenTable mem.sm4 mem.sm4Junk .encrypt 1 k.toList).bind fun ctx => mk (wbsm4Encrypt ctx)
    else if cipher = "aes" then (aesInitKey k.toList 16).bind fun ctx => mk (aesEncrypt ctx)
    else if cipher = "wbaes" then mk (wbaesEncrypt (wbaesGenTable mem.aes mem.aesOut k))
    else (aesInitKey k.toList 16).bind fun ctx => mk (aesEncrypt ctx)

end Verif.Model
