import Verif.Model.AesWrap
import Verif.Model.Wbsm4
import Verif.Model.SeWbsm4
import Verif.Model.WbGcm

/-!
The arguments `(key, keylen)` of the functions that make contexts.  `key : List Byte` is everything from the pointer to the
end of the object; reading behind it is `none`.  (`WBCRYPTO_aes_init_key` is `aesInitKey`.)
-/
set_option autoImplicit false

namespace Verif.Model

/-- What `WBCRYPTO_key_padding_pkcs7(key, keylen, padkey)` reads (padding.c lines 3-23): at most 16 bytes. -/
def keyArg (key : List Byte) (keylen : Nat) : Option (List Byte) :=
  let n := if keylen > 16 then 16 else keylen
  if key.length < n then none else some (key.take n)

/-- `aux_sm4_init_key` (sm4.c lines 146-201). -/
def sm4InitKeyArg (key : List Byte) (keylen : Nat) (mode : EncMode) : Option Sm4Ctx :=
  (keyArg key keylen).map fun k => sm4InitKey k mode

/-- `WBCRYPTO_wbsm4_gen_table` (wbsm4_gen.c lines 105-279; the key is used in lines 124-129). -/
def wbsm4GenTableArg (r : Wbsm4Rnd) (junk : Nat → WbRound) (mode : EncMode) (d : Nat) (key : List Byte) (keylen : Nat) :
    Option Wbsm4Ctx := (keyArg key keylen).bind fun k => wbsm4GenTable r junk mode d k

/-- `WBCRYPTO_se_wbsm4_gen_table` (se_wbsm4.c lines 20-103; the key is used in lines 28-33). -/
def seGenTableArg (r : SeRnd) (mode : EncMode) (key : List Byte) (keylen : Nat) : Option SeCtx :=
  (keyArg key keylen).map fun k => seGenTable r mode k

/-- `WBCRYPTO_wbaes_gen_table` (wbaes.c lines 20-307): `expandKey` (wbaes_local.c lines 35-40) reads 16 bytes; `keylen` is not
used. -/
def wbaesGenTableArg (r : WbaesRnd) (ro : Fin 16 → Fin 2 → Nat → BitVec 32) (key : List Byte) (_keylen : Nat) : Option WbaesCtx :=
  (rdBlk key 0).map fun k => wbaesGenTable r ro k

/-- `WBCRYPTO_wbaes_wbgcm_ee_gen_table` (ee_init.c lines 4-318): the same use of the key (line 8). -/
def wbEeGenTableArg (r : WbaesRnd) (r1 r2 : Fin 16 → Nat → BitVec 32) (junk : Vector (Fin 256) 256) (key : List Byte)
    (_keylen : Nat) : Option WbEeKey := (rdBlk key 0).map fun k => wbEeGenTable r r1 r2 junk k

/-- `WBCRYPTO_wbaes_wbgcm_mask_gen_table` (mask_init.c lines 468-473): the same use of the key (line 34). -/
def wbMaskGenTableArg (re rd : WbaesRnd) (roe rod : Fin 16 → Fin 2 → Nat → BitVec 32) (r : WbMaskRnd) (key : List Byte)
    (_keylen : Nat) : Option (WbMaskKey × WbMaskKey) := (rdBlk key 0).map fun k => wbMaskGenTable re rd roe rod r k

end Verif.Model
