import Verif.Model.AesWrap
import Verif.Model.Cbc
import Verif.Model.Fpe
import Verif.Model.GcmFile
import Verif.Model.Wbaes
import Verif.Model.Wbsm4

/-!
Model of the mode wrappers `/repo/src/sm4/sm4_modes.c`, `/repo/src/wbsm4/wbsm4_modes.c`, `/repo/src/aes/aes_modes.c` and
`/repo/src/wbaes/wbaes_modes.c`: which function of which cipher is handed to which mode.
-/
set_option autoImplicit false

namespace Verif.Model

/-- The body of the `..._cbc_encrypt` wrappers (sm4_modes.c lines 3-15): 0 if the generic function returned 0, otherwise
1; the output, `*use_olen` and the IV are those of the generic function. -/
def cbcEncryptWrapper (E : Block → Block) (moved : Bool) (inp out : List Byte) (maxOlen : Nat) (ivec : Block) :
    Option CbcResult := do
  let r ← cbcEncrypt E moved inp out maxOlen ivec
  if r.ret = 0 then some { r with ret := 0 } else some { r with ret := 1 }

/-! ### CBC -/

/-- `WBCRYPTO_sm4_cbc_encrypt` (sm4_modes.c lines 3-15). -/
def sm4CbcEncrypt (ctx : Sm4Ctx) := cbcEncryptWrapper (sm4Encrypt ctx)

/-- `WBCRYPTO_sm4_cbc_decrypt` (sm4_modes.c lines 17-30). -/
def sm4CbcDecrypt (ctx : Sm4Ctx) := cbcDecryptWrapper (sm4Decrypt ctx)

/-- `WBCRYPTO_wbsm4_cbc_encrypt` (wbsm4_modes.c lines 3-15). -/
def wbsm4CbcEncrypt (ctx : Wbsm4Ctx) := cbcEncryptWrapper (wbsm4Encrypt ctx)

/-- `WBCRYPTO_wbsm4_cbc_decrypt` (wbsm4_modes.c lines 17-30). -/
def wbsm4CbcDecrypt (ctx : Wbsm4Ctx) := cbcDecryptWrapper (wbsm4Decrypt ctx)

/-- `WBCRYPTO_aes_cbc_encrypt` (aes_modes.c lines 3-15). -/
def aesCbcEncrypt (ctx : AesSched) := cbcEncryptWrapper (aesEncrypt ctx)

/-- `WBCRYPTO_aes_cbc_decrypt` (aes_modes.c lines 17-30). -/
def aesCbcDecrypt (ctx : AesSched) := cbcDecryptWrapper (aesDecrypt ctx)

/-- `WBCRYPTO_wbaes_cbc_encrypt` (wbaes_modes.c lines 3-15).  There is no `WBCRYPTO_wbaes_cbc_decrypt`. -/
def wbaesCbcEncrypt (ctx : WbaesCtx) := cbcEncryptWrapper (wbaesEncrypt ctx)

/-! ### GCM and GCM files -/

/-- `WBCRYPTO_sm4_gcm_init` (sm4_modes.c lines 32-35); `WBCRYPTO_sm4_gcmfile_init` (lines 37-40) makes the same GCM context. -/
def sm4GcmInit (ctx : Sm4Ctx) : GcmCtx := gcmInit (sm4Encrypt ctx)

/-- `WBCRYPTO_wbsm4_gcm_init` (wbsm4_modes.c lines 32-35); `WBCRYPTO_wbsm4_gcmfile_init` (lines 37-40). -/
def wbsm4GcmInit (ctx : Wbsm4Ctx) : GcmCtx := gcmInit (wbsm4Encrypt ctx)

/-- `WBCRYPTO_aes_gcm_init` (aes_modes.c lines 32-35); `WBCRYPTO_aes_gcmfile_init` (lines 37-40). -/
def aesGcmInit (ctx : AesSched) : GcmCtx := gcmInit (aesEncrypt ctx)

/-- `WBCRYPTO_wbaes_gcm_init` (wbaes_modes.c lines 17-20); `WBCRYPTO_wbaes_gcmfile_init` (lines 22-25). -/
def wbaesGcmInit (ctx : WbaesCtx) : GcmCtx := gcmInit (wbaesEncrypt ctx)

/-! ### format-preserving encryption

`..._fpe_mac_init` calls `WBCRYPTO_fpe_mac_init` (`/repo/src/fpe/init.c` lines 35-48), which makes the same inner
context. -/

/-- `WBCRYPTO_sm4_fpe_init` (sm4_modes.c lines 42-46), `WBCRYPTO_sm4_fpe_mac_init` (lines 48-52). -/
def sm4FpeInit (ctx : Sm4Ctx) (twk : List Byte) (radix : Nat) : Option FpeCtx := fpeInit twk radix (sm4Encrypt ctx)

/-- `WBCRYPTO_wbsm4_fpe_init` (wbsm4_modes.c lines 42-46), `WBCRYPTO_wbsm4_fpe_mac_init` (lines 48-52). -/
def wbsm4FpeInit (ctx : Wbsm4Ctx) (twk : List Byte) (radix : Nat) : Option FpeCtx :=
  fpeInit twk radix (wbsm4Encrypt ctx)

/-- `WBCRYPTO_aes_fpe_init` (aes_modes.c lines 42-46), `WBCRYPTO_aes_fpe_mac_init` (lines 48-52). -/
def aesFpeInit (ctx : AesSched) (twk : List Byte) (radix : Nat) : Option FpeCtx := fpeInit twk radix (aesEncrypt ctx)

/-- `WBCRYPTO_wbaes_fpe_init` (wbaes_modes.c lines 27-31), `WBCRYPTO_wbaes_fpe_mac_init` (lines 33-37). -/
def wbaesFpeInit (ctx : WbaesCtx) (twk : List Byte) (radix : Nat) : Option FpeCtx :=
  fpeInit twk radix (wbaesEncrypt ctx)

end Verif.Model
