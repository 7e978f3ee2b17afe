import Verif.Model.FpeApp
import Verif.Model.FpeRelease

/-!
Model of `/repo/src/fpe_app` compiled with `NDEBUG`. The files of that directory have no assertion of their own; only the engines
they call (`/repo/src/fpe/ff1.c`, `/repo/src/fpe/ff3.c`) change, see Model/FpeRelease.
-/
set_option autoImplicit false

namespace Verif.Model

/-- The engine used for encryption (phone.c lines 67-74, idcard.c lines 77-84, cn_utf8.c lines 107-114). -/
def encFnRel (app : FpeApp) (lg : Nat → Nat → Nat) : FpeFn := fun ctx input output =>
  match app.ffx with
  | .ff1 => ff1EncryptRel ctx lg input output
  | .ff3 => ff3EncryptRel ctx lg input output

/-- The engine used for decryption (phone.c lines 79-86, idcard.c lines 89-96, cn_utf8.c lines 119-126). -/
def decFnRel (app : FpeApp) (lg : Nat → Nat → Nat) : FpeFn := fun ctx input output =>
  match app.ffx with
  | .ff1 => ff1DecryptRel ctx lg input output
  | .ff3 => ff3DecryptRel ctx lg input output

/-- `WBCRYPTO_fpe_encrypt_phone_with_sample` (phone.c lines 66-76). -/
def encryptPhoneRel (app : FpeApp) (lg : Nat → Nat → Nat) (mem : AppMem) (phone sample after : List Byte) :
    Option (List Byte) := auxPhone app mem phone sample after (encFnRel app lg)

/-- `WBCRYPTO_fpe_decrypt_phone_with_sample` (phone.c lines 78-88). -/
def decryptPhoneRel (app : FpeApp) (lg : Nat → Nat → Nat) (mem : AppMem) (phone sample after : List Byte) :
    Option (List Byte) := auxPhone app mem phone sample after (decFnRel app lg)

/-- `WBCRYPTO_fpe_encrypt_idcard_with_sample` (idcard.c lines 75-86). -/
def encryptIdcardRel (app : FpeApp) (lg : Nat → Nat → Nat) (mem : AppMem) (idcard sample after : List Byte) :
    Option (List Byte) := auxIdcard app mem idcard sample after (encFnRel app lg)

/-- `WBCRYPTO_fpe_decrypt_idcard_with_sample` (idcard.c lines 88-99). -/
def decryptIdcardRel (app : FpeApp) (lg : Nat → Nat → Nat) (mem : AppMem) (idcard sample after : List Byte) :
    Option (List Byte) := auxIdcard app mem idcard sample after (decFnRel app lg)

/-- `WBCRYPTO_fpe_encrypt_cn_utf8_with_sample` (cn_utf8.c lines 106-116). -/
def encryptCnRel (app : FpeApp) (lg : Nat → Nat → Nat) (mem : AppMem) (cn sample after : List Byte) :
    Option (List Byte) := auxCn app mem cn sample after (encFnRel app lg)

/-- `WBCRYPTO_fpe_decrypt_cn_utf8_with_sample` (cn_utf8.c lines 118-128). -/
def decryptCnRel (app : FpeApp) (lg : Nat → Nat → Nat) (mem : AppMem) (cn sample after : List Byte) :
    Option (List Byte) := auxCn app mem cn sample after (decFnRel app lg)

end Verif.Model
