import Verif.Model.FpeFail
import Verif.Model.FpeApp

/-!
The FPE applications with a block cipher that can report failure (`/repo/src/fpe_app/phone.c`, `idcard.c`, `cn_utf8.c`). They call
`(*block)(fpe_ctx, input, ans)` (phone.c line 42, idcard.c line 48, cn_utf8.c line 65) without looking at its result, and return 1.
The engines are those of `Model/FpeFail`; each call of an application makes one call of an engine, whose block cipher calls are
numbered from 0. `R0` is what the stack held in `R` (FF1) or `S` (FF3), `ss i` what it held in `SS` in round `i` (FF1).
-/
set_option autoImplicit false

namespace Verif.Model

/-- The engine used for encryption (phone.c lines 67-74, idcard.c lines 77-84, cn_utf8.c lines 107-114); its result is dropped. -/
def encFnF (app : FpeApp) (lg : Nat → Nat → Nat) (w : Faults) (ss : Nat → Block) (R0 : Block) : FpeFn := fun ctx input output =>
  match app.ffx with
  | .ff1 => (ff1EncryptF ctx lg w ss R0 input output).map Prod.snd
  | .ff3 => (ff3EncryptF ctx lg w R0 input output).map Prod.snd

/-- The engine used for decryption (phone.c lines 79-86, idcard.c lines 89-96, cn_utf8.c lines 119-126); its result is dropped. -/
def decFnF (app : FpeApp) (lg : Nat → Nat → Nat) (w : Faults) (ss : Nat → Block) : FpeFn := fun ctx input output =>
  match app.ffx with
  | .ff1 => (ff1DecryptF ctx lg w ss input output).map Prod.snd
  | .ff3 => (ff3DecryptF ctx lg w input output).map Prod.snd

/-- `WBCRYPTO_fpe_encrypt_phone_with_sample` (phone.c lines 66-76). -/
def encryptPhoneF (app : FpeApp) (lg : Nat → Nat → Nat) (w : Faults) (ss : Nat → Block) (R0 : Block) (mem : AppMem)
    (phone sample after : List Byte) : Option (List Byte) := auxPhone app mem phone sample after (encFnF app lg w ss R0)

/-- `WBCRYPTO_fpe_decrypt_phone_with_sample` (phone.c lines 78-88). -/
def decryptPhoneF (app : FpeApp) (lg : Nat → Nat → Nat) (w : Faults) (ss : Nat → Block) (mem : AppMem)
    (phone sample after : List Byte) : Option (List Byte) := auxPhone app mem phone sample after (decFnF app lg w ss)

/-- `WBCRYPTO_fpe_encrypt_idcard_with_sample` (idcard.c lines 75-86). -/
def encryptIdcardF (app : FpeApp) (lg : Nat → Nat → Nat) (w : Faults) (ss : Nat → Block) (R0 : Block) (mem : AppMem)
    (idcard sample after : List Byte) : Option (List Byte) := auxIdcard app mem idcard sample after (encFnF app lg w ss R0)

/-- `WBCRYPTO_fpe_decrypt_idcard_with_sample` (idcard.c lines 88-99). -/
def decryptIdcardF (app : FpeApp) (lg : Nat → Nat → Nat) (w : Faults) (ss : Nat → Block) (mem : AppMem)
    (idcard sample after : List Byte) : Option (List Byte) := auxIdcard app mem idcard sample after (decFnF app lg w ss)

/-- `WBCRYPTO_fpe_encrypt_cn_utf8_with_sample` (cn_utf8.c lines 106-116). -/
def encryptCnF (app : FpeApp) (lg : Nat → Nat → Nat) (w : Faults) (ss : Nat → Block) (R0 : Block) (mem : AppMem)
    (cn sample after : List Byte) : Option (List Byte) := auxCn app mem cn sample after (encFnF app lg w ss R0)

/-- `WBCRYPTO_fpe_decrypt_cn_utf8_with_sample` (cn_utf8.c lines 118-128). -/
def decryptCnF (app : FpeApp) (lg : Nat → Nat → Nat) (w : Faults) (ss : Nat → Block) (mem : AppMem)
    (cn sample after : List Byte) : Option (List Byte) := auxCn app mem cn sample after (decFnF app lg w ss)

end Verif.Model
