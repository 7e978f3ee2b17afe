import Verif.Model.WbGcmFile
import Verif.Model.GcmFileDisk

/-!
The file functions of the white-box GCM modes with devices that may refuse files and have limited room: the text of
`/repo/src/wbaes/wbaes_wbgcm_ee_file.c` and `wbaes_wbgcm_mask_file.c` once more, over the streams of `Verif.Model.GcmFileDisk`.
-/
set_option autoImplicit false

namespace Verif.Model

/-- `WBCRYPTO_wbaes_wbgcmfile_ee_encrypt`, `..._mask_encrypt` (lines 3-78): return value, content of the output file, context.
None of the `fwrite`, `fflush`, `fseek` and `fclose` results (lines 42, 52-54, 58, 60, 67, 73-74) is looked at.  If a file cannot
be opened the cleanup of lines 73-74 closes a null or uninitialised pointer: undefined. -/
def wbgcmfileEncryptIo (io : FileIo) (c : WbGcmCtx) (junk : Vector Byte 4) (data : List Byte) :
    Option (Nat × List Byte × WbGcmCtx) :=
  if io.tmpOpened && io.outOpened then do
    let (ct, c) ← wbFileLoop wbgcmEncrypt c (fpieces data)
    let (tag, c) ← wbgcmFinish c 16
    let st := outPutAny io.outRoom io.outFlush ⟨[], [], 0⟩ (tag :: sizeBuf data.length junk :: fpieces (tmpBack io ct))
    return (1, outClose io.outRoom st, c)
  else none

/-- `WBCRYPTO_wbaes_wbgcmfile_ee_decrypt`, `..._mask_decrypt` (lines 80-141): return value, content of the output file, context.
If the output file cannot be opened line 139 closes a null pointer: undefined. -/
def wbgcmfileDecryptIo (io : FileIo) (c : WbGcmCtx) (content : List Byte) : Option (Nat × List Byte × WbGcmCtx) :=
  let size := (content.drop 16).take 8
  if content.take 16 = [] ∨ size = [] ∨ io.outOpened = false then none
  else do
    let body := content.drop 24
    let (_, c) ← wbgcmFinish c 16
    let (pt, c) ← wbFileLoop wbgcmDecrypt c (fpieces body)
    if 2 ^ 31 ≤ body.length then none
    else
      let st := outPutAny io.outRoom io.outFlush ⟨[], [], 0⟩ (fpieces pt)
      return (if (body.length : Int) = fileSize size then 1 else 0, outClose io.outRoom st, c)

end Verif.Model
