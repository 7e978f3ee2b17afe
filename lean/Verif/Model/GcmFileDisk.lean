import Verif.Model.GcmFile
import Verif.Model.Wbsm4Disk

/-!
Model of `WBCRYPTO_gcmfile_encrypt` and `WBCRYPTO_gcmfile_decrypt` (`/repo/src/modes/gcmfile.c` lines 35-172) on files that
cannot be created and devices that take a limited number of bytes.  `Model/GcmFile` has the same functions on a device without
faults.  The input file is not one of the files written.
-/
set_option autoImplicit false

namespace Verif.Model

/-- What the environment does: whether the temporary and the output file can be opened, how many bytes each takes, when the
library empties their buffers, and whether the `fseek` of line 84 works after a flush of the temporary file has failed. -/
structure FileIo where
  tmpOpened : Bool
  outOpened : Bool
  tmpRoom : Nat
  outRoom : Nat
  tmpFlush : Nat → Bool
  outFlush : Nat → Bool
  rewind : Bool

/-- A series of `fwrite` calls whose results are not looked at (lines 73, 89, 91, 98, 155). -/
def outPutAny (room : Nat) (flush : Nat → Bool) (st : OutStream) (ws : List (List Byte)) : OutStream :=
  ws.foldl (fun s w => (outPut room flush s w).2) st

/-- What the copy loop of lines 94-97 reads from the temporary file: the ciphertext pieces written in line 73 (as long as the
pieces read, so `fpieces ct`), flushed in line 83.  If the device was too small the rewind of line 84 may fail, and nothing is
read. -/
def tmpBack (io : FileIo) (ct : List Byte) : List Byte :=
  let st := outPutAny io.tmpRoom io.tmpFlush ⟨[], [], 0⟩ (fpieces ct)
  let held := outClose io.tmpRoom st
  if held.length = ct.length ∨ io.rewind then held else []

/-- `WBCRYPTO_gcmfile_encrypt` (lines 35-109): return value, content of the output file, context.  If a file cannot be opened
the cleanup of lines 104-105 closes a null or uninitialised pointer: undefined. -/
def gcmfileEncryptIo (io : FileIo) (c : GcmCtx) (junk : Vector Byte 4) (data : List Byte) :
    Option (Nat × List Byte × GcmCtx) :=
  if io.tmpOpened && io.outOpened then do
    let (ct, c) ← fileLoop gcmEncrypt c (fpieces data)
    let (tag, c) ← gcmFinish c 16
    let st := outPutAny io.outRoom io.outFlush ⟨[], [], 0⟩ (tag :: sizeBuf data.length junk :: fpieces (tmpBack io ct))
    return (1, outClose io.outRoom st, c)
  else none

/-- `WBCRYPTO_gcmfile_decrypt` (lines 111-172): return value, content of the output file, context.  If the output file cannot be
opened line 170 closes a null pointer: undefined. -/
def gcmfileDecryptIo (io : FileIo) (c : GcmCtx) (content : List Byte) : Option (Nat × List Byte × GcmCtx) :=
  let size := (content.drop 16).take 8
  if content.take 16 = [] ∨ size = [] ∨ io.outOpened = false then none
  else do
    let body := content.drop 24
    let (_, c) ← gcmFinish c 16
    let (pt, c) ← fileLoop gcmDecrypt c (fpieces body)
    if 2 ^ 31 ≤ body.length then none
    else
      let st := outPutAny io.outRoom io.outFlush ⟨[], [], 0⟩ (fpieces pt)
      return (if (body.length : Int) = fileSize size then 1 else 0, outClose io.outRoom st, c)

end Verif.Model
