import Verif.Model.WbGcm
import Verif.Model.GcmFile

/-!
Model of `/repo/src/wbaes/wbaes_wbgcm_ee_file.c` and `wbaes_wbgcm_mask_file.c`. The two files have the same text except for
the names of the mode functions, which `WbGcmCtx` covers. The file system is the one of `Verif.Model.GcmFile`, with the same
assumptions.
-/
set_option autoImplicit false

namespace Verif.Model

/-- The loops of lines 36-45 (`f = wbgcmEncrypt`) and 118-128 (`f = wbgcmDecrypt`): every piece is processed into the zeroed
128-byte buffer `out`, of which `block_size` bytes are written. -/
def wbFileLoop (f : WbGcmCtx → List Byte → List Byte → Nat → Option WbGcmResult) (c : WbGcmCtx) :
    List (List Byte) → Option (List Byte × WbGcmCtx)
  | [] => some ([], c)
  | p :: ps => do
    let r ← f c p (List.replicate 128 0) p.length
    let (o, c') ← wbFileLoop f r.ctx ps
    return (r.out.take p.length ++ o, c')

structure WbFileResult where
  ret : Nat
  ctx : WbGcmCtx
  log : List FsOp

/-- `WBCRYPTO_wbaes_wbgcmfile_ee_encrypt`, `..._mask_encrypt` (lines 3-78). `memcpy(size_buf, &file_size, 8)` copies four
bytes behind the `int` (`junk`). If the input cannot be opened, cleanup closes uninitialised `FILE` pointers: undefined. -/
def wbgcmfileEncrypt (c : WbGcmCtx) (junk : Vector Byte 4) (fs : FS) (inp out : Path) : Option WbFileResult := do
  let tmp := tmpPath out
  let _ ← fs inp
  let log := [FsOp.trunc tmp, FsOp.trunc out]
  let data ← applyOps fs log inp
  let size := sizeBuf data.length junk
  let (ct, c) ← wbFileLoop wbgcmEncrypt c (fpieces data)
  let (tag, c) ← wbgcmFinish c 16
  return { ret := 1, ctx := c, log := log ++ ct.map (FsOp.put tmp) ++
    (tag ++ size ++ (fpieces ct).flatten).map (FsOp.put out) ++ [FsOp.remove tmp] }

/-- `WBCRYPTO_wbaes_wbgcmfile_ee_decrypt`, `..._mask_decrypt` (lines 80-141). Undefined if the input cannot be opened or the tag
or size reads return 0 bytes (cleanup closes the uninitialised `outfp`), and if `int read_size` overflows; `in = out` is not
modelled (`none`). Line 116 calls `finish` into the array that holds the stored tag, before the data is processed. -/
def wbgcmfileDecrypt (c : WbGcmCtx) (fs : FS) (inp out : Path) : Option WbFileResult := do
  let content ← fs inp
  if inp = out then none
  else if content.take 16 = [] then none
  else
    let size := (content.drop 16).take 8
    if size = [] then none
    else
      let body := content.drop 24
      let (_, c) ← wbgcmFinish c 16
      let (pt, c) ← wbFileLoop wbgcmDecrypt c (fpieces body)
      if 2 ^ 31 ≤ body.length then none
      else
        let log := FsOp.trunc out :: pt.map (FsOp.put out)
        return { ret := if (body.length : Int) = fileSize size then 1 else 0, ctx := c, log := log }

end Verif.Model
