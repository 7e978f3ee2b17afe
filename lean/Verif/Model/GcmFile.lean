import Verif.Model.Gcm

/-!
Model of `/repo/src/modes/gcmfile.c`. A file system is a partial function from paths to contents. Every function
produces the log of its file operations; the resulting file system is the log applied to the initial one.
Reads and writes of opened files are assumed to succeed, and files can be created. Two different paths are
different files (no links).
-/
set_option autoImplicit false

namespace Verif.Model

abbrev Path := List Char
abbrev FS := Path → Option (List Byte)

/-- Effects on the file system: `fopen(_, "wb+")`, one byte written, `remove`. -/
inductive FsOp where
  | trunc (p : Path)
  | put (p : Path) (b : Byte)
  | remove (p : Path)
  deriving DecidableEq

def FsOp.path : FsOp → Path
  | .trunc p => p
  | .put p _ => p
  | .remove p => p

/-- Effect of an operation on the content of the file it names. -/
def FsOp.effect (o : FsOp) (x : Option (List Byte)) : Option (List Byte) :=
  match o with
  | .trunc _ => some []
  | .put _ b => x.map (· ++ [b])
  | .remove _ => none

def applyOp (fs : FS) (o : FsOp) : FS := fun p => if p = o.path then o.effect (fs p) else fs p

def applyOps (fs : FS) (l : List FsOp) : FS := l.foldl applyOp fs

/-- `fread(buf, 1, 128, f)` until it returns 0: the pieces obtained from the remaining content (fuel as in `chunks`). -/
def fpiecesAux : Nat → List Byte → List (List Byte)
  | 0, _ => []
  | _ + 1, [] => []
  | n + 1, b :: l => (b :: l).take 128 :: fpiecesAux n ((b :: l).drop 128)

def fpieces (l : List Byte) : List (List Byte) := fpiecesAux l.length l

/-- The loops of lines 68-77 (`f = gcmEncrypt`) and 149-159 (`f = gcmDecrypt`): every piece is processed into the zeroed
128-byte buffer `out`, of which `block_size` bytes are written. -/
def fileLoop (f : GcmCtx → List Byte → List Byte → Nat → Option GcmResult) (c : GcmCtx) :
    List (List Byte) → Option (List Byte × GcmCtx)
  | [] => some ([], c)
  | p :: ps => do
    let r ← f c p (List.replicate 128 0) p.length
    let (o, c') ← fileLoop f r.ctx ps
    return (r.out.take p.length ++ o, c')

/-- `memcpy(size_buf, &file_size, sizeof(size_t))` (lines 61-64): `file_size` is a 4-byte `int`, so the upper four
bytes are whatever lies behind it on the stack (`junk`). -/
def sizeBuf (n : Nat) (junk : Vector Byte 4) : List Byte :=
  let v := BitVec.ofNat 32 n
  [v.truncate 8, (v >>> 8).truncate 8, (v >>> 16).truncate 8, (v >>> 24).truncate 8] ++ junk.toList

/-- Result of a file function: return value, context, log of file operations. -/
structure FileResult where
  ret : Nat
  ctx : GcmCtx
  log : List FsOp

/-- outpath + ".tmp" (lines 41-44). -/
def tmpPath (out : Path) : Path := out ++ ['.', 't', 'm', 'p']

/-- `WBCRYPTO_gcmfile_encrypt` (lines 35-109). If the input cannot be opened, cleanup closes uninitialised `FILE`
pointers: undefined. The input is read after the temporary and the output file have been truncated. -/
def gcmfileEncrypt (c : GcmCtx) (junk : Vector Byte 4) (fs : FS) (inp out : Path) : Option FileResult := do
  let tmp := tmpPath out
  let _ ← fs inp
  let log := [FsOp.trunc tmp, FsOp.trunc out]
  let data ← applyOps fs log inp
  let size := sizeBuf data.length junk
  let (ct, c) ← fileLoop gcmEncrypt c (fpieces data)
  let (tag, c) ← gcmFinish c 16
  return { ret := 1, ctx := c, log := log ++ ct.map (FsOp.put tmp) ++
    (tag ++ size ++ (fpieces ct).flatten).map (FsOp.put out) ++ [FsOp.remove tmp] }

/-- `file_size` in `WBCRYPTO_gcmfile_decrypt` (lines 129-136) from the size bytes read (missing bytes are 0). -/
def fileSize (b : List Byte) : Int :=
  (((b.getD 3 0).zeroExtend 32 <<< 24) ||| ((b.getD 2 0).zeroExtend 32 <<< 16) |||
    ((b.getD 1 0).zeroExtend 32 <<< 8) ||| (b.getD 0 0).zeroExtend 32 : BitVec 32).toInt

/-- `WBCRYPTO_gcmfile_decrypt` (lines 111-172). Undefined if the input cannot be opened or the tag or size reads return 0
bytes (cleanup closes the uninitialised `outfp`), and if `int read_size` overflows. `in = out` depends on
stdio buffering and is not modelled (`none`). `gcm_finish` is called before the data is processed; the stored tag
has been overwritten by it and is never compared. -/
def gcmfileDecrypt (c : GcmCtx) (fs : FS) (inp out : Path) : Option FileResult := do
  let content ← fs inp
  if inp = out then none
  else if content.take 16 = [] then none
  else
    let size := (content.drop 16).take 8
    if size = [] then none
    else
      let body := content.drop 24
      let (_, c) ← gcmFinish c 16
      let (pt, c) ← fileLoop gcmDecrypt c (fpieces body)
      if 2 ^ 31 ≤ body.length then none
      else
        let log := FsOp.trunc out :: pt.map (FsOp.put out)
        return { ret := if (body.length : Int) = fileSize size then 1 else 0, ctx := c, log := log }

end Verif.Model
