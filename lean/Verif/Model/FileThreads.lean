import Verif.Model.GcmFile
import Verif.Model.WbGcmFile

/-!
Model of several calls of `WBCRYPTO_gcmfile_encrypt` (`/repo/src/modes/gcmfile.c` lines 35-109),
`WBCRYPTO_wbaes_wbgcmfile_ee_encrypt` and `WBCRYPTO_wbaes_wbgcmfile_mask_encrypt` (`/repo/src/wbaes/wbaes_wbgcm_ee_file.c` and
`wbaes_wbgcm_mask_file.c` lines 3-78, the same text with other mode functions) that run at the same time, in threads or in
programs of their own, over one file system. Line numbers below are those of gcmfile.c. A call is a machine whose steps are its single file operations; a
schedule says whose step is next. Each call has its own file positions (its own `FILE` objects) and its own GCM context.
Simplifications: every `fread` and `fwrite` reaches the file at once (no stdio buffer), reads and writes of opened files succeed,
two different paths are two different files, and what a call does with an open file that another call has removed is not
modelled (`none`).
-/
set_option autoImplicit false

namespace Verif.Model

/-- The context of a call: of GCM over a block cipher, or of white-box GCM (either mode). -/
inductive FileCtx where
  | plain (c : GcmCtx)
  | wb (c : WbGcmCtx)

/-- Lines 72-73 (white-box: 41-42): a piece is encrypted into the zeroed buffer `out`, `block_size` bytes of it are written. -/
def fileEnc (c : FileCtx) (b : List Byte) : Option (List Byte × FileCtx) :=
  match c with
  | .plain c => (gcmEncrypt c b (List.replicate 128 0) b.length).map fun r => (r.out.take b.length, .plain r.ctx)
  | .wb c => (wbgcmEncrypt c b (List.replicate 128 0) b.length).map fun r => (r.out.take b.length, .wb r.ctx)

/-- Line 80 (white-box: 49): the tag. -/
def fileFin (c : FileCtx) : Option (List Byte × FileCtx) :=
  match c with
  | .plain c => (gcmFinish c 16).map fun r => (r.1, .plain r.2)
  | .wb c => (wbgcmFinish c 16).map fun r => (r.1, .wb r.2)

/-- The arguments of one call (line 35), the context it is given and the four stack bytes behind `file_size` (line 63). -/
structure FileJob where
  inp : Path
  out : Path
  ctx : FileCtx
  junk : Vector Byte 4

/-- Where a call stands: before line 46, 48, 50, 61, 69 (`fread`), 72-73, 80, 89, 91, 95 (`fread`), 98, 106, and after it returned 1. -/
inductive FilePc where
  | openIn | openTmp | openOut | measure | readIn | writeTmp | finish | writeTag | writeSize | readTmp | writeOut | unlink | done
  deriving DecidableEq

/-- The local state of a call: `buf` with `block_size` bytes, `size_buf`, `ctx->tag`, the read position (of `infp`, then of
`tmpfp`), and the write positions of `tmpfp` and of `outfp`. -/
structure FileProc where
  pc : FilePc
  ctx : FileCtx
  buf : List Byte
  size : List Byte
  tag : List Byte
  rd : Nat
  wt : Nat
  wo : Nat

/-- A call that has not begun. -/
def fileProc0 (j : FileJob) : FileProc :=
  { pc := .openIn, ctx := j.ctx, buf := [], size := [], tag := [], rd := 0, wt := 0, wo := 0 }

/-- One file gets another content (or is removed). -/
def fsSet (fs : FS) (p : Path) (x : Option (List Byte)) : FS := fun q => if q = p then x else fs q

/-- `fwrite` at position `o`: overwrites what is there; a gap behind the end of the file is filled with zeros. -/
def overwrite (x : List Byte) (o : Nat) (b : List Byte) : List Byte :=
  (x ++ List.replicate (o - x.length) 0).take o ++ b ++ x.drop (o + b.length)

/-- One step of a call (lines 46-106). Undefined: the input cannot be opened (cleanup closes uninitialised `FILE` pointers). -/
def fileStep (j : FileJob) (p : FileProc) (fs : FS) : Option (FileProc × FS) :=
  match p.pc with
  | .openIn => do
    let _ ← fs j.inp
    return ({ p with pc := .openTmp }, fs)
  | .openTmp => some ({ p with pc := .openOut }, fsSet fs (tmpPath j.out) (some []))
  | .openOut => some ({ p with pc := .measure }, fsSet fs j.out (some []))
  | .measure => do
    let d ← fs j.inp
    return ({ p with pc := .readIn, size := sizeBuf d.length j.junk }, fs)
  | .readIn => do
    let d ← fs j.inp
    let b := (d.drop p.rd).take 128
    if b = [] then return ({ p with pc := .finish }, fs)
    else return ({ p with pc := .writeTmp, buf := b, rd := p.rd + b.length }, fs)
  | .writeTmp => do
    let (b, c) ← fileEnc p.ctx p.buf
    let x ← fs (tmpPath j.out)
    return ({ p with pc := .readIn, ctx := c, wt := p.wt + b.length }, fsSet fs (tmpPath j.out) (some (overwrite x p.wt b)))
  | .finish => do
    let (t, c) ← fileFin p.ctx
    return ({ p with pc := .writeTag, ctx := c, tag := t, rd := 0 }, fs)
  | .writeTag => do
    let x ← fs j.out
    return ({ p with pc := .writeSize, wo := p.wo + p.tag.length }, fsSet fs j.out (some (overwrite x p.wo p.tag)))
  | .writeSize => do
    let x ← fs j.out
    return ({ p with pc := .readTmp, wo := p.wo + p.size.length }, fsSet fs j.out (some (overwrite x p.wo p.size)))
  | .readTmp => do
    let d ← fs (tmpPath j.out)
    let b := (d.drop p.rd).take 128
    if b = [] then return ({ p with pc := .unlink }, fs)
    else return ({ p with pc := .writeOut, buf := b, rd := p.rd + b.length }, fs)
  | .writeOut => do
    let x ← fs j.out
    return ({ p with pc := .readTmp, wo := p.wo + p.buf.length }, fsSet fs j.out (some (overwrite x p.wo p.buf)))
  | .unlink => some ({ p with pc := .done }, fsSet fs (tmpPath j.out) none)
  | .done => some (p, fs)

/-- The calls `jobs` under a schedule: `k :: σ` gives the next step to call `k`. -/
def fileRun {ι : Type} [DecidableEq ι] (jobs : ι → FileJob) : List ι → (ι → FileProc) → FS → Option ((ι → FileProc) × FS)
  | [], ps, fs => some (ps, fs)
  | k :: σ, ps, fs => do
    let (p, fs) ← fileStep (jobs k) (ps k) fs
    fileRun jobs σ (fun i => if i = k then p else ps i) fs

end Verif.Model
