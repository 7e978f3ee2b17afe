import Verif.Model.WbGcm
import Verif.Model.GcmMem

/-! Model of the loops of `..._wbgcm_ee_encrypt`, `..._decrypt` (`/repo/src/wbaes/wbaes_wbgcm_ee_mode.c`) and of the same functions
with masks (`wbaes_wbgcm_mask_mode.c`) over one memory, as `GcmMem.lean` does for `gcm128.c`. -/
set_option autoImplicit false

namespace Verif.Model

/-- Body of the inner loop for index `i`: ee_mode.c lines 183-194 and mask_mode.c lines 200-211 (`dec = false`), ee_mode.c
lines 233-244 and mask_mode.c lines 255-267 (`dec = true`). `in[i]` is read again for the lookup. -/
def byteMemW (dec : Bool) (box : Fin 16 → Byte → Byte → Byte) (ectr : Block) (p q : Nat) (s : Mem × Block) (i : Fin 16) : Mem × Block :=
  let (m, buf) := s
  if dec then
    let buf := buf.set i (buf[i] ^^^ m (p + i))
    (m.put (q + i) (box i (m (p + i)) ectr[i]), buf)
  else
    let m := m.put (q + i) (box i (m (p + i)) ectr[i])
    (m, buf.set i (buf[i] ^^^ m (q + i)))

/-- The inner loop. -/
def pieceMemW (dec : Bool) (box : Fin 16 → Byte → Byte → Byte) (ectr : Block) (p q u : Nat) (s : Mem × Block) : Mem × Block :=
  ((List.finRange 16).take u).foldl (byteMemW dec box ectr p q) s

/-- The loop `while (len > 0)` (ee_mode.c lines 173-201, 223-252; mask_mode.c lines 185-219, 241-274). -/
def loopMemW (dec : Bool) (c : WbGcmCtx) (p q len : Nat) (m : Mem) (y buf : Block) : Mem × Block × Block :=
  if h : 0 < len then
    let u := min len 16
    let y := incCtr y 4 (by decide)
    let ectr := c.g.block y
    let (m, buf) := pieceMemW dec c.box ectr p q u (m, buf)
    loopMemW dec c (p + u) (q + u) (len - u) m y (gcmMult c.g.HL c.g.HH buf)
  else (m, y, buf)
termination_by len
decreasing_by omega

/-- `..._encrypt` and `..._decrypt` with `in = p` and `out = q`: return code, context and memory. -/
def wbgcmCryptMem (dec : Bool) (c : WbGcmCtx) (m : Mem) (p q inlen outlen : Nat) : Int × WbGcmCtx × Mem :=
  if outlen < inlen then (-1, c, m)
  else
    let len := intLen inlen
    let (m, y, buf) := loopMemW dec c p q len.toNat m c.g.y c.g.buf
    (1, { c with g := { c.g with len := c.g.len + BitVec.ofInt 64 len, y := y, buf := buf } }, m)

end Verif.Model
