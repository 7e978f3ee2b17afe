import Verif.Model.Gcm

/-! Model of the loops of `WBCRYPTO_gcm_encrypt` and `WBCRYPTO_gcm_decrypt` of `/repo/src/modes/gcm128.c` over one memory, so that
the input and the output may overlap. Addresses are natural numbers; every address is readable and writable. -/
set_option autoImplicit false

namespace Verif.Model

/-- Memory. -/
abbrev Mem := Nat → Byte

/-- One store. -/
def Mem.put (m : Mem) (a : Nat) (v : Byte) : Mem := fun b => if b = a then v else m b

/-- Body of the inner loop for index `i`. Encryption (`dec = false`, gcm128.c lines 190-199): store the output byte, then absorb
what is in the output. Decryption (`dec = true`, lines 239-249): absorb what is in the input, then store. -/
def byteMem (dec : Bool) (ectr : Block) (p q : Nat) (s : Mem × Block) (i : Fin 16) : Mem × Block :=
  let (m, buf) := s
  if dec then
    let buf := buf.set i (buf[i] ^^^ m (p + i))
    (m.put (q + i) (ectr[i] ^^^ m (p + i)), buf)
  else
    let m := m.put (q + i) (ectr[i] ^^^ m (p + i))
    (m, buf.set i (buf[i] ^^^ m (q + i)))

/-- The inner loop `for (i = 0; i < use_len; i++)`. -/
def pieceMem (dec : Bool) (ectr : Block) (p q u : Nat) (s : Mem × Block) : Mem × Block :=
  ((List.finRange 16).take u).foldl (byteMem dec ectr p q) s

/-- The loop `while (len > 0)` (lines 181-205 and 230-254): `in` and `out` are the addresses `p` and `q`. -/
def loopMem (dec : Bool) (c : GcmCtx) (p q len : Nat) (m : Mem) (y buf : Block) : Mem × Block × Block :=
  if h : 0 < len then
    let u := min len 16
    let y := incCtr y 4 (by decide)
    let ectr := c.block y
    let (m, buf) := pieceMem dec ectr p q u (m, buf)
    loopMem dec c (p + u) (q + u) (len - u) m y (gcmMult c.HL c.HH buf)
  else (m, y, buf)
termination_by len
decreasing_by omega

/-- `WBCRYPTO_gcm_encrypt` and `WBCRYPTO_gcm_decrypt` (lines 162-209, 211-259) with `in = p` and `out = q`: return code, context and
memory. -/
def gcmCryptMem (dec : Bool) (c : GcmCtx) (m : Mem) (p q inlen outlen : Nat) : Nat × GcmCtx × Mem :=
  if outlen < inlen then (0, c, m)
  else
    let len := intLen inlen
    let (m, y, buf) := loopMem dec c p q len.toNat m c.y c.buf
    (1, { c with len := c.len + BitVec.ofInt 64 len, y := y, buf := buf }, m)

end Verif.Model
