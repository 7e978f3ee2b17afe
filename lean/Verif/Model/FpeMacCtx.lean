import Verif.Model.Fpe

/-!
Model of the life cycle of a `WBCRYPTO_fpe_mac_context` (`/repo/include/wbcrypto/fpe.h` lines 120-123,
`/repo/src/fpe/init.c` lines 35-48, `ff1_cmac.c` lines 30-374, `ff3_gmac.c` lines 82-279).

The encryption functions themselves are `cmacEncrypt`, `cmacDecrypt`, `gmacEncrypt` and `gmacDecrypt` of `Model/Fpe`; here
they act on a context that keeps a tag between calls.
-/
set_option autoImplicit false

namespace Verif.Model

/-- `struct fpe_mac_ctx` (fpe.h lines 120-123). -/
structure MacCtx where
  fpe : FpeCtx
  tag : Block

/-- `WBCRYPTO_fpe_mac_init` (init.c lines 35-48): the sixteen bytes of `tag` stay as `malloc` delivers them (`found`). -/
def macInit (found : Block) (tweak : List Byte) (radix : Nat) (E : Block → Block) : Option MacCtx :=
  if radix < 2 ∨ radix > 36 then none else (fpeInit tweak radix E).map fun f => ⟨f, found⟩

/-- One call of an encryption function: text and buffer, and for CMAC the contents of `cn_1` before it is set. -/
inductive MacCall where
  | cmacEnc (junk : Nat → Block) (input output : List Byte)
  | cmacDec (junk : Nat → Block) (input output : List Byte)
  | gmacEnc (input output : List Byte)
  | gmacDec (input output : List Byte)

/-- What the called function computes (ff1_cmac.c lines 30-368, ff3_gmac.c lines 82-273): buffer and tag. -/
def MacCall.result (lg : Nat → Nat → Nat) (f : FpeCtx) : MacCall → Option (List Byte × Block)
  | .cmacEnc junk i o => cmacEncrypt f lg junk i o
  | .cmacDec junk i o => cmacDecrypt f lg junk i o
  | .gmacEnc i o => gmacEncrypt f lg i o
  | .gmacDec i o => gmacDecrypt f lg i o

/-- A call on a context: the tag of the context is overwritten (ff1_cmac.c lines 185 and 353, ff3_gmac.c lines 163 and 260). -/
def macCall (lg : Nat → Nat → Nat) (c : MacCtx) (k : MacCall) : Option (List Byte × MacCtx) :=
  (k.result lg c.fpe).map fun r => (r.1, ⟨c.fpe, r.2⟩)

/-- A series of calls on one context: the buffers written, and the context. -/
def macCalls (lg : Nat → Nat → Nat) : MacCtx → List MacCall → Option (List (List Byte) × MacCtx)
  | c, [] => some ([], c)
  | c, k :: ks => (macCall lg c k).bind fun r => (macCalls lg r.2 ks).map fun s => (r.1 :: s.1, s.2)

/-- `WBCRYPTO_ff1_cmac_finish` (ff1_cmac.c lines 370-374): sixteen bytes, whatever `*len` was; `none` outside the buffer. -/
def cmacFinish (c : MacCtx) (buf : List Byte) (_len : Nat) : Option (List Byte × Nat) :=
  if 16 ≤ buf.length then some (c.tag.toList ++ buf.drop 16, 16) else none

/-- `WBCRYPTO_ff3_gmac_finish` (ff3_gmac.c lines 275-279). -/
def gmacFinish (c : MacCtx) (buf : List Byte) (_len : Nat) : Option (List Byte × Nat) :=
  if 16 ≤ buf.length then some (c.tag.toList ++ buf.drop 16, 16) else none

end Verif.Model
