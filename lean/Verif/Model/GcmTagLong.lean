import Verif.Model.Gcm

/-! `WBCRYPTO_gcm_finish` with a tag length above 16, which nothing rejects. In the C language the call reads outside the array
`base_ectr` (`gcmFinish` is `none`); compilers turn the call into reads of the memory that follows. Here this memory is the rest of
the `struct gcm128_context` (modes.h lines 40-44) in the order of declaration, without gaps between the byte arrays, and then bytes
given as an argument.

Not modelled: the white-box variants, which write outside `buff_change` on the stack in the same case. -/
set_option autoImplicit false

namespace Verif.Model

/-- Byte `k` from the start of `base_ectr`: `base_ectr`, `y`, `buf` of 16 bytes each, then what follows `buf`: the bytes of the pointers
`key` and `block` and whatever lies behind the structure. -/
def ctxByte (c : GcmCtx) (behind : Nat → Byte) (k : Nat) : Byte :=
  if k < 16 then c.baseEctr.toList.getD k 0
  else if k < 32 then c.y.toList.getD (k - 16) 0
  else if k < 48 then c.buf.toList.getD (k - 32) 0
  else behind (k - 48)

/-- `WBCRYPTO_gcm_finish` (gcm128.c lines 261-285) for every `len`: `memcpy` from `base_ectr` (line 268) before `buf` changes, then
`tag[i] ^= ctx->buf[i]` (line 280) after. -/
def gcmFinishMem (c : GcmCtx) (behind : Nat → Byte) (n : Nat) : List Byte × GcmCtx :=
  let origLen := c.len * 8
  let origAddLen := c.addLen * 8
  let tag := (List.range n).map (ctxByte c behind)
  if origLen ≠ 0 ∨ origAddLen ≠ 0 then
    let work := putBlock (origAddLen >>> 32) origAddLen (origLen >>> 32) origLen
    let c' := { c with buf := gcmMult c.HL c.HH (c.buf ^^^ work) }
    (List.zipWith (fun t i => t ^^^ ctxByte c' behind (32 + i)) tag (List.range n), c')
  else (tag, c)

end Verif.Model
