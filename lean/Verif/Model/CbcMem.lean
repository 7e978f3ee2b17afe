import Verif.Model.Cbc
import Verif.Model.GcmMem

/-! Model of `/repo/src/modes/cbc128.c` over one memory, so that the input and the output may overlap (`Mem` and `Mem.put` are in
`GcmMem.lean`). The caller's `ivec` is not part of that memory. A block cipher reads its 16 input bytes before it stores
anything (sm4.c lines 215-271; wbsm4.c, wbaes.c and OpenSSL's AES likewise). Word accesses need not be aligned. -/
set_option autoImplicit false

namespace Verif.Model

/-- The 16 bytes at `p`. -/
def Mem.blk (m : Mem) (p : Nat) : Block := Vector.ofFn fun i => m (p + i.1)

/-- Store 16 bytes at `q`. -/
def Mem.putBlk (m : Mem) (q : Nat) (b : Block) : Mem := fun a => if h : q ≤ a ∧ a < q + 16 then b[a - q] else m a

/-- `*(size_t *) q ^= *(size_t *) p`. -/
def Mem.xorWord (m : Mem) (q p : Nat) : Mem := fun a => if q ≤ a ∧ a < q + 8 then m a ^^^ m (p + (a - q)) else m a

/-- What the pointer `iv` of `WBCRYPTO_cbc128_decrypt` points to: the caller's `ivec` or an address of the memory. -/
inductive IvPtr
  | ivec
  | at (p : Nat)
  deriving DecidableEq

/-- `out_t[n] ^= iv_t[n]` for `n = 0, 1` (cbc128.c lines 70-71). -/
def xorIv (ivec : Block) (m : Mem) (q : Nat) : IvPtr → Mem
  | .ivec => m.putBlk q (m.blk q ^^^ ivec)
  | .at p => (m.xorWord q p).xorWord (q + 8) (p + 8)

/-- The 16 bytes `iv` points to (line 78). -/
def ivBlk (ivec : Block) (m : Mem) : IvPtr → Block
  | .ivec => ivec
  | .at p => m.blk p

/-- Loop for `in != out` (cbc128.c lines 66-76): `k` iterations. -/
def cbcDecLoopMem (D : Block → Block) (ivec : Block) : Nat → Nat → Nat → IvPtr → Mem → IvPtr × Mem
  | 0, _, _, iv, m => (iv, m)
  | k + 1, p, q, iv, m =>
    cbcDecLoopMem D ivec k (p + 16) (q + 16) (.at p) (xorIv ivec (m.putBlk q (D (m.blk p))) q iv)

/-- Loop for `in == out` (cbc128.c lines 81-94). -/
def cbcDecLoopSame (D : Block → Block) : Nat → Nat → Block → Mem → Block × Mem
  | 0, _, iv, m => (iv, m)
  | k + 1, p, iv, m => cbcDecLoopSame D k (p + 16) (m.blk p) (m.putBlk p (D (m.blk p) ^^^ iv))

/-- Byte loop of the tail (cbc128.c lines 101-105) for index `n`. -/
def cbcTailByteMem (tmp : Block) (p q : Nat) (s : Mem × Block) (n : Fin 16) : Mem × Block :=
  (s.1.put (q + n.1) (tmp[n] ^^^ s.2[n]), s.2.set n (s.1 (p + n.1)))

/-- Tail (cbc128.c lines 98-114): `len` bytes; the rest of `ivec` is loaded afterwards (lines 107-108). -/
def cbcDecTailMem (D : Block → Block) (p q len : Nat) (iv : Block) (m : Mem) : Block × Mem :=
  if len = 0 then (iv, m)
  else
    let s := ((List.finRange 16).take len).foldl (cbcTailByteMem (D (m.blk p)) p q) (m, iv)
    (((List.finRange 16).drop len).foldl (fun (v : Block) (n : Fin 16) => v.set n (s.1 (p + n.1))) s.2, s.1)

/-- `WBCRYPTO_cbc128_decrypt` (cbc128.c lines 46-118) with `in = p` and `out = q`: return code, memory and `ivec`. -/
def cbcDecryptMem (D : Block → Block) (m : Mem) (p q inlen maxOlen : Nat) (ivec : Block) : Nat × Mem × Block :=
  if maxOlen < inlen then (0, m, ivec)
  else
    let k := (cbcCounts inlen).1
    let s := if p = q then cbcDecLoopSame D k p ivec m
      else
        let r := cbcDecLoopMem D ivec k p q .ivec m
        (ivBlk ivec r.2 r.1, r.2)
    let t := cbcDecTailMem D (p + k * 16) (q + k * 16) (cbcCounts inlen).2 s.1 s.2
    (1, t.2, t.1)

/-- Main loop of `WBCRYPTO_cbc128_encrypt` (cbc128.c lines 18-27) over the private copy `afin` of the padded input: the
xor is stored into the output block, which is then encrypted in place; `iv` is that block afterwards. -/
def cbcEncLoopMem (E : Block → Block) (ivec : Block) (afin : List Byte) : Nat → Nat → Nat → IvPtr → Mem → Option Mem
  | 0, _, _, _, m => some m
  | k + 1, pos, q, iv, m =>
    (rdBlk afin pos).bind fun a =>
    let m := m.putBlk q (a ^^^ ivBlk ivec m iv)
    cbcEncLoopMem E ivec afin k (pos + 16) (q + 16) (.at q) (m.putBlk q (E (m.blk q)))

/-- `WBCRYPTO_cbc128_encrypt` (cbc128.c lines 3-44) with `in = p` and `out = q`: return code, reported length and memory.
`moved` as in `cbcEncrypt`. -/
def cbcEncryptMem (E : Block → Block) (moved : Bool) (m : Mem) (p q inlen maxOlen : Nat) (ivec : Block) :
    Option (Nat × Option (BitVec 64) × Mem) :=
  (pkcs7Merge ((List.range inlen).map fun i => m (p + i))).bind fun afin =>
  if maxOlen < afin.length then some (0, none, m)
  else if moved && decide (afin.length ≠ 0) then none
  else (cbcEncLoopMem E ivec afin (afin.length / 16) 0 q .ivec m).map fun m =>
    (1, some (BitVec.ofNat 64 afin.length), m)

end Verif.Model
