import Verif.Model.CbcMem

/-!
The functions of `/repo/src/modes/cbc128.c` with the caller's `ivec` in the same memory as the input and the output, at address `v`
(in `CbcMem` it is kept apart). A `size_t` has 8 bytes and may be at any address. `memcpy` of 16 bytes between regions that overlap
partly is undefined (`none`); from a region to itself it leaves the memory as it is, as every known implementation does.
-/
set_option autoImplicit false

namespace Verif.Model

/-- `memcpy(d, s, 16)`. -/
def Mem.cpy16 (m : Mem) (d s : Nat) : Option Mem :=
  if d = s ∨ d + 16 ≤ s ∨ s + 16 ≤ d then some (m.putBlk d (m.blk s)) else none

/-- Loop for `in != out` (cbc128.c lines 66-76): `k` iterations, `iv` is an address. -/
def cbcDecLoopIv (D : Block → Block) : Nat → Nat → Nat → Nat → Mem → Nat × Mem
  | 0, _, _, iv, m => (iv, m)
  | k + 1, p, q, iv, m =>
    cbcDecLoopIv D k (p + 16) (q + 16) p (((m.putBlk q (D (m.blk p))).xorWord q iv).xorWord (q + 8) (iv + 8))

/-- Body of the word loop for `in == out` (cbc128.c lines 87-89) for word `n`: `c = in_t[n]; out_t[n] = tmp.t[n] ^ ivec_t[n];
ivec_t[n] = c`. -/
def cbcSameWordIv (tmp : Block) (p v : Nat) (m : Mem) (n : Nat) : Mem :=
  let m1 : Mem := fun a => if p + 8 * n ≤ a ∧ a < p + 8 * n + 8 then tmp.toList.getD (a - p) 0 ^^^ m (v + (a - p)) else m a
  fun a => if v + 8 * n ≤ a ∧ a < v + 8 * n + 8 then m (p + (a - v)) else m1 a

/-- Loop for `in == out` (cbc128.c lines 81-94). -/
def cbcDecLoopSameIv (D : Block → Block) (v : Nat) : Nat → Nat → Mem → Mem
  | 0, _, m => m
  | k + 1, p, m =>
    let tmp := D (m.blk p)
    cbcDecLoopSameIv D v k (p + 16) (cbcSameWordIv tmp p v (cbcSameWordIv tmp p v m 0) 1)

/-- Tail (cbc128.c lines 98-114): the byte loop (lines 101-105), then the rest of `ivec` (lines 107-108). -/
def cbcDecTailIv (D : Block → Block) (v p q len : Nat) (m : Mem) : Mem :=
  if len = 0 then m
  else
    let tmp := D (m.blk p)
    let s := ((List.finRange 16).take len).foldl
      (fun (m : Mem) (n : Fin 16) => (m.put (q + n.1) (tmp[n] ^^^ m (v + n.1))).put (v + n.1) (m (p + n.1))) m
    ((List.finRange 16).drop len).foldl (fun (m : Mem) (n : Fin 16) => m.put (v + n.1) (m (p + n.1))) s

/-- `WBCRYPTO_cbc128_decrypt` (cbc128.c lines 46-118) with `in = p`, `out = q` and `ivec = v`: return code and memory. -/
def cbcDecryptIv (D : Block → Block) (m : Mem) (p q v inlen maxOlen : Nat) : Option (Nat × Mem) :=
  if maxOlen < inlen then some (0, m)
  else
    let k := (cbcCounts inlen).1
    let s := if p = q then some (cbcDecLoopSameIv D v k p m)
      else
        let r := cbcDecLoopIv D k p q v m
        r.2.cpy16 v r.1
    s.map fun m => (1, cbcDecTailIv D v (p + k * 16) (q + k * 16) (cbcCounts inlen).2 m)

/-- `*(size_t *)(out + n) = *(size_t *)(afin + n) ^ *(size_t *)(iv + n)` (cbc128.c lines 20-21) for word `n`; `a` is the block of
`afin`. -/
def cbcEncWordIv (a : Block) (q iv : Nat) (m : Mem) (n : Nat) : Mem :=
  fun x => if q + 8 * n ≤ x ∧ x < q + 8 * n + 8 then a.toList.getD (x - q) 0 ^^^ m (iv + (x - q)) else m x

/-- Main loop of `WBCRYPTO_cbc128_encrypt` (cbc128.c lines 18-27). -/
def cbcEncLoopIv (E : Block → Block) (afin : List Byte) : Nat → Nat → Nat → Nat → Mem → Option Mem
  | 0, _, _, _, m => some m
  | k + 1, pos, q, iv, m =>
    (rdBlk afin pos).bind fun a =>
    let m := cbcEncWordIv a q iv (cbcEncWordIv a q iv m 0) 1
    cbcEncLoopIv E afin k (pos + 16) (q + 16) q (m.putBlk q (E (m.blk q)))

/-- `WBCRYPTO_cbc128_encrypt` (cbc128.c lines 3-44) with `in = p`, `out = q` and `ivec = v`. `moved` as in `cbcEncrypt`. -/
def cbcEncryptIv (E : Block → Block) (moved : Bool) (m : Mem) (p q v inlen maxOlen : Nat) :
    Option (Nat × Option (BitVec 64) × Mem) :=
  (pkcs7Merge ((List.range inlen).map fun i => m (p + i))).bind fun afin =>
  if maxOlen < afin.length then some (0, none, m)
  else if moved && decide (afin.length ≠ 0) then none
  else (cbcEncLoopIv E afin (afin.length / 16) 0 q v m).map fun m =>
    (1, some (BitVec.ofNat 64 afin.length), m)

end Verif.Model
