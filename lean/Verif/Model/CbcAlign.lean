import Verif.Model.CbcMem
import Verif.Model.EndianFile
import Verif.Model.WbTrace

/-!
The functions of `/repo/src/modes/cbc128.c` with a record of the addresses at which a `size_t` is loaded or stored through a cast
pointer, for a machine whose `size_t` has `W` bytes (`W` divides 16). C allows such an access only at a multiple of the alignment of
`size_t`; that alignment is taken to be `W`. Addresses: the caller's input `p`, output `q` and IV `v`, the private copy of the padded
input `f`. As in `CbcMem` the IV is not part of the memory the input and output are in.
-/
set_option autoImplicit false

namespace Verif.Model

/-- The addresses of the words of the 16 bytes at `a`. -/
def wordsAt (W a : Nat) : List Nat := (List.range (16 / W)).map fun n => a + n * W

/-- `*(size_t *) q ^= *(size_t *) p` with words of `W` bytes. -/
def xorWordTr (W : Nat) (m : Mem) (q p : Nat) : WithLog Nat Mem :=
  ⟨fun a => if q ≤ a ∧ a < q + W then m a ^^^ m (p + (a - q)) else m a, [q, p]⟩

/-- `out_t[n] ^= iv_t[n]` for all words of a block (cbc128.c lines 70-71). -/
def xorIvTr (W v : Nat) (ivec : Block) (m : Mem) (q : Nat) : IvPtr → WithLog Nat Mem
  | .ivec => ⟨m.putBlk q (m.blk q ^^^ ivec), (List.range (16 / W)).flatMap fun n => [q + n * W, v + n * W]⟩
  | .at p => (List.range (16 / W)).foldlM (fun m n => xorWordTr W m (q + n * W) (p + n * W)) m

/-- Loop for `in != out` (cbc128.c lines 66-76): `k` iterations. -/
def cbcDecLoopTr (W v : Nat) (D : Block → Block) (ivec : Block) : Nat → Nat → Nat → IvPtr → Mem → WithLog Nat (IvPtr × Mem)
  | 0, _, _, iv, m => pure (iv, m)
  | k + 1, p, q, iv, m => do
    let m ← xorIvTr W v ivec (m.putBlk q (D (m.blk p))) q iv
    cbcDecLoopTr W v D ivec k (p + 16) (q + 16) (.at p) m

/-- Loop for `in == out` (cbc128.c lines 81-94): for each word a load of the input, a load of the IV, a store to the output (which is
the input) and a store to the IV; `tmp.t` is a union with a `size_t`. -/
def cbcDecLoopSameTr (W v : Nat) (D : Block → Block) : Nat → Nat → Block → Mem → WithLog Nat (Block × Mem)
  | 0, _, iv, m => pure (iv, m)
  | k + 1, p, iv, m => do
    let s ← (⟨(m.blk p, m.putBlk p (D (m.blk p) ^^^ iv)),
      (List.range (16 / W)).flatMap fun n => [p + n * W, v + n * W, p + n * W, v + n * W]⟩ : WithLog Nat (Block × Mem))
    cbcDecLoopSameTr W v D k (p + 16) s.1 s.2

/-- `WBCRYPTO_cbc128_decrypt` (cbc128.c lines 46-118); the tail works on bytes. -/
def cbcDecryptTr (W v : Nat) (D : Block → Block) (m : Mem) (p q inlen maxOlen : Nat) (ivec : Block) : WithLog Nat (Nat × Mem × Block) :=
  if maxOlen < inlen then pure (0, m, ivec)
  else do
    let k := (cbcCounts inlen).1
    let s ← if p = q then cbcDecLoopSameTr W v D k p ivec m
      else do
        let r ← cbcDecLoopTr W v D ivec k p q .ivec m
        pure (ivBlk ivec r.2 r.1, r.2)
    let t := cbcDecTailMem D (p + k * 16) (q + k * 16) (cbcCounts inlen).2 s.1 s.2
    pure (1, t.2, t.1)

/-- The address of what `iv` points to. -/
def ivAddr (v : Nat) : IvPtr → Nat
  | .ivec => v
  | .at p => p

/-- Main loop of `WBCRYPTO_cbc128_encrypt` (cbc128.c lines 18-27). -/
def cbcEncLoopTr (W v f : Nat) (E : Block → Block) (ivec : Block) (afin : List Byte) :
    Nat → Nat → Nat → IvPtr → Mem → WithLog Nat (Option Mem)
  | 0, _, _, _, m => pure (some m)
  | k + 1, pos, q, iv, m =>
    match rdBlk afin pos with
    | none => pure none
    | some a => do
      let m ← (⟨m.putBlk q (a ^^^ ivBlk ivec m iv),
        (List.range (16 / W)).flatMap fun n => [f + pos + n * W, ivAddr v iv + n * W, q + n * W]⟩ : WithLog Nat Mem)
      cbcEncLoopTr W v f E ivec afin k (pos + 16) (q + 16) (.at q) (m.putBlk q (E (m.blk q)))

/-- `WBCRYPTO_cbc128_encrypt` (cbc128.c lines 3-44). -/
def cbcEncryptTr (W v f : Nat) (E : Block → Block) (moved : Bool) (m : Mem) (p q inlen maxOlen : Nat) (ivec : Block) :
    WithLog Nat (Option (Nat × Option (BitVec 64) × Mem)) :=
  match pkcs7Merge ((List.range inlen).map fun i => m (p + i)) with
  | none => pure none
  | some afin =>
    if maxOlen < afin.length then pure (some (0, none, m))
    else if moved && decide (afin.length ≠ 0) then pure none
    else do
      let r ← cbcEncLoopTr W v f E ivec afin (afin.length / 16) 0 q .ivec m
      pure (r.map fun m => (1, some (BitVec.ofNat 64 afin.length), m))

/-- The addresses at which `WBCRYPTO_ff1_encrypt` and `WBCRYPTO_ff1_decrypt` store an `unsigned int` into the array `P` at `a`
(ff1.c lines 44-61, 195-212; ff1_cmac.c lines 70-87, 241-258). -/
def ff1PStores (o : ByteOrder) (a : Nat) : List Nat := if isLittle o then [] else [a + 3, a + 8, a + 12]

end Verif.Model
