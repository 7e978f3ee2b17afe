import Verif.Model.Cbc
import Verif.Model.GcmFile
import Verif.Model.GcmParallel

/-!
The modes of operation with a block cipher that can report failure. `block128_f` (`/repo/include/wbcrypto/modes.h`) returns an
`int`; `WBCRYPTO_MPI_CHK` (`/repo/include/wbcrypto/error.h` lines 31-35) jumps to `cleanup` if it is zero. The ciphers of the library
always return 1, but the modes take any function. The calls are numbered by the caller of the model.
-/
set_option autoImplicit false

namespace Verif.Model

/-- What goes wrong: for the number of the call, its input and what the output buffer held before, `none` if the call succeeds,
`some b` if it reports failure and leaves `b` in the output buffer. -/
abbrev Faults := Nat → Block → Block → Option Block

/-- One call of the block cipher: whether it returned non-zero, and the output buffer afterwards. -/
def callF (E : Block → Block) (w : Faults) (n : Nat) (x old : Block) : Bool × Block :=
  match w n x old with
  | none => (true, E x)
  | some b => (false, b)

/-- `WBCRYPTO_gcm_init` (gcm128.c lines 41-95): the call (line 61) is the only one that can fail; `cleanup` then gives `NULL`
(`none`). -/
def gcmInitF (E : Block → Block) (w : Faults) (n : Nat) : Option GcmCtx :=
  if (callF E w n zeroBlock zeroBlock).1 then some (gcmInit E) else none

/-- `WBCRYPTO_gcm_setiv` (gcm128.c lines 97-137): the fields are set before the only call (line 133), which writes into
`base_ectr`. -/
def gcmSetivF (w : Faults) (n : Nat) (c : GcmCtx) (iv : List Byte) : Nat × GcmCtx :=
  let c' := gcmSetiv c iv
  let r := callF c.block w n c'.y c.baseEctr
  (if r.1 then 1 else 0, { c' with baseEctr := r.2 })

/-- Result of the loop: whether no call failed, number of the next call, context, bytes written. -/
structure CryptF where
  ok : Bool
  next : Nat
  ctx : GcmCtx
  out : List Byte

/-- The loops of gcm128.c lines 181-204 (`dec = false`) and 230-254 (`dec = true`): the counter is advanced before the call, the
output is written and absorbed behind it. `e` is the content of the local array `ectr`. -/
def cryptLoopF (dec : Bool) (w : Faults) : Nat → GcmCtx → Block → List (List Byte) → CryptF
  | n, c, _, [] => { ok := true, next := n, ctx := c, out := [] }
  | n, c, e, p :: ps =>
    let y := incCtr c.y 4 (by decide)
    let r := callF c.block w n y e
    if r.1 then
      let o := List.zipWith (fun a b => a ^^^ b) r.2.toList p
      let buf := gcmMult c.HL c.HH (xorInto c.buf (if dec then p else o))
      let s := cryptLoopF dec w (n + 1) { c with y := y, buf := buf } r.2 ps
      { s with out := o ++ s.out }
    else { ok := false, next := n + 1, ctx := { c with y := y }, out := [] }

/-- `WBCRYPTO_gcm_encrypt` (gcm128.c lines 162-209, `dec = false`) and `WBCRYPTO_gcm_decrypt` (lines 211-259, `dec = true`), as
`gcmCrypt`: `ctx->len` is increased before the loop (lines 177, 226). `e` is the uninitialised `ectr`. Also gives the number of the
next call. -/
def gcmCryptF (dec : Bool) (w : Faults) (n : Nat) (c : GcmCtx) (e : Block) (inp out : List Byte) (outlen : Nat) :
    Option (GcmResult × Nat) :=
  if outlen < inp.length then some ({ ret := 0, ctx := c, out := out }, n)
  else
    let len := intLen inp.length
    let data := inp.take len.toNat
    let s := cryptLoopF dec w n { c with len := c.len + BitVec.ofInt 64 len } e (chunks data)
    if s.out.length ≤ out.length then
      some ({ ret := if s.ok then 1 else 0, ctx := s.ctx, out := s.out ++ out.drop s.out.length }, s.next)
    else none

/-- The loops of gcmfile.c lines 68-77 and 149-159: what `gcm_encrypt`/`gcm_decrypt` return is not looked at, and all
`block_size` bytes of the zeroed buffer are written. `e` gives the uninitialised `ectr` by the number of the first call. -/
def fileLoopF (dec : Bool) (w : Faults) (e : Nat → Block) : Nat → GcmCtx → List (List Byte) → Option (List Byte × GcmCtx × Nat)
  | n, c, [] => some ([], c, n)
  | n, c, p :: ps => do
    let r ← gcmCryptF dec w n c (e n) p (List.replicate 128 0) p.length
    let (o, c', n') ← fileLoopF dec w e r.2 r.1.ctx ps
    return (r.1.out.take p.length ++ o, c', n')

/-- `WBCRYPTO_gcmfile_encrypt` (gcmfile.c lines 35-109), as `gcmfileEncrypt`. -/
def gcmfileEncryptF (w : Faults) (e : Nat → Block) (n : Nat) (c : GcmCtx) (junk : Vector Byte 4) (fs : FS) (inp out : Path) :
    Option FileResult := do
  let tmp := tmpPath out
  let _ ← fs inp
  let log := [FsOp.trunc tmp, FsOp.trunc out]
  let data ← applyOps fs log inp
  let size := sizeBuf data.length junk
  let (ct, c, _) ← fileLoopF false w e n c (fpieces data)
  let (tag, c) ← gcmFinish c 16
  return { ret := 1, ctx := c, log := log ++ ct.map (FsOp.put tmp) ++
    (tag ++ size ++ (fpieces ct).flatten).map (FsOp.put out) ++ [FsOp.remove tmp] }

/-- `WBCRYPTO_gcmfile_decrypt` (gcmfile.c lines 111-172), as `gcmfileDecrypt`. -/
def gcmfileDecryptF (w : Faults) (e : Nat → Block) (n : Nat) (c : GcmCtx) (fs : FS) (inp out : Path) : Option FileResult := do
  let content ← fs inp
  if inp = out then none
  else if content.take 16 = [] then none
  else
    let size := (content.drop 16).take 8
    if size = [] then none
    else
      let body := content.drop 24
      let (_, c) ← gcmFinish c 16
      let (pt, c, _) ← fileLoopF true w e n c (fpieces body)
      if 2 ^ 31 ≤ body.length then none
      else
        let log := FsOp.trunc out :: pt.map (FsOp.put out)
        return { ret := if (body.length : Int) = fileSize size then 1 else 0, ctx := c, log := log }

/-- Main loop of `WBCRYPTO_cbc128_encrypt` (cbc128.c lines 18-27): the xor is written to the output, then the call works on the
output in place. Whether no call failed, and the output. -/
def cbcEncLoopF (E : Block → Block) (w : Faults) (afin : List Byte) :
    Nat → Nat → Nat → Block → List Byte → Option (Bool × List Byte)
  | 0, _, _, _, out => some (true, out)
  | k + 1, n, pos, iv, out => do
    let p ← rdBlk afin pos
    let r := callF E w n (p ^^^ iv) (p ^^^ iv)
    let out ← wrBlk out pos r.2
    if r.1 then cbcEncLoopF E w afin k (n + 1) (pos + 16) r.2 out else some (false, out)

/-- `WBCRYPTO_cbc128_encrypt` (cbc128.c lines 3-44), as `cbcEncrypt`: `*use_olen` is set (line 13) before the first call. -/
def cbcEncryptF (E : Block → Block) (w : Faults) (n : Nat) (moved : Bool) (inp out : List Byte) (maxOlen : Nat)
    (ivec : Block) : Option CbcResult := do
  let afin ← pkcs7Merge inp
  let len := afin.length
  if maxOlen < len then
    some { ret := 0, out := out, useOlen := none, ivec := ivec }
  else
    if moved && decide (len ≠ 0) then none
    else do
      let r ← cbcEncLoopF E w afin (len / 16) n 0 ivec out
      some { ret := if r.1 then 1 else 0, out := r.2, useOlen := some (BitVec.ofNat 64 len), ivec := ivec }

/-- Loop for `in != out` (cbc128.c lines 66-76): the call writes the output, which is xored behind it. Whether no call failed,
`iv` and the output. -/
def cbcDecLoopF (D : Block → Block) (w : Faults) (inp : List Byte) :
    Nat → Nat → Nat → Block → List Byte → Option (Bool × Block × List Byte)
  | 0, _, _, iv, out => some (true, iv, out)
  | k + 1, n, pos, iv, out => do
    let c ← rdBlk inp pos
    let old ← rdBlk out pos
    let r := callF D w n c old
    if r.1 then do
      let out ← wrBlk out pos (r.2 ^^^ iv)
      cbcDecLoopF D w inp k (n + 1) (pos + 16) c out
    else do
      let out ← wrBlk out pos r.2
      some (false, iv, out)

/-- Loop for `in == out` (cbc128.c lines 81-94): the call writes the local `tmp` (`t` is what it holds). -/
def cbcDecLoopInPlaceF (D : Block → Block) (w : Faults) :
    Nat → Nat → Nat → Block → Block → List Byte → Option (Bool × Block × List Byte)
  | 0, _, _, _, iv, buf => some (true, iv, buf)
  | k + 1, n, pos, t, iv, buf => do
    let c ← rdBlk buf pos
    let r := callF D w n c t
    if r.1 then do
      let buf ← wrBlk buf pos (r.2 ^^^ iv)
      cbcDecLoopInPlaceF D w k (n + 1) (pos + 16) r.2 c buf
    else some (false, iv, buf)

/-- `WBCRYPTO_cbc128_decrypt` with `in != out` (cbc128.c lines 46-118) for whole blocks (`inlen % 16 = 0` and `inlen < 2^31`; for other lengths
`none`: not modelled here): after a failure `memcpy(ivec, iv, 16)` (line 78) is not reached. -/
def cbcDecryptF (D : Block → Block) (w : Faults) (n : Nat) (inp : List Byte) (inlen : Nat) (out : List Byte) (maxOlen : Nat)
    (ivec : Block) : Option CbcResult :=
  if maxOlen < inlen then some { ret := 0, out := out, useOlen := none, ivec := ivec }
  else if inlen % 16 ≠ 0 ∨ 2 ^ 31 ≤ inlen then none
  else do
    let (ok, iv, out) ← cbcDecLoopF D w inp (inlen / 16) n 0 ivec out
    some { ret := if ok then 1 else 0, out := out, useOlen := none, ivec := if ok then iv else ivec }

/-- The same with `in == out`: `ivec` itself is updated in every iteration (lines 86-90). `t` is the uninitialised `tmp`. -/
def cbcDecryptInPlaceF (D : Block → Block) (w : Faults) (n : Nat) (t : Block) (buf : List Byte) (inlen : Nat) (maxOlen : Nat)
    (ivec : Block) : Option CbcResult :=
  if maxOlen < inlen then some { ret := 0, out := buf, useOlen := none, ivec := ivec }
  else if inlen % 16 ≠ 0 ∨ 2 ^ 31 ≤ inlen then none
  else do
    let (ok, iv, buf) ← cbcDecLoopInPlaceF D w (inlen / 16) n 0 t ivec buf
    some { ret := if ok then 1 else 0, out := buf, useOlen := none, ivec := iv }

/-- Configuration of the region of `WBCRYPTO_gcm_parallel_encrypt` (gcm_parallel.c lines 13-31) as `parCfg`: what `block` returns (line
46) is not looked at. `e i` is what the array `ectr` of iteration `i` holds before the call; call `n + i` belongs to iteration `i`. -/
def parCfgF (sh : Bool) (w : Faults) (n : Nat) (e : Nat → Block) (c : GcmCtx) (inbuf : List Byte) (len : Nat) : ParCfg :=
  { shared := sh,
    ectr := fun i => (callF c.block w (n + i) ((yArr c.y (parBlocks len)).1.getD i zeroBlock) (e i)).2, inp := inbuf,
    len := len, nb := parBlocks len }

end Verif.Model
