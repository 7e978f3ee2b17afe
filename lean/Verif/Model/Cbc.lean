import Verif.Model.Mem
import Verif.Model.Padding

/-!
Model of `/repo/src/modes/cbc128.c` and of the CBC wrappers in `/repo/src/sm4/sm4_modes.c`.

Buffers are byte lists whose length is the size of the C object.  Word-wise loops over
`size_t` (cbc128.c lines 19-21, 70-71, 86-90) are written as one 16-byte xor.
-/
set_option autoImplicit false

namespace Verif.Model

/-- Observable effect of a CBC call: return value, output buffer, reported length (`none` when
`*use_olen` was not assigned) and the caller's `ivec` afterwards. -/
structure CbcResult where
  ret : Nat
  out : List Byte
  useOlen : Option (BitVec 64)
  ivec : Block
  deriving DecidableEq

/-- Main loop of `WBCRYPTO_cbc128_encrypt` (cbc128.c lines 18-27); `k` counts the remaining full
blocks, `pos` is the common offset of `afin` and `out`. The pointer `iv` (line 16, 23) points to 16
bytes not overwritten before their use; its content is passed by value. -/
def cbcEncLoop (E : Block → Block) (afin : List Byte) :
    Nat → Nat → Block → List Byte → Option (List Byte)
  | 0, _, _, out => some out
  | k + 1, pos, iv, out => do
    let p ← rdBlk afin pos
    let c := E (p ^^^ iv)
    let out ← wrBlk out pos c
    cbcEncLoop E afin k (pos + 16) c out

/-- `WBCRYPTO_cbc128_encrypt` (cbc128.c lines 3-44).
`moved` says whether the `realloc` inside `pkcs7_merge` (padding.c line 49) returned a different
address: the caller keeps the old pointer `afin` (lines 8-9), so any read of it is then undefined.
The tail loop (lines 28-40) is unreachable because `len` is a multiple of 16.
`inlen` is the length of `inp`. `max_olen < len` (line 10) compares as `size_t`; `len` is
non-negative whenever `pkcs7_merge` is defined. -/
def cbcEncrypt (E : Block → Block) (moved : Bool) (inp out : List Byte) (maxOlen : Nat)
    (ivec : Block) : Option CbcResult := do
  let afin ← pkcs7Merge inp
  let len := afin.length
  if maxOlen < len then
    some { ret := 0, out := out, useOlen := none, ivec := ivec }
  else
    if moved && decide (len ≠ 0) then none
    else do
      let out ← cbcEncLoop E afin (len / 16) 0 ivec out
      some { ret := 1, out := out, useOlen := some (BitVec.ofNat 64 len), ivec := ivec }

/-- Loop for `in != out` (cbc128.c lines 66-76). Returns `iv` and the output. -/
def cbcDecLoop (D : Block → Block) (inp : List Byte) :
    Nat → Nat → Block → List Byte → Option (Block × List Byte)
  | 0, _, iv, out => some (iv, out)
  | k + 1, pos, iv, out => do
    let c ← rdBlk inp pos
    let out ← wrBlk out pos (D c ^^^ iv)
    cbcDecLoop D inp k (pos + 16) c out

/-- Loop for `in == out` (cbc128.c lines 81-94): one buffer, `ivec` updated in every iteration. -/
def cbcDecLoopInPlace (D : Block → Block) :
    Nat → Nat → Block → List Byte → Option (Block × List Byte)
  | 0, _, iv, buf => some (iv, buf)
  | k + 1, pos, iv, buf => do
    let c ← rdBlk buf pos
    let tmp := D c
    let buf ← wrBlk buf pos (tmp ^^^ iv)
    cbcDecLoopInPlace D k (pos + 16) c buf

/-- Byte loop of the tail (cbc128.c lines 101-105) for `n, n+1, ..`: `left` more iterations;
`ivec[n]` takes the input byte, the output gets `tmp[n] ^ ivec[n]`. -/
def cbcDecTailBytes (tmp c : Block) (pos : Nat) :
    Nat → Nat → Block → List Byte → Option (Block × List Byte)
  | 0, _, iv, out => some (iv, out)
  | left + 1, n, iv, out => do
    if h : n < 16 then
      let out ← wrByte out (pos + n) (tmp[n] ^^^ iv[n])
      cbcDecTailBytes tmp c pos left (n + 1) (iv.set n c[n]) out
    else none

/-- Tail loop (cbc128.c lines 98-114), reached with `len < 16`, so it runs at most once (`len` here is the
number of bytes the byte loop handles): 16 input
bytes are read whatever `len` is. The input block is read before any output byte is written,
and (line 108) `in[n]` for `n ≥ len` is not overwritten by the loop before it. -/
def cbcDecTail (D : Block → Block) (inp : List Byte) (pos len : Nat) (iv : Block)
    (out : List Byte) : Option (Block × List Byte) :=
  if len = 0 then some (iv, out)
  else do
    let c ← rdBlk inp pos
    let (_, out) ← cbcDecTailBytes (D c) c pos len 0 iv out
    some (c, out)

/-- `len = inlen` (cbc128.c line 54) keeps the low 32 bits of `inlen` as a signed number.  The result is the
number of iterations of the loop `len >= 16` (lines 66, 81) and of the byte loop of the tail (lines 98-105).
For a negative `len` the first loop does not run, the second is entered (`while (len)`), its bound `n < len`
is evaluated in `size_t` (so all 16 bytes are handled), and `len <= 16` leaves it. -/
def cbcCounts (inlen : Nat) : Nat × Nat :=
  if inlen % 2 ^ 32 < 2 ^ 31 then (inlen % 2 ^ 32 / 16, inlen % 2 ^ 32 % 16) else (0, 16)

/-- `WBCRYPTO_cbc128_decrypt` with `in != out` (not overlapping) (cbc128.c lines 46-118). `inlen` may be smaller
than the object `inp` points to. -/
def cbcDecrypt (D : Block → Block) (inp : List Byte) (inlen : Nat) (out : List Byte) (maxOlen : Nat)
    (ivec : Block) : Option CbcResult :=
  if maxOlen < inlen then some { ret := 0, out := out, useOlen := none, ivec := ivec }
  else do
    let (iv, out) ← cbcDecLoop D inp (cbcCounts inlen).1 0 ivec out
    let (iv, out) ← cbcDecTail D inp ((cbcCounts inlen).1 * 16) (cbcCounts inlen).2 iv out
    some { ret := 1, out := out, useOlen := none, ivec := iv }

/-- `WBCRYPTO_cbc128_decrypt` with `in == out` (cbc128.c lines 46-118). -/
def cbcDecryptInPlace (D : Block → Block) (buf : List Byte) (inlen : Nat) (maxOlen : Nat)
    (ivec : Block) : Option CbcResult :=
  if maxOlen < inlen then some { ret := 0, out := buf, useOlen := none, ivec := ivec }
  else do
    let (iv, buf) ← cbcDecLoopInPlace D (cbcCounts inlen).1 0 ivec buf
    let (iv, buf) ← cbcDecTail D buf ((cbcCounts inlen).1 * 16) (cbcCounts inlen).2 iv buf
    some { ret := 1, out := buf, useOlen := none, ivec := iv }

/-- `WBCRYPTO_sm4_cbc_decrypt` (sm4_modes.c lines 17-30; the wbsm4 wrapper, wbsm4_modes.c lines
17-30, is the same): after the generic call `*use_olen` is computed from the last output byte of
the first `inlen` bytes (reading it outside `out` is undefined). -/
def cbcDecryptWrapper (D : Block → Block) (inp : List Byte) (inlen : Nat) (out : List Byte)
    (maxOlen : Nat) (ivec : Block) : Option CbcResult := do
  let r ← cbcDecrypt D inp inlen out maxOlen ivec
  if r.ret = 0 then some r
  else if r.out.length < inlen then none
  else do
    let n ← separateLength (r.out.take inlen)
    some { r with useOlen := some n }

end Verif.Model
