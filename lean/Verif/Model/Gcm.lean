import Verif.Chunks

/-!
Model of `/repo/src/modes/gcm128.c` (context: `/repo/include/wbcrypto/modes.h` lines 35-45).
The block cipher with its key is one function `Block → Block`; no cipher in the library reports
failure, so the `MPI_CHK` failure branches are not modelled.
-/
set_option autoImplicit false

namespace Verif.Model

/-- `last4` (modes.h lines 12-14). -/
def last4 : Vector (BitVec 64) 16 := #v[
  0x0000, 0x1c20, 0x3840, 0x2460, 0x7080, 0x6ca0, 0x48c0, 0x54e0,
  0xe100, 0xfd20, 0xd940, 0xc560, 0x9180, 0x8da0, 0xa9c0, 0xb5e0]

/-- `struct gcm128_context` (modes.h lines 35-45). -/
structure GcmCtx where
  len : BitVec 64
  addLen : BitVec 64
  HL : Vector (BitVec 64) 16
  HH : Vector (BitVec 64) 16
  baseEctr : Block
  y : Block
  buf : Block
  block : Block → Block

/-- `GET_UINT32_BE` (modes.h lines 16-20). -/
def getU32 (b : Block) (i : Nat) (h : i + 4 ≤ 16 := by decide) : BitVec 64 :=
  (b[i].zeroExtend 64 <<< 24) ||| (b[i + 1].zeroExtend 64 <<< 16) |||
  (b[i + 2].zeroExtend 64 <<< 8) ||| b[i + 3].zeroExtend 64

/-- The four bytes stored by `PUT_UINT32_BE` (modes.h lines 22-26). -/
def putU32 (n : BitVec 64) : Vector Byte 4 :=
  #v[(n >>> 24).truncate 8, (n >>> 16).truncate 8, (n >>> 8).truncate 8, n.truncate 8]

/-- Sixteen bytes from four `PUT_UINT32_BE` at offsets 0, 4, 8, 12. -/
def putBlock (a b c d : BitVec 64) : Block := putU32 a ++ putU32 b ++ putU32 c ++ putU32 d

/-- One 4-bit reduction step (gcm128.c lines 21-26 and 28-33): shift `z` right by four, fold the
remainder with `last4`, add table entry `n`. -/
def multStep (HL HH : Vector (BitVec 64) 16) (zh zl : BitVec 64) (n : BitVec 4) :
    BitVec 64 × BitVec 64 :=
  let rem : BitVec 4 := zl.truncate 4
  let zl := (zh <<< 60) ||| (zl >>> 4)
  let zh := zh >>> 4
  let zh := zh ^^^ (last4[rem.toFin] <<< 48)
  let zh := zh ^^^ HH[n.toFin]
  let zl := zl ^^^ HL[n.toFin]
  (zh, zl)

/-- Loop body of `gcm_mult` for index `i` (gcm128.c lines 17-33). -/
def multByte (HL HH : Vector (BitVec 64) 16) (x : Block) (z : BitVec 64 × BitVec 64) (i : Fin 16) :
    BitVec 64 × BitVec 64 :=
  let lo : BitVec 4 := x[i].truncate 4
  let hi : BitVec 4 := (x[i] >>> 4).truncate 4
  let z := if i.1 ≠ 15 then multStep HL HH z.1 z.2 lo else z
  multStep HL HH z.1 z.2 hi

/-- `gcm_mult` (gcm128.c lines 3-39). -/
def gcmMult (HL HH : Vector (BitVec 64) 16) (x : Block) : Block :=
  let lo : BitVec 4 := x[15].truncate 4
  let z := [15, 14, 13, 12, 11, 10, 9, 8, 7, 6, 5, 4, 3, 2, 1, 0].foldl
    (multByte HL HH x) (HH[lo.toFin], HL[lo.toFin])
  putBlock (z.1 >>> 32) z.1 (z.2 >>> 32) z.2

/-- State of the table construction: the two tables and the running `vh`, `vl`. -/
abbrev TabState := Vector (BitVec 64) 16 × Vector (BitVec 64) 16 × BitVec 64 × BitVec 64

/-- Body of the first loop of `WBCRYPTO_gcm_init` (gcm128.c lines 76-82). -/
def tabHalve (s : TabState) (i : Nat) : TabState :=
  let (HL, HH, vh, vl) := s
  let T : BitVec 32 := (vl &&& 1).truncate 32 * 0xe1000000#32
  let vl' := (vh <<< 63) ||| (vl >>> 1)
  let vh' := (vh >>> 1) ^^^ (T.zeroExtend 64 <<< 32)
  (HL.setIfInBounds i vl', HH.setIfInBounds i vh', vh', vl')

/-- Body of the second loop (gcm128.c lines 83-91) for one `i`. -/
def tabCombine (s : TabState) (i : Nat) : TabState :=
  let (HL, HH, _, _) := s
  let vh := HH.getD i 0
  let vl := HL.getD i 0
  ((List.range' 1 (i - 1)).foldl
      (fun t j => t.setIfInBounds (i + j) (vl ^^^ t.getD j 0)) HL,
   (List.range' 1 (i - 1)).foldl
      (fun t j => t.setIfInBounds (i + j) (vh ^^^ t.getD j 0)) HH, vh, vl)

/-- Tables built by `WBCRYPTO_gcm_init` from the hash key `h` (gcm128.c lines 63-91). -/
def gcmTables (h : Block) : Vector (BitVec 64) 16 × Vector (BitVec 64) 16 :=
  let vh := (getU32 h 0 <<< 32) ||| getU32 h 4
  let vl := (getU32 h 8 <<< 32) ||| getU32 h 12
  let HL := (Vector.replicate 16 0).set 8 vl
  let HH := (Vector.replicate 16 0).set 8 vh
  let s : TabState := [4, 2, 1].foldl tabHalve (HL, HH, vh, vl)
  let s := [2, 4, 8].foldl tabCombine s
  (s.1, s.2.1)

/-- `WBCRYPTO_gcm_init` (gcm128.c lines 41-95), allocation succeeding. -/
def gcmInit (E : Block → Block) : GcmCtx :=
  let t := gcmTables (E zeroBlock)
  { len := 0, addLen := 0, HL := t.1, HH := t.2, baseEctr := zeroBlock, y := zeroBlock,
    buf := zeroBlock, block := E }

/-- `for (i < use_len) b[i] ^= p[i]` (gcm128.c lines 125, 152). -/
def xorInto (b : Block) (p : List Byte) : Block :=
  Vector.ofFn fun i => if h : i.1 < p.length then b[i] ^^^ p[i.1] else b[i]

/-- The absorb loops (gcm128.c lines 123-129 and 150-156): xor a piece of at most 16 bytes, multiply. -/
def absorb (HL HH : Vector (BitVec 64) 16) (b : Block) (data : List Byte) : Block :=
  (chunks data).foldl (fun b p => gcmMult HL HH (xorInto b p)) b

/-- `WBCRYPTO_gcm_setiv` (gcm128.c lines 97-137). `add_len` is not reset. For an IV that is not 12
bytes long `work_buf` holds the low 32 bits of `len * 8` in its last four bytes (lines 119-120). -/
def gcmSetiv (c : GcmCtx) (iv : List Byte) : GcmCtx :=
  let y0 : Block := zeroBlock
  let y :=
    if iv.length = 12 then
      (Vector.ofFn fun i => if h : i.1 < iv.length then iv[i.1] else y0[i]).set 15 1
    else
      let work := putBlock 0 0 0 (BitVec.ofNat 64 iv.length * 8)
      gcmMult c.HL c.HH (absorb c.HL c.HH y0 iv ^^^ work)
  { c with len := 0, buf := zeroBlock, y := y, baseEctr := c.block y }

/-- `WBCRYPTO_gcm_aad` (gcm128.c lines 139-160). -/
def gcmAad (c : GcmCtx) (aad : List Byte) : GcmCtx :=
  { c with addLen := BitVec.ofNat 64 aad.length, buf := absorb c.HL c.HH c.buf aad }

/-- `for (i = 16; i > 12; i--) if (++y[i-1] != 0) break` (gcm128.c line 184). -/
def incCtr (y : Block) : (k : Nat) → k ≤ 4 → Block
  | 0, _ => y
  | k + 1, h =>
    let y' := y.set (12 + k) (y[12 + k] + 1)
    if y'[12 + k] ≠ 0 then y' else incCtr y' k (by omega)

/-- One iteration of the encryption loop (gcm128.c lines 181-204) on a piece `p`; the
accumulator is `(y, buf, out)`. -/
def encPiece (c : GcmCtx) (s : Block × Block × List Byte) (p : List Byte) : Block × Block × List Byte :=
  let (y, buf, out) := s
  let y := incCtr y 4 (by decide)
  let ectr := c.block y
  let o := List.zipWith (fun a b => a ^^^ b) ectr.toList p
  (y, gcmMult c.HL c.HH (xorInto buf o), out ++ o)

/-- One iteration of the decryption loop (gcm128.c lines 230-254): the input is absorbed. -/
def decPiece (c : GcmCtx) (s : Block × Block × List Byte) (p : List Byte) : Block × Block × List Byte :=
  let (y, buf, out) := s
  let y := incCtr y 4 (by decide)
  let ectr := c.block y
  let o := List.zipWith (fun a b => a ^^^ b) ectr.toList p
  (y, gcmMult c.HL c.HH (xorInto buf p), out ++ o)

/-- Result of an encrypt/decrypt call. -/
structure GcmResult where
  ret : Nat
  ctx : GcmCtx
  out : List Byte

/-- `len = inlen` with `int len` (gcm128.c lines 165-170): signed 32-bit value. -/
def intLen (inlen : Nat) : Int := (BitVec.ofNat 32 inlen).toInt

/-- Common frame of `WBCRYPTO_gcm_encrypt` and `WBCRYPTO_gcm_decrypt` (gcm128.c lines 162-209,
211-259). `inlen` is the length of `inp`; the loop `while (len > 0)` consumes the first `len` bytes if
`len` is positive. `out` is the whole output object; writing past it is undefined. -/
def gcmCrypt (piece : GcmCtx → Block × Block × List Byte → List Byte → Block × Block × List Byte)
    (c : GcmCtx) (inp out : List Byte) (outlen : Nat) : Option GcmResult :=
  if outlen < inp.length then some { ret := 0, ctx := c, out := out }
  else
    let len := intLen inp.length
    let data := inp.take len.toNat
    if data.length ≤ out.length then
      let (y, buf, o) := (chunks data).foldl (piece c) (c.y, c.buf, [])
      some { ret := 1,
             ctx := { c with len := c.len + BitVec.ofInt 64 len, y := y, buf := buf },
             out := o ++ out.drop o.length }
    else none

/-- `WBCRYPTO_gcm_encrypt` (gcm128.c lines 162-209). -/
def gcmEncrypt := gcmCrypt encPiece

/-- `WBCRYPTO_gcm_decrypt` (gcm128.c lines 211-259). -/
def gcmDecrypt := gcmCrypt decPiece

/-- `WBCRYPTO_gcm_finish` (gcm128.c lines 261-285): `n` tag bytes and the new context; more than 16 bytes would be
read past `base_ectr` (undefined). -/
def gcmFinish (c : GcmCtx) (n : Nat) : Option (List Byte × GcmCtx) :=
  if 16 < n then none
  else
    let origLen := c.len * 8
    let origAddLen := c.addLen * 8
    if origLen ≠ 0 ∨ origAddLen ≠ 0 then
      let work := putBlock (origAddLen >>> 32) origAddLen (origLen >>> 32) origLen
      let buf := gcmMult c.HL c.HH (c.buf ^^^ work)
      some ((c.baseEctr ^^^ buf).toList.take n, { c with buf := buf })
    else some (c.baseEctr.toList.take n, c)

end Verif.Model
