import Verif.Model.Wbaes
import Verif.Model.Gcm

/-!
Model of the white-box GCM modes: `/repo/src/wbaes/wbaes_wbgcm_ee_init.c`, `wbaes_wbgcm_ee_mode.c`,
`wbaes_wbgcm_mask_init.c` and `wbaes_wbgcm_mask_mode.c`.

The two mode files have the same text except for the table lookups that replace the xor of the counter-mode output.
They are modelled once.  `block` is the encoded cipher as the mode sees it: `aux_..._encrypt` (ee), or
`aux_..._encrypt` followed by `GBOX_TypeII` (mask; the code always applies them together).  `box i a e` is the lookup
that combines the data byte `a` with the encoded byte `e` at position `i`.
-/
set_option autoImplicit false

namespace Verif.Model

/-- `struct wbgcm_ee_context` / `struct wbgcm_mask_context` (wbaes_wbgcm_ee.h lines 32-42, wbaes_wbgcm_mask.h lines
38-48): the same fields as `struct gcm128_context`, and the lookup found through `key`. -/
structure WbGcmCtx where
  g : GcmCtx
  box : Fin 16 → Byte → Byte → Byte

/-- `..._init` (ee_mode.c lines 38-97, mask_mode.c lines 38-106): `h` is the hash key the tables are built from. -/
def wbgcmInit (block : Block → Block) (box : Fin 16 → Byte → Byte → Byte) (h : Block) : WbGcmCtx :=
  let t := gcmTables h
  { g := { len := 0, addLen := 0, HL := t.1, HH := t.2, baseEctr := zeroBlock, y := zeroBlock, buf := zeroBlock,
           block := block }
    box := box }

/-- `..._setiv` (ee_mode.c lines 99-134, mask_mode.c lines 108-146): the text of `WBCRYPTO_gcm_setiv`; `base_ectr`
stays encoded. -/
def wbgcmSetiv (c : WbGcmCtx) (iv : List Byte) : WbGcmCtx := { c with g := gcmSetiv c.g iv }

/-- `..._aad` (ee_mode.c lines 136-153, mask_mode.c lines 148-166): the text of `WBCRYPTO_gcm_aad`. -/
def wbgcmAad (c : WbGcmCtx) (aad : List Byte) : WbGcmCtx := { c with g := gcmAad c.g aad }

/-- The inner loops (ee_mode.c lines 183-194, mask_mode.c lines 200-211): `out[i]` for `i < use_len`. -/
def boxPiece (box : Fin 16 → Byte → Byte → Byte) (ectr : Block) (p : List Byte) : List Byte :=
  List.ofFn fun i : Fin (min 16 p.length) => box ⟨i.1, by omega⟩ (p[i.1]'(by omega)) (ectr[i.1]'(by omega))

/-- One iteration of the encryption loop (ee_mode.c lines 172-201, mask_mode.c lines 185-219): the output is hashed. -/
def wbEncPiece (c : WbGcmCtx) (s : Block × Block × List Byte) (p : List Byte) : Block × Block × List Byte :=
  let (y, buf, out) := s
  let y := incCtr y 4 (by decide)
  let o := boxPiece c.box (c.g.block y) p
  (y, gcmMult c.g.HL c.g.HH (xorInto buf o), out ++ o)

/-- One iteration of the decryption loop (ee_mode.c lines 222-252, mask_mode.c lines 240-274): the input is hashed. -/
def wbDecPiece (c : WbGcmCtx) (s : Block × Block × List Byte) (p : List Byte) : Block × Block × List Byte :=
  let (y, buf, out) := s
  let y := incCtr y 4 (by decide)
  let o := boxPiece c.box (c.g.block y) p
  (y, gcmMult c.g.HL c.g.HH (xorInto buf p), out ++ o)

structure WbGcmResult where
  ret : Int
  ctx : WbGcmCtx
  out : List Byte

/-- Frame of `..._encrypt` and `..._decrypt` (ee_mode.c lines 155-254, mask_mode.c lines 168-276): -1 if `outlen < inlen`,
otherwise `int len = inlen` bytes are processed; writing past the output object is undefined. -/
def wbgcmCrypt (piece : WbGcmCtx → Block × Block × List Byte → List Byte → Block × Block × List Byte)
    (c : WbGcmCtx) (inp out : List Byte) (outlen : Nat) : Option WbGcmResult :=
  if outlen < inp.length then some { ret := -1, ctx := c, out := out }
  else
    let len := intLen inp.length
    let data := inp.take len.toNat
    if data.length ≤ out.length then
      let (y, buf, o) := (chunks data).foldl (piece c) (c.g.y, c.g.buf, [])
      some { ret := 1
             ctx := { c with g := { c.g with len := c.g.len + BitVec.ofInt 64 len, y := y, buf := buf } }
             out := o ++ out.drop o.length }
    else none

def wbgcmEncrypt := wbgcmCrypt wbEncPiece
def wbgcmDecrypt := wbgcmCrypt wbDecPiece

/-- `..._finish` (ee_mode.c lines 256-284, mask_mode.c lines 278-307): `n` tag bytes; more than 16 are undefined.  When
nothing has been processed the tag is the encoded `base_ectr`. -/
def wbgcmFinish (c : WbGcmCtx) (n : Nat) : Option (List Byte × WbGcmCtx) :=
  if 16 < n then none
  else
    let origLen := c.g.len * 8
    let origAddLen := c.g.addLen * 8
    if origLen ≠ 0 ∨ origAddLen ≠ 0 then
      let work := putBlock (origAddLen >>> 32) origAddLen (origLen >>> 32) origLen
      let buf := gcmMult c.g.HL c.g.HH (c.g.buf ^^^ work)
      some (boxPiece c.box c.g.baseEctr (buf.toList.take n), { c with g := { c.g with buf := buf } })
    else some (c.g.baseEctr.toList.take n, c)

/-! ### external encodings (ee) -/

/-- A permutation of 0..255 and its inverse as lookup tables. -/
structure BytePerm where
  fwd : Byte → Byte
  inv : Byte → Byte

/-- `genPermutation8` copied into two tables (ee_init.c lines 160-176, mask_init.c lines 334-365). -/
def genByte (rnd : Nat → BitVec 32) (junk : Vector (Fin 256) 256) : BytePerm :=
  let p := genPermutation rnd junk
  ⟨fun x => BitVec.ofFin p.1[x.toFin], fun x => BitVec.ofFin p.2[x.toFin]⟩

/-- `struct wbaes_wbgcm_ee_context` (wbaes_wbgcm_ee.h lines 15-23). -/
structure WbEeKey where
  tab : WbaesTables
  gboxI : Fin 16 → Byte → Byte
  gboxIII : Fin 16 → Byte → Byte → Byte

/-- `WBCRYPTO_wbaes_wbgcm_ee_gen_table` (ee_init.c lines 4-318).  The text up to line 256 and lines 262-293 is that of
`WBCRYPTO_wbaes_gen_table`; `r1`, `r2` are the streams for `TypeIII_ex_out1`, `TypeIII_ex_out2`. -/
def wbEeGenTable (r : WbaesRnd) (r1 r2 : Fin 16 → Nat → BitVec 32) (junk : Vector (Fin 256) 256) (key : Block) : WbEeKey :=
  let out1 : Fin 16 → BytePerm := fun j => genByte (r1 j) junk
  let out2 : Fin 16 → BytePerm := fun j => genByte (r2 j) junk
  { tab := r.enc.tables (shiftKeys (expandKey r.junkKey key)) fun j y => (out1 j).fwd y
    gboxI := fun i x => (out2 i).fwd (matMulNum (r.enc.exOut i).mat x)
    gboxIII := fun i j k => matMulNum (r.enc.exOut i).inv ((out1 i).inv j ^^^ (out2 i).inv k) }

/-- `aux_WBCRYPTO_wbaes_wbgcm_ee_encrypt` (ee_init.c lines 320-391). -/
def wbEeBlock (k : WbEeKey) (x : Block) : Block := auxWbaesEncrypt k.tab (Vector.ofFn fun i => k.tab.typeIa i x[i])

/-- The lookup of ee_mode.c lines 187-188: `GBOX_TypeIII[i][e][GBOX_TypeI[i][a]]`. -/
def wbEeBox (k : WbEeKey) (i : Fin 16) (a e : Byte) : Byte := k.gboxIII i e (k.gboxI i a)

/-- `WBCRYPTO_wbaes_wbgcm_ee_init` (ee_mode.c lines 38-97). -/
def wbEeInit (k : WbEeKey) : WbGcmCtx :=
  let h := wbEeBlock k zeroBlock
  wbgcmInit (wbEeBlock k) (wbEeBox k) (Vector.ofFn fun i => wbEeBox k i 0 h[i])

/-! ### masking -/

/-- `struct wbaes_wbgcm_mask_context` (wbaes_wbgcm_mask.h lines 15-27). -/
structure WbMaskKey where
  encMode : Bool
  tab : WbaesTables
  typeIb : Fin 16 → Byte → Byte
  gboxI : Fin 16 → Byte → Byte
  gboxII : Fin 16 → Byte → Byte
  gboxIII : Fin 16 → Byte → Byte → Byte
  L1 : Fin 16 → Mat 8

/-- Random choices of `WBCRYPTO_wbaes_wbgcm_mask_gen_gcm_table` (mask_init.c lines 312-365, 370, 426). -/
structure WbMaskRnd where
  L1 : Fin 16 → Nat → BitVec 32
  L2 : Fin 16 → Nat → BitVec 32
  L3 : Fin 16 → Nat → BitVec 32
  N1 : Fin 16 → Nat → BitVec 32
  N2 : Fin 16 → Nat → BitVec 32
  N3 : Fin 16 → Nat → BitVec 32
  N4 : Fin 16 → Nat → BitVec 32
  junk : Vector (Fin 256) 256
  maskEnc : Block
  maskDec : Block

/-- The encryption context from `WBCRYPTO_wbaes_wbgcm_mask_gen_table` (mask_init.c lines 30-310, 369-419, 468-473); `c` are the
tables of `..._gen_aes_table`, whose text is that of `WBCRYPTO_wbaes_gen_table`. -/
def wbMaskEncKey (c : WbaesCtx) (r : WbMaskRnd) : WbMaskKey where
  encMode := true
  tab := c.tab
  typeIb i j := c.typeIb i j ^^^ r.maskEnc[i]
  gboxI i j := (genByte (r.N1 i) r.junk).fwd (matMulNum (genM 8 (r.L2 i)).mat (matMulNum (genM 8 (r.L1 i)).mat (j ^^^ r.maskEnc[i])))
  gboxII i j := (genByte (r.N2 i) r.junk).fwd (matMulNum (genM 8 (r.L2 i)).mat (matMulNum (genM 8 (r.L1 i)).mat j))
  gboxIII i j k := matMulNum (genM 8 (r.L2 i)).inv ((genByte (r.N1 i) r.junk).inv j ^^^ (genByte (r.N2 i) r.junk).inv k)
  L1 i := (genM 8 (r.L1 i)).inv

/-- The decryption context (mask_init.c lines 421-466). -/
def wbMaskDecKey (c : WbaesCtx) (r : WbMaskRnd) : WbMaskKey where
  encMode := false
  tab := c.tab
  typeIb i j := c.typeIb i j ^^^ r.maskDec[i]
  gboxI i j := (genByte (r.N3 i) r.junk).fwd (matMulNum (genM 8 (r.L3 i)).mat (matMulNum (genM 8 (r.L1 i)).inv j ^^^ r.maskDec[i]))
  gboxII i j := (genByte (r.N4 i) r.junk).fwd (matMulNum (genM 8 (r.L3 i)).mat j)
  gboxIII i j k := matMulNum (genM 8 (r.L3 i)).inv ((genByte (r.N3 i) r.junk).inv j ^^^ (genByte (r.N4 i) r.junk).inv k)
  L1 i := (genM 8 (r.L1 i)).mat

/-- `WBCRYPTO_wbaes_wbgcm_mask_gen_table` (mask_init.c lines 468-473): two independent sets of AES tables for one key. -/
def wbMaskGenTable (re rd : WbaesRnd) (roe rod : Fin 16 → Fin 2 → Nat → BitVec 32) (r : WbMaskRnd) (key : Block) :
    WbMaskKey × WbMaskKey :=
  (wbMaskEncKey (wbaesGenTable re roe key) r, wbMaskDecKey (wbaesGenTable rd rod key) r)

/-- `aux_WBCRYPTO_wbaes_wbgcm_mask_encrypt` (mask_init.c lines 475-547). -/
def wbMaskAes (k : WbMaskKey) (x : Block) : Block :=
  let y := auxWbaesEncrypt k.tab (Vector.ofFn fun i => k.tab.typeIa i x[i])
  Vector.ofFn fun i => k.typeIb i y[i]

/-- The cipher followed by `GBOX_TypeII` (mask_mode.c lines 58-66, 141-144, 193-197, 248-252). -/
def wbMaskBlock (k : WbMaskKey) (x : Block) : Block :=
  let y := wbMaskAes k x
  Vector.ofFn fun i => k.gboxII i y[i]

/-- The lookup of mask_mode.c lines 203-204: `GBOX_TypeIII[i][GBOX_TypeI[i][a]][e]`. -/
def wbMaskBox (k : WbMaskKey) (i : Fin 16) (a e : Byte) : Byte := k.gboxIII i (k.gboxI i a) e

/-- `WBCRYPTO_wbaes_wbgcm_mask_init` (mask_mode.c lines 38-106). -/
def wbMaskInit (k : WbMaskKey) : WbGcmCtx :=
  let h := wbMaskBlock k zeroBlock
  wbgcmInit (wbMaskBlock k) (wbMaskBox k) (Vector.ofFn fun i =>
    let correct := if k.encMode then 0 else matMulNum (k.L1 i) 0
    let v := wbMaskBox k i correct h[i]
    if k.encMode then matMulNum (k.L1 i) v else v)

end Verif.Model
