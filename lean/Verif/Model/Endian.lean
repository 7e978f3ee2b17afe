import Verif.Model.SeWbsm4
import Verif.Model.WbGcm

/-!
The parts of the library that depend on the byte order of the machine and lead to the white-box ciphers: the functions of
`/repo/WBMatrix/src/WBMatrix.c` that reach into a word through a pointer to a smaller type, and the generators of `wbsm4_gen.c`,
`se_wbsm4.c` and `wbaes.c` that call them.  On a little-endian machine they are the functions of `Model/Matrix`, `Model/Wbsm4`,
`Model/SeWbsm4` and `Model/Wbaes`.  Everything else in these files computes with shifts and is the same on both.
-/
set_option autoImplicit false

namespace Verif.Model

/-- The order of the bytes of a word in memory. -/
inductive ByteOrder where
  | little
  | big
  deriving DecidableEq

/-- The 32-bit word whose bytes at the addresses `+0 .. +3` are `b0 .. b3`. -/
def ByteOrder.word (o : ByteOrder) (b0 b1 b2 b3 : Byte) : BitVec 32 :=
  match o with
  | .little => (b3 ++ b2 ++ b1 ++ b0 : BitVec 32)
  | .big => (b0 ++ b1 ++ b2 ++ b3 : BitVec 32)

/-- The 32-bit word whose 16-bit halves at the addresses `+0` and `+2` are `h0` and `h1`. -/
def ByteOrder.word16 (o : ByteOrder) (h0 h1 : BitVec 16) : BitVec 32 :=
  match o with
  | .little => h1 ++ h0
  | .big => h0 ++ h1

/-- The two halves of a word of `2 n` bits at the lower and the higher address. -/
def ByteOrder.lowAddr (o : ByteOrder) {m : Nat} (n : Nat) (x : BitVec m) : BitVec n :=
  match o with
  | .little => x.truncate n
  | .big => (x >>> n).truncate n
def ByteOrder.highAddr (o : ByteOrder) {m : Nat} (n : Nat) (x : BitVec m) : BitVec n :=
  match o with
  | .little => (x >>> n).truncate n
  | .big => x.truncate n

/-- `xorU16` (WBMatrix.c lines 1273-1280), through `uint8_t *`. -/
def xorU16On (o : ByteOrder) (n : BitVec 16) : Bool := xorU8 (o.lowAddr 8 n ^^^ o.highAddr 8 n)

/-- `xorU32` (lines 1282-1289), through `uint16_t *`. -/
def xorU32On (o : ByteOrder) (n : BitVec 32) : Bool := xorU16On o (o.lowAddr 16 n ^^^ o.highAddr 16 n)

/-- `xorU64` (lines 1291-1298), through `uint32_t *`. -/
def xorU64On (o : ByteOrder) (n : BitVec 64) : Bool := xorU32On o (o.lowAddr 32 n ^^^ o.highAddr 32 n)

/-- `randV32` (lines 269-275): the first value goes to the half at the higher address. -/
def randV32On (o : ByteOrder) (rnd : Nat → BitVec 32) (pos : Nat) : BitVec 32 :=
  o.word16 ((rnd (pos + 1)).truncate 16) ((rnd pos).truncate 16)

/-- `genaffinepairM32` (lines 2605-2610). -/
def genaffinepair32On (o : ByteOrder) (rnd : Nat → BitVec 32) (pos : Nat) : Aff 32 × Aff 32 :=
  let p := genMatpair 32 rnd pos
  let v := randV32On o rnd p.pos
  (⟨p.mat, v⟩, ⟨p.inv, matMulNum p.inv v⟩)

/-- `MatrixcomM8to32` (lines 2626-2652): row `j` of `m1` is stored at the address `+3`, of `m2` at `+2`, and so on. -/
def matrixcomOn (o : ByteOrder) (m1 m2 m3 m4 : Mat 8) : Mat 32 :=
  Vector.ofFn fun j : Fin 32 =>
    if j.1 < 8 then o.word 0 0 0 (m1.row j.1)
    else if j.1 < 16 then o.word 0 0 (m2.row (j.1 - 8)) 0
    else if j.1 < 24 then o.word 0 (m3.row (j.1 - 16)) 0 0
    else o.word (m4.row (j.1 - 24)) 0 0 0

/-- `affinecomM8to32` with `VectorcomV8to32` (lines 2654-2669). -/
def affinecomOn (o : ByteOrder) (a1 a2 a3 a4 : Aff 8) : Aff 32 :=
  ⟨matrixcomOn o a1.mat a2.mat a3.mat a4.mat, o.word a4.vec a3.vec a2.vec a1.vec⟩

/-! ### white-box SM4 -/

namespace Wbsm4Rnd
variable (o : ByteOrder) (r : Wbsm4Rnd)

/-- `P[i]`, `P_inv[i]`, `Q[i]`, `Q_inv[i]` (wbsm4_gen.c lines 134-138 and 157). -/
def POn (i : Nat) : Aff 32 := (genaffinepair32On o (r.p i) 0).1
def PinvOn (i : Nat) : Aff 32 := (genaffinepair32On o (r.p i) 0).2
def QOn (i : Nat) : Aff 32 := (genaffinepair32On o (r.q i) 0).1
def QinvOn (i : Nat) : Aff 32 := (genaffinepair32On o (r.q i) 0).2

/-- `Ei_inv[i]` (line 149). -/
def EiInvOn (i : Nat) : Aff 32 := affinecomOn o (r.Einv i 0) (r.Einv i 1) (r.Einv i 2) (r.Einv i 3)

/-- `M[i][k]` (lines 152-154). -/
def MOn (i : Nat) (k : Fin 3) : Aff 32 := affinemix (r.EiInvOn o i) (r.PinvOn o (i + 1 + k.1))

/-- `C[i]` (lines 160 and 163). -/
def COn (i : Nat) : Aff 32 :=
  let c := affinemix (r.POn o (i + 4)) (r.PinvOn o i)
  { c with vec := c.vec ^^^ r.t i }

/-- `D[i]` (lines 161 and 164). -/
def DOn (i : Nat) : Aff 32 :=
  let d := affinemix (r.POn o (i + 4)) (r.QinvOn o i)
  { d with vec := d.vec ^^^ ((r.POn o (i + 4)).vec ^^^ r.t i) }

end Wbsm4Rnd

/-- Tables of round `i` without dummy rounds (wbsm4_gen.c lines 171-233). -/
def realRoundOn (o : ByteOrder) (r : Wbsm4Rnd) (rk : Sm4Ctx) (i : Nat) (p : Fin 32) : WbRound where
  mm k := affTab (r.q1 i) (r.MOn o p.1 k)
  cc := affTab (r.q2 i) (r.COn o p.1)
  dd := affTab (r.q2 i) (r.DOn o p.1)
  table := sboxTab (r.q3 i) (r.E p.1) (r.QOn o p.1) rk[p]

/-- `WBCRYPTO_wbsm4_context_init(encmode, 0)` and `WBCRYPTO_wbsm4_gen_table` (wbsm4_gen.c lines 105-279): contexts without dummy
rounds, where `dummy_array` holds 32 zeros. -/
def wbsm4GenTableOn (o : ByteOrder) (r : Wbsm4Rnd) (mode : EncMode) (key : List Byte) : Wbsm4Ctx where
  rnds := (List.finRange 32).map fun i => realRoundOn o r (sm4InitKey key mode) i.1 i
  encmode := mode
  se := fun i => affTab r.qx (r.POn o i.1)
  fe := fun i => affTab r.qx (r.PinvOn o (35 - i.1))

/-! ### white-box SM4 from self-equivalences -/

namespace SeRnd
variable (o : ByteOrder) (r : SeRnd)

/-- `P[i]`, `P_inv[i]`, `AA[i]`, `BB[i]` (se_wbsm4.c lines 40-52). -/
def POn (i : Nat) : Aff 32 := (genaffinepair32On o (r.p i) 0).1
def PinvOn (i : Nat) : Aff 32 := (genaffinepair32On o (r.p i) 0).2
def AAOn (i : Nat) : Aff 32 := affinecomOn o (seA (r.idx i 0)) (seA (r.idx i 1)) (seA (r.idx i 2)) (seA (r.idx i 3))
def BBOn (i : Nat) : Aff 32 := affinecomOn o (seB (r.idx i 0)) (seB (r.idx i 1)) (seB (r.idx i 2)) (seB (r.idx i 3))

end SeRnd

/-- `WBCRYPTO_se_wbsm4_gen_table` (se_wbsm4.c lines 20-91). -/
def seGenTableOn (o : ByteOrder) (r : SeRnd) (mode : EncMode) (key : List Byte) : SeCtx :=
  let rk := sm4InitKey key mode
  { M := fun i k =>
      let K : Aff 32 := ⟨identityM 32, rk[i]⟩
      affinemix (r.AAOn o i.1) (affinemix K (r.PinvOn o (i.1 + 1 + k.1)))
    C := fun i =>
      let c := affinemix (r.POn o (i.1 + 4)) (r.PinvOn o i.1)
      { c with vec := c.vec ^^^ r.t i.1 }
    D := fun i =>
      let L : Aff 32 := ⟨SE_L, 0⟩
      let d := affinemix (r.POn o (i.1 + 4)) (affinemix L (r.BBOn o i.1))
      { d with vec := d.vec ^^^ ((r.POn o (i.1 + 4)).vec ^^^ r.t i.1) }
    SE := fun i => r.POn o i.1
    FE := fun i => r.PinvOn o (35 - i.1) }

/-! ### white-box AES -/

namespace WbaesEnc
variable (o : ByteOrder) (E : WbaesEnc)

/-- `Out_L[i][j]` (wbaes.c lines 56-61). -/
def outLOn (i : Fin 9) (j : Fin 4) : Mat 32 :=
  matrixcomOn o (E.L i (at4 j 0)).mat (E.L i (at4 j 1)).mat (E.L i (at4 j 2)).mat (E.L i (at4 j 3)).mat

/-- `WBCRYPTO_wbaes_gen_table` (wbaes.c lines 157-305): `Out_L` is used for `TypeIII` (lines 180-198) only. -/
def tablesOn (ek : Nat → Byte) (last : Fin 16 → Byte → Byte) : WbaesTables :=
  { E.tables ek last with
    typeIII := fun i j x =>
      let y := joinByte ((E.outIVII2 i (colOf j) (nibHi (rowOf j))).inv (hiNib x)) ((E.outIVII2 i (colOf j) (nibLo (rowOf j))).inv (loNib x))
      let w : BitVec 32 := y.zeroExtend 32 <<< (24 - 8 * (rowOf j).1)
      applyOut (E.outIII i j) (matMulNum (E.outLOn o i (colOf j)) (matMulNum (E.MB i (colOf j)).inv w)) }

end WbaesEnc

/-- `WBCRYPTO_wbaes_gen_table` (wbaes.c lines 20-307). -/
def wbaesGenTableOn (o : ByteOrder) (r : WbaesRnd) (ro : Fin 16 → Fin 2 → Nat → BitVec 32) (key : Block) : WbaesCtx :=
  { wbaesGenTable r ro key with
    tab := r.enc.tablesOn o (shiftKeys (expandKey r.junkKey key)) (outNibs fun j k => genNib (ro j k) r.junkPerm) }

/-- `WBCRYPTO_wbaes_wbgcm_ee_gen_table` (wbaes_wbgcm_ee_init.c lines 4-318, `Out_L` in lines 48-53). -/
def wbEeGenTableOn (o : ByteOrder) (r : WbaesRnd) (r1 r2 : Fin 16 → Nat → BitVec 32) (junk : Vector (Fin 256) 256) (key : Block) :
    WbEeKey :=
  { wbEeGenTable r r1 r2 junk key with
    tab := r.enc.tablesOn o (shiftKeys (expandKey r.junkKey key)) fun j y => (genByte (r1 j) junk).fwd y }

/-- `WBCRYPTO_wbaes_wbgcm_mask_gen_table` (wbaes_wbgcm_mask_init.c lines 468-473, `Out_L` in lines 75-80). -/
def wbMaskGenTableOn (o : ByteOrder) (re rd : WbaesRnd) (roe rod : Fin 16 → Fin 2 → Nat → BitVec 32) (r : WbMaskRnd) (key : Block) :
    WbMaskKey × WbMaskKey :=
  (wbMaskEncKey (wbaesGenTableOn o re roe key) r, wbMaskDecKey (wbaesGenTableOn o rd rod key) r)

end Verif.Model
