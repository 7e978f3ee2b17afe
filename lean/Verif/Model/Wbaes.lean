import Verif.Model.Matrix

/-!
Model of `/repo/src/wbaes/wbaes_local.c` and `/repo/src/wbaes/wbaes.c` (Chow white-box AES-128).

Random choices as in `Verif.Model.Wbsm4`: one arbitrary stream per library call.  The table entries that hold nibbles
are `BitVec 4`.  Expressions `v << 28` with `v` a promoted `uint8_t` are read as 32-bit words (they are signed shifts
in C).  The columns of a round touch disjoint bytes of `state`; the model computes them side by side.
-/
set_option autoImplicit false

namespace Verif.Model

set_option maxRecDepth 4000 in
/-- `SBox` (wbaes_local.h lines 6-24). -/
def WBAES_SBOX : Vector Byte 256 := #v[
  0x63, 0x7c, 0x77, 0x7b, 0xf2, 0x6b, 0x6f, 0xc5, 0x30, 0x01, 0x67, 0x2b, 0xfe, 0xd7, 0xab, 0x76,
  0xca, 0x82, 0xc9, 0x7d, 0xfa, 0x59, 0x47, 0xf0, 0xad, 0xd4, 0xa2, 0xaf, 0x9c, 0xa4, 0x72, 0xc0,
  0xb7, 0xfd, 0x93, 0x26, 0x36, 0x3f, 0xf7, 0xcc, 0x34, 0xa5, 0xe5, 0xf1, 0x71, 0xd8, 0x31, 0x15,
  0x04, 0xc7, 0x23, 0xc3, 0x18, 0x96, 0x05, 0x9a, 0x07, 0x12, 0x80, 0xe2, 0xeb, 0x27, 0xb2, 0x75,
  0x09, 0x83, 0x2c, 0x1a, 0x1b, 0x6e, 0x5a, 0xa0, 0x52, 0x3b, 0xd6, 0xb3, 0x29, 0xe3, 0x2f, 0x84,
  0x53, 0xd1, 0x00, 0xed, 0x20, 0xfc, 0xb1, 0x5b, 0x6a, 0xcb, 0xbe, 0x39, 0x4a, 0x4c, 0x58, 0xcf,
  0xd0, 0xef, 0xaa, 0xfb, 0x43, 0x4d, 0x33, 0x85, 0x45, 0xf9, 0x02, 0x7f, 0x50, 0x3c, 0x9f, 0xa8,
  0x51, 0xa3, 0x40, 0x8f, 0x92, 0x9d, 0x38, 0xf5, 0xbc, 0xb6, 0xda, 0x21, 0x10, 0xff, 0xf3, 0xd2,
  0xcd, 0x0c, 0x13, 0xec, 0x5f, 0x97, 0x44, 0x17, 0xc4, 0xa7, 0x7e, 0x3d, 0x64, 0x5d, 0x19, 0x73,
  0x60, 0x81, 0x4f, 0xdc, 0x22, 0x2a, 0x90, 0x88, 0x46, 0xee, 0xb8, 0x14, 0xde, 0x5e, 0x0b, 0xdb,
  0xe0, 0x32, 0x3a, 0x0a, 0x49, 0x06, 0x24, 0x5c, 0xc2, 0xd3, 0xac, 0x62, 0x91, 0x95, 0xe4, 0x79,
  0xe7, 0xc8, 0x37, 0x6d, 0x8d, 0xd5, 0x4e, 0xa9, 0x6c, 0x56, 0xf4, 0xea, 0x65, 0x7a, 0xae, 0x08,
  0xba, 0x78, 0x25, 0x2e, 0x1c, 0xa6, 0xb4, 0xc6, 0xe8, 0xdd, 0x74, 0x1f, 0x4b, 0xbd, 0x8b, 0x8a,
  0x70, 0x3e, 0xb5, 0x66, 0x48, 0x03, 0xf6, 0x0e, 0x61, 0x35, 0x57, 0xb9, 0x86, 0xc1, 0x1d, 0x9e,
  0xe1, 0xf8, 0x98, 0x11, 0x69, 0xd9, 0x8e, 0x94, 0x9b, 0x1e, 0x87, 0xe9, 0xce, 0x55, 0x28, 0xdf,
  0x8c, 0xa1, 0x89, 0x0d, 0xbf, 0xe6, 0x42, 0x68, 0x41, 0x99, 0x2d, 0x0f, 0xb0, 0x54, 0xbb, 0x16]

/-- `rCon` (wbaes_local.h lines 26-29). -/
def WBAES_RCON : Vector Byte 11 := #v[0x8d, 0x01, 0x02, 0x04, 0x08, 0x10, 0x20, 0x40, 0x80, 0x1b, 0x36]

/-- `shiftTab` and `shiftindex` (wbaes_local.c line 6, wbaes.c line 156). -/
def shiftTab : Vector (Fin 16) 16 := #v[0, 5, 10, 15, 4, 9, 14, 3, 8, 13, 2, 7, 12, 1, 6, 11]

/-- `shiftRows` (wbaes_local.c lines 3-11). -/
def wbShiftRows (s : Block) : Block := Vector.ofFn fun i => s[shiftTab[i]]

/-- `gMul` (wbaes_local.c lines 13-28). -/
def gMul (a b : Byte) : Byte :=
  ((List.range 8).foldl (fun (s : Byte × Byte × Byte) _ =>
    let (a, b, p) := s
    let p := if b &&& 1 = 1 then p ^^^ a else p
    let hi := a &&& 0x80
    let a := a <<< 1
    let a := if hi = 0x80 then a ^^^ 0x1b else a
    (a, b >>> 1, p)) (a, b, 0)).2.2

/-- Body of the second loop of `expandKey` (wbaes_local.c lines 43-59); memory is a function from offsets. -/
def expandStep (e : Nat → Byte) (i : Nat) : Nat → Byte :=
  let t0 := e (4 * (i - 1))
  let t1 := e (4 * (i - 1) + 1)
  let t2 := e (4 * (i - 1) + 2)
  let t3 := e (4 * (i - 1) + 3)
  let (t0, t1, t2, t3) :=
    if i % 4 = 0 then
      (WBAES_SBOX[t1.toFin] ^^^ (WBAES_RCON[i / 4]?.getD 0), WBAES_SBOX[t2.toFin], WBAES_SBOX[t3.toFin], WBAES_SBOX[t0.toFin])
    else (t0, t1, t2, t3)
  fun a =>
    if a = 4 * i then e (4 * (i - 4)) ^^^ t0
    else if a = 4 * i + 1 then e (4 * (i - 4) + 1) ^^^ t1
    else if a = 4 * i + 2 then e (4 * (i - 4) + 2) ^^^ t2
    else if a = 4 * i + 3 then e (4 * (i - 4) + 3) ^^^ t3
    else e a

/-- `expandKey` (wbaes_local.c lines 30-61); `junk` is the uninitialised array. -/
def expandKey (junk : Nat → Byte) (key : Block) : Nat → Byte :=
  (List.range' 4 40).foldl expandStep fun a => if h : a < 16 then key[a] else junk a

/-! ### nibbles -/

abbrev Nib := BitVec 4

/-- `(x >> 28) & 0xf`, ..., `x & 0xf`: nibble `k` counted from the most significant. -/
def nib (x : BitVec 32) (k : Fin 8) : Nib := (x >>> (28 - 4 * k.1)).truncate 4

/-- `(v0 << 28) | (v1 << 24) | ... | v7`. -/
def joinNib (v : Fin 8 → Nib) : BitVec 32 :=
  ((v 0).zeroExtend 32 <<< 28) ||| ((v 1).zeroExtend 32 <<< 24) ||| ((v 2).zeroExtend 32 <<< 20) |||
    ((v 3).zeroExtend 32 <<< 16) ||| ((v 4).zeroExtend 32 <<< 12) ||| ((v 5).zeroExtend 32 <<< 8) |||
    ((v 6).zeroExtend 32 <<< 4) ||| (v 7).zeroExtend 32

/-- `(h << 4) | l`. -/
def joinByte (h l : Nib) : Byte := (h.zeroExtend 8 <<< 4) ||| l.zeroExtend 8

/-- `(x & 0xf0) >> 4` and `x & 0x0f`. -/
def hiNib (x : Byte) : Nib := (x >>> 4).truncate 4
def loNib (x : Byte) : Nib := x.truncate 4

/-- A permutation of 0..15 and its inverse as lookup tables. -/
structure NibPerm where
  fwd : Nib → Nib
  inv : Nib → Nib

/-- `genPermutation4` copied into two tables (wbaes.c lines 86-92); `junk` is the uninitialised `inverse`. -/
def genNib (rnd : Nat → BitVec 32) (junk : Vector (Fin 16) 16) : NibPerm :=
  let p := genPermutation rnd junk
  ⟨fun x => BitVec.ofFin p.1[x.toFin], fun x => BitVec.ofFin p.2[x.toFin]⟩

/-! ### table generation -/

/-- An invertible matrix and its inverse. -/
structure MPair (n : Nat) where
  mat : Mat n
  inv : Mat n

/-- `genMatpairMn`. -/
def genM (n : Nat) [WSize n] (rnd : Nat → BitVec 32) : MPair n :=
  let p := genMatpair n rnd 0
  ⟨p.mat, p.inv⟩

/-- The encodings chosen at random (wbaes.c lines 25-46 and 63-153) for rounds 1 to 9 and the input. -/
structure WbaesEnc where
  L : Fin 9 → Fin 16 → MPair 8
  MB : Fin 9 → Fin 4 → MPair 32
  exIn : Fin 16 → MPair 8
  exOut : Fin 16 → MPair 8
  /-- `TypeII_out`, `TypeIII_out` -/
  outII : Fin 9 → Fin 16 → Fin 8 → NibPerm
  outIII : Fin 9 → Fin 16 → Fin 8 → NibPerm
  /-- `TypeIV_II_out1`, `TypeIV_III_out1` -/
  outIVII1 : Fin 9 → Fin 8 → Fin 8 → NibPerm
  outIVIII1 : Fin 9 → Fin 8 → Fin 8 → NibPerm
  /-- `TypeIV_II_out2`, `TypeIV_III_out2` -/
  outIVII2 : Fin 9 → Fin 4 → Fin 8 → NibPerm
  outIVIII2 : Fin 9 → Fin 4 → Fin 8 → NibPerm
  /-- `TypeII_ex_in` -/
  inII : Fin 16 → Fin 2 → NibPerm

/-- Random streams and uninitialised memory used by the generators. -/
structure WbaesRnd where
  L : Fin 9 → Fin 16 → Nat → BitVec 32
  MB : Fin 9 → Fin 4 → Nat → BitVec 32
  exIn : Fin 16 → Nat → BitVec 32
  exOut : Fin 16 → Nat → BitVec 32
  outII : Fin 9 → Fin 16 → Fin 8 → Nat → BitVec 32
  outIII : Fin 9 → Fin 16 → Fin 8 → Nat → BitVec 32
  outIVII1 : Fin 9 → Fin 8 → Fin 8 → Nat → BitVec 32
  outIVIII1 : Fin 9 → Fin 8 → Fin 8 → Nat → BitVec 32
  outIVII2 : Fin 9 → Fin 4 → Fin 8 → Nat → BitVec 32
  outIVIII2 : Fin 9 → Fin 4 → Fin 8 → Nat → BitVec 32
  inII : Fin 16 → Fin 2 → Nat → BitVec 32
  junkPerm : Vector (Fin 16) 16
  junkKey : Nat → Byte

/-- wbaes.c lines 33-46 and 83-153. -/
def WbaesRnd.enc (r : WbaesRnd) : WbaesEnc where
  L i j := genM 8 (r.L i j)
  MB i j := genM 32 (r.MB i j)
  exIn j := genM 8 (r.exIn j)
  exOut j := genM 8 (r.exOut j)
  outII i j k := genNib (r.outII i j k) r.junkPerm
  outIII i j k := genNib (r.outIII i j k) r.junkPerm
  outIVII1 i j k := genNib (r.outIVII1 i j k) r.junkPerm
  outIVIII1 i j k := genNib (r.outIVIII1 i j k) r.junkPerm
  outIVII2 i j k := genNib (r.outIVII2 i j k) r.junkPerm
  outIVIII2 i j k := genNib (r.outIVIII2 i j k) r.junkPerm
  inII j k := genNib (r.inII j k) r.junkPerm

/-- The part of `struct wbaes_context` (wbaes.h lines 13-20) shared with the white-box GCM contexts. -/
structure WbaesTables where
  /-- `TypeII[0..8]` -/
  typeII : Fin 9 → Fin 16 → Byte → BitVec 32
  /-- `TypeII[9]`, whose entries are bytes -/
  typeII9 : Fin 16 → Byte → BitVec 32
  typeIII : Fin 9 → Fin 16 → Byte → BitVec 32
  typeIVII : Fin 9 → Fin 4 → Fin 3 → Fin 8 → Nib → Nib → Nib
  typeIVIII : Fin 9 → Fin 4 → Fin 3 → Fin 8 → Nib → Nib → Nib
  typeIa : Fin 16 → Byte → Byte

/-- `Tyi` (wbaes.c lines 48-54). -/
def tyi (t : Fin 4) (x : Byte) : BitVec 32 :=
  let w (a b c d : Byte) : BitVec 32 :=
    (a.zeroExtend 32 <<< 24) ||| (b.zeroExtend 32 <<< 16) ||| (c.zeroExtend 32 <<< 8) ||| d.zeroExtend 32
  match t with
  | 0 => w (gMul 2 x) x x (gMul 3 x)
  | 1 => w (gMul 3 x) (gMul 2 x) x x
  | 2 => w x (gMul 3 x) (gMul 2 x) x
  | 3 => w x x (gMul 3 x) (gMul 2 x)

/-- `columnindex[j]` (line 155) and `j % 4`. -/
def colOf (j : Fin 16) : Fin 4 := ⟨j.1 / 4, by omega⟩
def rowOf (j : Fin 16) : Fin 4 := ⟨j.1 % 4, by omega⟩

/-- Indices `(j % 4) * 2` and `(j % 4) * 2 + 1`. -/
def nibHi (t : Fin 4) : Fin 8 := ⟨t.1 * 2, by omega⟩
def nibLo (t : Fin 4) : Fin 8 := ⟨t.1 * 2 + 1, by omega⟩

/-- `4 * j + k` and `2 * j + k`. -/
def at4 (j : Fin 4) (k : Fin 4) : Fin 16 := ⟨4 * j.1 + k.1, by omega⟩
def at2 (j : Fin 4) (k : Fin 2) : Fin 8 := ⟨2 * j.1 + k.1, by omega⟩

namespace WbaesEnc
variable (E : WbaesEnc)

/-- `Out_L[i][j]` (lines 56-61). -/
def outL (i : Fin 9) (j : Fin 4) : Mat 32 :=
  matrixcom8to32 (E.L i (at4 j 0)).mat (E.L i (at4 j 1)).mat (E.L i (at4 j 2)).mat (E.L i (at4 j 3)).mat

/-- Removal of the encoding of byte `s` before round `i + 1`: lines 164-166 for `i = 0`, lines 210-215 and 259-262
for `i > 0` (`i - 1` is given as an element of `Fin 9`). -/
def decIn (s : Fin 16) (x : Byte) : Byte :=
  matMulNum (E.exIn s).inv (joinByte ((E.inII s 0).inv (hiNib x)) ((E.inII s 1).inv (loNib x)))
def decMid (i : Fin 9) (s : Fin 16) (x : Byte) : Byte :=
  matMulNum (E.L i s).inv
    (joinByte ((E.outIVIII2 i (colOf s) (nibHi (rowOf s))).inv (hiNib x)) ((E.outIVIII2 i (colOf s) (nibLo (rowOf s))).inv (loNib x)))
def dec (i : Nat) (s : Fin 16) (x : Byte) : Byte :=
  if h : 0 < i ∧ i - 1 < 9 then E.decMid ⟨i - 1, h.2⟩ s x else E.decIn s x

/-- The 8 nibble permutations applied to a word (lines 170-177 and 191-198). -/
def applyOut (p : Fin 8 → NibPerm) (x : BitVec 32) : BitVec 32 := joinNib fun k => (p k).fwd (nib x k)

/-- `WBCRYPTO_wbaes_gen_table` (lines 157-305) without `TypeIb`; `ek` is the expanded key with `shiftRows` applied to the
round keys 0 to 9, and `last j` is the output encoding applied in `TypeII[9][j]`. -/
def tables (ek : Nat → Byte) (last : Fin 16 → Byte → Byte) : WbaesTables where
  typeII i j x :=
    let y := WBAES_SBOX[(E.dec i.1 shiftTab[j] x ^^^ ek (16 * i.1 + j.1)).toFin]
    applyOut (E.outII i j) (matMulNum (E.MB i (colOf j)).mat (tyi (rowOf j) y))
  typeII9 j x :=
    let y := WBAES_SBOX[(E.dec 9 shiftTab[j] x ^^^ ek (16 * 9 + j.1)).toFin] ^^^ ek (16 * 10 + j.1)
    (last j (matMulNum (E.exOut j).mat y)).zeroExtend 32
  typeIII i j x :=
    let y := joinByte ((E.outIVII2 i (colOf j) (nibHi (rowOf j))).inv (hiNib x)) ((E.outIVII2 i (colOf j) (nibLo (rowOf j))).inv (loNib x))
    let w : BitVec 32 := y.zeroExtend 32 <<< (24 - 8 * (rowOf j).1)
    applyOut (E.outIII i j) (matMulNum (E.outL i (colOf j)) (matMulNum (E.MB i (colOf j)).inv w))
  typeIVII i j s k x y :=
    match s with
    | 0 => (E.outIVII1 i (at2 j 0) k).fwd ((E.outII i (at4 j 0) k).inv x ^^^ (E.outII i (at4 j 1) k).inv y)
    | 1 => (E.outIVII1 i (at2 j 1) k).fwd ((E.outII i (at4 j 2) k).inv x ^^^ (E.outII i (at4 j 3) k).inv y)
    | 2 => (E.outIVII2 i j k).fwd ((E.outIVII1 i (at2 j 0) k).inv x ^^^ (E.outIVII1 i (at2 j 1) k).inv y)
  typeIVIII i j s k x y :=
    match s with
    | 0 => (E.outIVIII1 i (at2 j 0) k).fwd ((E.outIII i (at4 j 0) k).inv x ^^^ (E.outIII i (at4 j 1) k).inv y)
    | 1 => (E.outIVIII1 i (at2 j 1) k).fwd ((E.outIII i (at4 j 2) k).inv x ^^^ (E.outIII i (at4 j 3) k).inv y)
    | 2 => (E.outIVIII2 i j k).fwd ((E.outIVIII1 i (at2 j 0) k).inv x ^^^ (E.outIVIII1 i (at2 j 1) k).inv y)
  typeIa j x :=
    let y := matMulNum (E.exIn j).mat x
    joinByte ((E.inII j 0).fwd (hiNib y)) ((E.inII j 1).fwd (loNib y))

end WbaesEnc

/-- The calls `shiftRows(expandedKey + 16 * i)` for `i = 0 .. 9` (lines 158, 205, 254). -/
def shiftKeys (ek : Nat → Byte) (a : Nat) : Byte :=
  if a < 160 then ek (16 * (a / 16) + (shiftTab[a % 16]?.getD 0).1) else ek a

/-- `struct wbaes_context`. -/
structure WbaesCtx where
  tab : WbaesTables
  typeIb : Fin 16 → Byte → Byte

/-- `TypeIII_ex_out[j][0..1]` applied to a byte (lines 265-266). -/
def outNibs (p : Fin 16 → Fin 2 → NibPerm) (j : Fin 16) (y : Byte) : Byte :=
  joinByte ((p j 0).fwd (hiNib y)) ((p j 1).fwd (loNib y))

/-- `WBCRYPTO_wbaes_gen_table` (lines 20-307); `ro` are the streams for `TypeIII_ex_out`. -/
def wbaesGenTable (r : WbaesRnd) (ro : Fin 16 → Fin 2 → Nat → BitVec 32) (key : Block) : WbaesCtx :=
  let exOut : Fin 16 → Fin 2 → NibPerm := fun j k => genNib (ro j k) r.junkPerm
  { tab := r.enc.tables (shiftKeys (expandKey r.junkKey key)) (outNibs exOut)
    typeIb := fun j x =>
      matMulNum (r.enc.exOut j).inv (joinByte ((exOut j 0).inv (hiNib x)) ((exOut j 1).inv (loNib x))) }

/-! ### encryption -/

/-- Two words combined by one stage of `TypeIV` tables (lines 325-341). -/
def combine (T : Fin 8 → Nib → Nib → Nib) (a b : BitVec 32) : BitVec 32 := joinNib fun k => T k (nib a k) (nib b k)

/-- The third stage (lines 343-350): byte `t`. -/
def combineByte (T : Fin 8 → Nib → Nib → Nib) (a b : BitVec 32) (t : Fin 4) : Byte :=
  joinByte (T (nibHi t) (nib a (nibHi t)) (nib b (nibHi t))) (T (nibLo t) (nib a (nibLo t)) (nib b (nibLo t)))

/-- Lines 320-350 and 352-382: four lookups and the three stages. -/
def lookCombine (T : Fin 4 → Byte → BitVec 32) (T4 : Fin 3 → Fin 8 → Nib → Nib → Nib) (s : Fin 4 → Byte) (t : Fin 4) : Byte :=
  let a := T 0 (s 0)
  let b := T 1 (s 1)
  let c := T 2 (s 2)
  let d := T 3 (s 3)
  let ab := combine (T4 0) a b
  let cd := combine (T4 1) c d
  combineByte (T4 2) ab cd t

/-- Body of the loop over `i` (lines 318-383). -/
def wbaesRound (c : WbaesTables) (s : Block) (i : Fin 9) : Block :=
  let s := wbShiftRows s
  Vector.ofFn fun m =>
    let j := colOf m
    let u := lookCombine (fun k => c.typeII i (at4 j k)) (c.typeIVII i j) fun k => s[at4 j k]
    lookCombine (fun k => c.typeIII i (at4 j k)) (c.typeIVIII i j) u (rowOf m)

/-- `aux_WBCRYPTO_wbaes_encrypt` (lines 309-390). -/
def auxWbaesEncrypt (c : WbaesTables) (x : Block) : Block :=
  let s := (List.finRange 9).foldl (wbaesRound c) x
  let s := wbShiftRows s
  Vector.ofFn fun j => (c.typeII9 j s[j]).truncate 8

/-- `WBCRYPTO_wbaes_encrypt` (lines 392-407). -/
def wbaesEncrypt (c : WbaesCtx) (x : Block) : Block :=
  let y := auxWbaesEncrypt c.tab (Vector.ofFn fun i => c.tab.typeIa i x[i])
  Vector.ofFn fun i => c.typeIb i y[i]

end Verif.Model
