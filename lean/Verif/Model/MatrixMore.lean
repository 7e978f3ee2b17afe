import Verif.Model.Matrix

/-!
The rest of `/repo/WBMatrix/src/WBMatrix.c`: the 128-bit functions (which work on half rows in places), bit access,
comparison, sums, Hamming weights, and diagonal concatenation.
-/
set_option autoImplicit false

namespace Verif.Model

/-! ### 128 bits: a row `M[i]` is the pair of words `M[i][0]` (most significant) and `M[i][1]` -/

/-- `x[0]`. -/
def word0 (x : BitVec 128) : BitVec 64 := (x >>> 64).truncate 64

/-- `x[1]`. -/
def word1 (x : BitVec 128) : BitVec 64 := x.truncate 64

/-- `xorU128` (lines 1300-1306). -/
def xorU128 (n : BitVec 128) : Bool := xorU64 (word0 n ^^^ word1 n)

/-- Row `i` of `identityM128` (lines 239-250). -/
def idRow128 (i : Nat) : BitVec 128 :=
  if i < 64 then idRow 64 i ++ (0 : BitVec 64) else (0 : BitVec 64) ++ idRow 64 (i - 64)

/-- `identityM128` and `xorU128`; `MatMulVecM128` (lines 1584-1599) sets `V[0]` for the rows below 64 and `V[1]` for the
others, that is, adds a row of the identity; likewise `MatMulMatM128` (lines 3210-3229). -/
instance : WSize 128 where
  idM := Vector.ofFn fun i : Fin 128 => idRow128 i.1
  xorU := xorU128

/-- The words that an assignment changes. -/
inductive Part where
  | both | only0 | only1
  deriving DecidableEq

/-- `x` with the words named replaced by those of `y`. -/
def mixWords : Part → BitVec 128 → BitVec 128 → BitVec 128
  | .both, _, y => y
  | .only0, x, y => word0 y ++ word1 x
  | .only1, x, y => word0 x ++ word1 y

/-- A row operation carried out on one or both words. -/
def partOp (p : Part) (o : RowOp) (M : Mat 128) : Mat 128 :=
  match o with
  | .add a b => M.setIfInBounds a (mixWords p (M.row a) (M.row a ^^^ M.row b))
  | .swap a b => (M.setIfInBounds a (mixWords p (M.row a) (M.row b))).setIfInBounds b (mixWords p (M.row b) (M.row a))

/-- Words changed in the forward loops: both up to column 63, then the second. -/
def fwdPart (i : Nat) : Part := if i < 64 then .both else .only1

/-- Words changed in the backward loops: the second down to column 64, then the first. -/
def backPart (t : Nat) : Part := if 64 ≤ t then .only1 else .only0

/-- The backward loops of the 128-bit functions, `act` depending on the column. -/
def backElim128 {σ : Type} (tm : σ → Mat 128) (act : Part → RowOp → σ → σ) (s : σ) : σ :=
  (List.range 128).reverse.foldl (fun s t => clearRows tm (act (backPart t)) (List.range t).reverse t s) s

/-- `isinvertM128` (lines 819-884). -/
def isinvertM128 (M : Mat 128) : Bool :=
  match (List.range 128).foldlM (fun s i => pivotStep id (partOp (fwdPart i)) i s) M with
  | none => false
  | some s => word1 (s.row 127) == idRow 64 63

/-- A row operation in `invsM128`, on the working matrix and on `Mat_inv`; on `Mat_inv` it is on both words. -/
def invAct (p : Part) (o : RowOp) (s : Mat 128 × Mat 128) : Mat 128 × Mat 128 := (partOp p o s.1, applyRowOp o s.2)

/-- `invsM128` (lines 1106-1209): pairs of working matrix and `Mat_inv`. -/
def invsM128 (M : Mat 128) : Mat 128 :=
  (backElim128 Prod.fst invAct ((List.range 128).foldl (fun s i => (pivotStep Prod.fst (invAct (fwdPart i)) i s).getD
    (clearRows Prod.fst (invAct (fwdPart i)) (List.range' (i + 1) (127 - i)) i s)) (M, identityM 128))).2

/-- A row operation in `genMatpairM128`, logged. -/
def Gen.log128 (p : Part) (o : RowOp) (s : Gen 128) : Gen 128 :=
  { s with temp := partOp p o s.temp, inv := applyRowOp o s.inv, trail := s.trail ++ [o] }

/-- The same without the log (lines 2558-2579). -/
def Gen.nolog128 (p : Part) (o : RowOp) (s : Gen 128) : Gen 128 :=
  { s with temp := partOp p o s.temp, inv := applyRowOp o s.inv }

/-- The branch "can not find 1" (lines 2354-2392 without, lines 2454-2489 with the test `i < 127`). -/
def genFail128 (rnd : Nat → BitVec 32) (i : Nat) (s : Gen 128) : Gen 128 :=
  let s := { s with invertible := false }
  if i < 64 ∨ i < 127 then
    let p := i + 1 + (rnd s.pos).toNat % (127 - i)
    let s := Gen.log128 (fwdPart i) (.swap p i) { s with pos := s.pos + 1 }
    (List.range' (i + 1) (127 - i)).foldl (fun s t =>
      let r := rnd s.pos
      let s := { s with pos := s.pos + 1 }
      if r.toNat % 2 = 1 then Gen.log128 (fwdPart i) (.add t i) s else s) s
  else s

/-- `genMatpairM128` (lines 2291-2582). -/
def genMatpair128 (rnd : Nat → BitVec 32) (pos : Nat) : MatPair 128 :=
  let result := randM 128 rnd pos
  let s := (List.range 128).foldl (fun s i =>
    (pivotStep Gen.temp (Gen.log128 (fwdPart i)) i s).getD (genFail128 rnd i s))
    ⟨result, identityM 128, [], true, pos + rowWords 128 * 128⟩
  if s.invertible then
    let s' := backElim128 Gen.temp Gen.nolog128 s
    ⟨result, s'.inv, s.trail.length, s.pos⟩
  else
    let s' := backElim128 Gen.temp Gen.log128 s
    ⟨s'.trail.reverse.foldl (fun M o => applyRowOp o M) (identityM 128), s'.inv, s'.trail.length, s'.pos⟩

/-- `genaffinepairM128` (lines 2619-2624). -/
def genaffinepair128 (rnd : Nat → BitVec 32) (pos : Nat) : Aff 128 × Aff 128 × Nat :=
  let p := genMatpair128 rnd pos
  let v := randV 128 rnd p.pos
  (⟨p.mat, v.1⟩, ⟨p.inv, matMulNum p.inv v.1⟩, v.2)

/-- `MattransM128` (lines 3084-3100): rows in order, columns `j` and `j + 64` together. -/
def mattrans128 (M : Mat 128) : Mat 128 :=
  (List.range 128).foldl (fun T i =>
    (List.range 64).foldl (fun T j =>
      let T := if word0 (M.row i) &&& idRow 64 j ≠ 0 then T.setIfInBounds j (Mat.row T j ^^^ idRow128 i) else T
      if word1 (M.row i) &&& idRow 64 j ≠ 0 then T.setIfInBounds (j + 64) (Mat.row T (j + 64) ^^^ idRow128 i) else T) T)
    (Vector.replicate 128 0)

/-- `MatMulMatM128` (lines 3210-3229). -/
def matMulMat128 (A B : Mat 128) : Mat 128 :=
  (List.range 128).foldl (fun C i =>
    (List.range 128).foldl (fun C j =>
      if xorU128 (A.row i &&& (mattrans128 B).row j) then C.setIfInBounds i (Mat.row C i ^^^ idRow128 j) else C) C)
    (Vector.replicate 128 0)

/-- `affinemixM128` (lines 3271-3278). -/
def affinemix128 (a pre : Aff 128) : Aff 128 := ⟨matMulMat128 a.mat pre.mat, matMulNum a.mat pre.vec ^^^ a.vec⟩

/-! ### single bits, comparison, sums -/

section small
variable {n : Nat} [WSize n]

/-- `readbitMn(Mat, i, j)` (lines 533-561), up to 64 bits: 1 or 0. -/
def readbitM (M : Mat n) (i j : Nat) : Nat := if M.has i j then 1 else 0

/-- `flipbitMn` (lines 574-597), up to 64 bits. -/
def flipbitM (M : Mat n) (i j : Nat) : Mat n := M.setIfInBounds i (M.row i ^^^ idRow n j)

/-- `setbitMn(Mat, i, j, bit)` (lines 608-636), up to 64 bits; `bit` is any `int`. -/
def setbitM (M : Mat n) (i j : Nat) (bit : Int) : Mat n := if (readbitM M i j : Int) = bit then M else flipbitM M i j

/-- `isequalMn` (lines 420-494); for 128 bits the words are compared one after the other. -/
def isequalM (A B : Mat n) : Bool := ((List.range n).find? fun i => A.row i != B.row i).isNone

/-- `MatAddMatMn` (lines 3102-3143). -/
def matAddMat (A B : Mat n) : Mat n := Vector.ofFn fun i => A.row i.1 ^^^ B.row i.1

end small

/-- `readbitM128` (lines 563-572). -/
def readbit128 (M : Mat 128) (i j : Nat) : Nat :=
  if j < 64 then if word0 (M.row i) &&& idRow 64 j == idRow 64 j then 1 else 0
  else if word1 (M.row i) &&& idRow 64 (j - 64) == idRow 64 (j - 64) then 1 else 0

/-- `flipbitM128` (lines 599-606). -/
def flipbit128 (M : Mat 128) (i j : Nat) : Mat 128 :=
  if j < 64 then M.setIfInBounds i ((word0 (M.row i) ^^^ idRow 64 j) ++ word1 (M.row i))
  else M.setIfInBounds i (word0 (M.row i) ++ (word1 (M.row i) ^^^ idRow 64 (j - 64)))

/-- `setbitM128` (lines 638-642). -/
def setbit128 (M : Mat 128) (i j : Nat) (bit : Int) : Mat 128 := if (readbit128 M i j : Int) = bit then M else flipbit128 M i j

set_option maxRecDepth 4000 in
/-- `int HW[]` (lines 20-33). -/
def hwTab : Vector Nat 256 := 
  #v[0, 1, 1, 2, 1, 2, 2, 3, 1, 2, 2, 3, 2, 3, 3, 4, 1, 2, 2, 3, 2, 3, 3, 4, 2, 3, 3, 4, 3, 4, 4, 5,
    1, 2, 2, 3, 2, 3, 3, 4, 2, 3, 3, 4, 3, 4, 4, 5, 2, 3, 3, 4, 3, 4, 4, 5, 3, 4, 4, 5, 4, 5, 5, 6,
    1, 2, 2, 3, 2, 3, 3, 4, 2, 3, 3, 4, 3, 4, 4, 5, 2, 3, 3, 4, 3, 4, 4, 5, 3, 4, 4, 5, 4, 5, 5, 6,
    2, 3, 3, 4, 3, 4, 4, 5, 3, 4, 4, 5, 4, 5, 5, 6, 3, 4, 4, 5, 4, 5, 5, 6, 4, 5, 5, 6, 5, 6, 6, 7,
    1, 2, 2, 3, 2, 3, 3, 4, 2, 3, 3, 4, 3, 4, 4, 5, 2, 3, 3, 4, 3, 4, 4, 5, 3, 4, 4, 5, 4, 5, 5, 6,
    2, 3, 3, 4, 3, 4, 4, 5, 3, 4, 4, 5, 4, 5, 5, 6, 3, 4, 4, 5, 4, 5, 5, 6, 4, 5, 5, 6, 5, 6, 6, 7,
    2, 3, 3, 4, 3, 4, 4, 5, 3, 4, 4, 5, 4, 5, 5, 6, 3, 4, 4, 5, 4, 5, 5, 6, 4, 5, 5, 6, 5, 6, 6, 7,
    3, 4, 4, 5, 4, 5, 5, 6, 4, 5, 5, 6, 5, 6, 6, 7, 4, 5, 5, 6, 5, 6, 6, 7, 5, 6, 6, 7, 6, 7, 7, 8]

/-- `HWU8` (lines 1313-1316), also `HWU4`. -/
def hwU8 (n : BitVec 8) : Nat := hwTab[n.toNat]'n.isLt

/-- `HWU16` (lines 1318-1322). -/
def hwU16 (n : BitVec 16) : Nat := hwU8 (n.truncate 8) + hwU8 ((n >>> 8).truncate 8)

/-- `HWU32` (lines 1324-1328). -/
def hwU32 (n : BitVec 32) : Nat := hwU16 (n.truncate 16) + hwU16 ((n >>> 16).truncate 16)

/-- `HWU64` (lines 1330-1334). -/
def hwU64 (n : BitVec 64) : Nat := hwU32 (n.truncate 32) + hwU32 ((n >>> 32).truncate 32)

/-- `HWU128` (lines 1336-1339). -/
def hwU128 (n : BitVec 128) : Nat := hwU64 (word0 n) + hwU64 (word1 n)

/-! ### concatenation -/

/-- The loops of `MatrixcomM16to64` (`k = 4`, `m = 16`, lines 2671-2697), `MatrixcomM8to64` (8, 8, lines 2716-2763),
`MatrixcomM32to128` (4, 32, lines 2786-2812), `MatrixcomM8to128` (16, 8, lines 2832-2920) and `MatrixcomM16to128` (8, 16,
lines 2957-3004): in loop `b` row `m * b + i` of the cleared matrix gets row `i` of argument `b` at the part with index `b`
counted from the most significant one (the pointer arithmetic, on a little-endian machine). -/
def matrixcom {m N : Nat} (k : Nat) (ms : Nat → Mat m) : Mat N :=
  (List.range k).foldl (fun M b => (List.range m).foldl (fun M i =>
    M.setIfInBounds (m * b + i) (((ms b).row i).setWidth N <<< (m * (k - 1 - b)))) M) (Vector.replicate N 0)

/-- `VectorcomV16to64` (lines 2699-2707) and the others of the kind: all parts of the result are assigned. -/
def vectorcom {m N : Nat} (k : Nat) (vs : Nat → BitVec m) : BitVec N :=
  (List.range k).foldl (fun v b => v ||| ((vs b).setWidth N <<< (m * (k - 1 - b)))) 0

/-- `affinecomM16to64` (lines 2709-2714) and the others of the kind. -/
def affinecom {m N : Nat} (k : Nat) (as : Nat → Aff m) : Aff N := ⟨matrixcom k fun b => (as b).mat, vectorcom k fun b => (as b).vec⟩

/-- `MatrixcomM4to8` (lines 3314-3328). The rows of an `M4` are of type `uint8_t`; the first argument is masked, the second
is not. -/
def matrixcom4to8 (m1 m2 : Vector Byte 4) : Mat 8 :=
  Vector.ofFn fun j : Fin 8 => if h : j.1 < 4 then (m1[j.1] &&& 0x0f) <<< 4 else m2[j.1 - 4]

end Verif.Model
