import Verif.Basic

/-!
Model of `/repo/WBMatrix/src/WBMatrix.c`: matrices over GF(2) stored as rows of machine words.

The C library repeats the same text for the sizes 4, 8, 16, 32 and 64 (compared textually; only the size and the
names change).  The model is written once for a size `n`; what differs (the table `idMn` and the function `xorUn`)
is in the class `WSize`, with one instance per size.  A 4-bit row is a `BitVec 4` instead of the low nibble of a
`uint8_t` (the generator masks it with 0x0f, line 141).  The 128-bit variants are in MatrixMore (not used by the library).
-/
set_option autoImplicit false

namespace Verif.Model

set_option maxRecDepth 4000 in
/-- `int xor[]` (WBMatrix.c lines 6-17), non-zero as `true`. -/
def xorTab : Vector Bool 256 := #v[false, true, true, false, true, false, false, true, true, false, false, true, false, true, true, false,
  true, false, false, true, false, true, true, false, false, true, true, false, true, false, false, true,
  true, false, false, true, false, true, true, false, false, true, true, false, true, false, false, true,
  false, true, true, false, true, false, false, true, true, false, false, true, false, true, true, false,
  true, false, false, true, false, true, true, false, false, true, true, false, true, false, false, true,
  false, true, true, false, true, false, false, true, true, false, false, true, false, true, true, false,
  false, true, true, false, true, false, false, true, true, false, false, true, false, true, true, false,
  true, false, false, true, false, true, true, false, false, true, true, false, true, false, false, true,
  true, false, false, true, false, true, true, false, false, true, true, false, true, false, false, true,
  false, true, true, false, true, false, false, true, true, false, false, true, false, true, true, false,
  false, true, true, false, true, false, false, true, true, false, false, true, false, true, true, false,
  true, false, false, true, false, true, true, false, false, true, true, false, true, false, false, true,
  false, true, true, false, true, false, false, true, true, false, false, true, false, true, true, false,
  true, false, false, true, false, true, true, false, false, true, true, false, true, false, false, true,
  true, false, false, true, false, true, true, false, false, true, true, false, true, false, false, true,
  false, true, true, false, true, false, false, true, true, false, false, true, false, true, true, false]

/-- The parts of the library that depend on the word size. -/
class WSize (n : Nat) where
  /-- `idMn` (lines 35-50): row `i` of the identity matrix -/
  idM : Vector (BitVec n) n
  /-- `xorUn` (lines 1261-1298) -/
  xorU : BitVec n → Bool

/-- `xorU8` (lines 1267-1271). -/
def xorU8 (n : BitVec 8) : Bool := xorTab[n.toNat]'n.isLt

/-- `xorU4` (lines 1261-1265). -/
def xorU4 (n : BitVec 4) : Bool := xorTab[n.toNat]'(Nat.lt_trans n.isLt (by decide))

/-- `xorU16` (lines 1273-1280). -/
def xorU16 (n : BitVec 16) : Bool := xorU8 (n.truncate 8 ^^^ (n >>> 8).truncate 8)

/-- `xorU32` (lines 1282-1289). -/
def xorU32 (n : BitVec 32) : Bool := xorU16 (n.truncate 16 ^^^ (n >>> 16).truncate 16)

/-- `xorU64` (lines 1291-1298). -/
def xorU64 (n : BitVec 64) : Bool := xorU32 (n.truncate 32 ^^^ (n >>> 32).truncate 32)

/-- `idM4` (line 35) and `xorU4`. -/
instance : WSize 4 where
  idM :=
    #v[0x08, 0x04, 0x02, 0x01]
  xorU := xorU4

/-- `idM8` (line 36) and `xorU8`. -/
instance : WSize 8 where
  idM :=
    #v[0x80, 0x40, 0x20, 0x10, 0x08, 0x04, 0x02, 0x01]
  xorU := xorU8

/-- `idM16` (lines 37-38) and `xorU16`. -/
instance : WSize 16 where
  idM :=
    #v[0x8000, 0x4000, 0x2000, 0x1000, 0x800, 0x400, 0x200, 0x100, 0x80, 0x40, 0x20, 0x10, 0x8, 0x4, 0x2, 0x1]
  xorU := xorU16

/-- `idM32` (lines 39-41) and `xorU32`. -/
instance : WSize 32 where
  idM :=
    #v[0x80000000, 0x40000000, 0x20000000, 0x10000000, 0x8000000, 0x4000000, 0x2000000, 0x1000000, 0x800000,
      0x400000, 0x200000, 0x100000, 0x80000, 0x40000, 0x20000, 0x10000, 0x8000, 0x4000, 0x2000, 0x1000, 0x800,
      0x400, 0x200, 0x100, 0x80, 0x40, 0x20, 0x10, 0x8, 0x4, 0x2, 0x1]
  xorU := xorU32

/-- `idM64` (lines 42-50) and `xorU64`. -/
instance : WSize 64 where
  idM :=
    #v[0x8000000000000000, 0x4000000000000000, 0x2000000000000000, 0x1000000000000000, 0x800000000000000,
      0x400000000000000, 0x200000000000000, 0x100000000000000, 0x80000000000000, 0x40000000000000,
      0x20000000000000, 0x10000000000000, 0x8000000000000, 0x4000000000000, 0x2000000000000, 0x1000000000000,
      0x800000000000, 0x400000000000, 0x200000000000, 0x100000000000, 0x80000000000, 0x40000000000,
      0x20000000000, 0x10000000000, 0x8000000000, 0x4000000000, 0x2000000000, 0x1000000000, 0x800000000,
      0x400000000, 0x200000000, 0x100000000, 0x80000000, 0x40000000, 0x20000000, 0x10000000, 0x8000000,
      0x4000000, 0x2000000, 0x1000000, 0x800000, 0x400000, 0x200000, 0x100000, 0x80000, 0x40000, 0x20000,
      0x10000, 0x8000, 0x4000, 0x2000, 0x1000, 0x800, 0x400, 0x200, 0x100, 0x80, 0x40, 0x20, 0x10, 0x8, 0x4,
      0x2, 0x1]
  xorU := xorU64

/-- `M4`, `M8`, `M16`, `M32`, `M64` (structure.h). -/
abbrev Mat (n : Nat) := Vector (BitVec n) n

variable {n : Nat} [WSize n]

/-- `Mat.M[i]`. -/
def Mat.row (M : Mat n) (i : Nat) : BitVec n := M[i]?.getD 0

/-- `idMn[i]`. -/
def idRow (n : Nat) [WSize n] (i : Nat) : BitVec n := Mat.row (WSize.idM (n := n)) i

/-- `(Mat.M[i] & idMn[j]) == idMn[j]`, the test for bit `(i, j)` used throughout. -/
def Mat.has (M : Mat n) (i j : Nat) : Bool := M.row i &&& idRow n j == idRow n j

/-- `identityMn` (lines 199-237). -/
def identityM (n : Nat) [WSize n] : Mat n := WSize.idM

/-- `MatMulNumMn` (lines 1489-1537) and `MatMulVecMn` (lines 1539-1582), which compute the same. -/
def matMulNum (M : Mat n) (x : BitVec n) : BitVec n :=
  (List.range n).foldl (fun t i => if WSize.xorU (M.row i &&& x) then t ^^^ idRow n i else t) 0

/-- `Affn` (structure.h). -/
structure Aff (n : Nat) where
  mat : Mat n
  vec : BitVec n

/-- `affineUn` (lines 1211-1249). -/
def affineU (a : Aff n) (x : BitVec n) : BitVec n := matMulNum a.mat x ^^^ a.vec

/-- `MattransMn` (lines 3029-3084). -/
def mattrans (M : Mat n) : Mat n :=
  (List.range n).foldl (fun T i =>
    (List.range n).foldl (fun T j =>
      if M.row i &&& idRow n j ≠ 0 then T.setIfInBounds j (Mat.row T j ^^^ idRow n i) else T) T)
    (Vector.replicate n 0)

/-- `MatMulMatMn` (lines 3145-3212). -/
def matMulMat (A B : Mat n) : Mat n :=
  (List.range n).foldl (fun C i =>
    (List.range n).foldl (fun C j =>
      if WSize.xorU (A.row i &&& (mattrans B).row j) then C.setIfInBounds i (Mat.row C i ^^^ idRow n j) else C) C)
    (Vector.replicate n 0)

/-- `affinemixMn` (lines 3231-3270). -/
def affinemix (a pre : Aff n) : Aff n := ⟨matMulMat a.mat pre.mat, matMulNum a.mat pre.vec ^^^ a.vec⟩

/-- `MatrixcomM8to32` (lines 2626-2652); byte 3 of a little-endian word is its most significant byte. -/
def matrixcom8to32 (m1 m2 m3 m4 : Mat 8) : Mat 32 :=
  Vector.ofFn fun j : Fin 32 =>
    if j.1 < 8 then (m1.row j.1 ++ (0 : Byte) ++ (0 : Byte) ++ (0 : Byte) : BitVec 32)
    else if j.1 < 16 then ((0 : Byte) ++ m2.row (j.1 - 8) ++ (0 : Byte) ++ (0 : Byte) : BitVec 32)
    else if j.1 < 24 then ((0 : Byte) ++ (0 : Byte) ++ m3.row (j.1 - 16) ++ (0 : Byte) : BitVec 32)
    else ((0 : Byte) ++ (0 : Byte) ++ (0 : Byte) ++ m4.row (j.1 - 24) : BitVec 32)

/-- `affinecomM8to32` with `VectorcomV8to32` (lines 2654-2669). -/
def affinecom8to32 (a1 a2 a3 a4 : Aff 8) : Aff 32 :=
  ⟨matrixcom8to32 a1.mat a2.mat a3.mat a4.mat, (a1.vec ++ a2.vec ++ a3.vec ++ a4.vec : BitVec 32)⟩

/-! ### row operations and elimination -/

/-- An entry of `trail`: kind, first row, second row. -/
inductive RowOp where
  /-- `M[a] ^= M[b]` -/
  | add (a b : Nat)
  /-- exchange of `M[a]` and `M[b]` -/
  | swap (a b : Nat)
  deriving DecidableEq

/-- Effect of a row operation. -/
def applyRowOp (o : RowOp) (M : Mat n) : Mat n :=
  match o with
  | .add a b => M.setIfInBounds a (M.row a ^^^ M.row b)
  | .swap a b => (M.setIfInBounds a (M.row b)).setIfInBounds b (M.row a)

section elim
variable {σ : Type} (tm : σ → Mat n) (act : RowOp → σ → σ)

/-- The loops `for j..: if (temp.M[j] & id[i]) == id[i]) row j ^= row i`, over the rows `l`. -/
def clearRows (l : List Nat) (i : Nat) (s : σ) : σ :=
  l.foldl (fun s j => if (tm s).has j i then act (.add j i) s else s) s

/-- Body of the forward loop for column `i`: `none` when no pivot is found. -/
def pivotStep (i : Nat) (s : σ) : Option σ :=
  if (tm s).has i i then some (clearRows tm act (List.range' (i + 1) (n - 1 - i)) i s)
  else ((List.range' (i + 1) (n - 1 - i)).find? fun j => (tm s).has j i).map fun j =>
    clearRows tm act (List.range' (i + 1) (n - 1 - i)) i (act (.swap j i) s)

/-- The backward loops `for i = n-1..0, j = i-1..0`. -/
def backElim (s : σ) : σ :=
  (List.range n).reverse.foldl (fun s t => clearRows tm act (List.range t).reverse t s) s

end elim

/-- `isinvertMn` (lines 644-817). -/
def isinvertM (M : Mat n) : Bool :=
  match (List.range n).foldlM (fun s i => pivotStep id applyRowOp i s) M with
  | none => false
  | some s => s.row (n - 1) == idRow n (n - 1)

/-- `invsMn` (lines 886-1104): pairs of working matrix and `Mat_inv`. -/
def invsM (M : Mat n) : Mat n :=
  let act : RowOp → Mat n × Mat n → Mat n × Mat n := fun o s => (applyRowOp o s.1, applyRowOp o s.2)
  let s := (List.range n).foldl (fun s i =>
    (pivotStep Prod.fst act i s).getD (clearRows Prod.fst act (List.range' (i + 1) (n - 1 - i)) i s)) (M, identityM n)
  (backElim Prod.fst act s).2

/-- Local variables of `genMatpairMn`: `tempMat`, `*Mat_inv`, `trail[0..times)`, `invertible`, and the number of
values taken from the random stream. -/
structure Gen (n : Nat) where
  temp : Mat n
  inv : Mat n
  trail : List RowOp
  invertible : Bool
  pos : Nat

/-- A row operation applied to `tempMat` and `Mat_inv` and logged in `trail`. -/
def Gen.log (o : RowOp) (s : Gen n) : Gen n :=
  { s with temp := applyRowOp o s.temp, inv := applyRowOp o s.inv, trail := s.trail ++ [o] }

/-- The same without the log (lines 1861-1869). -/
def Gen.nolog (o : RowOp) (s : Gen n) : Gen n := { s with temp := applyRowOp o s.temp, inv := applyRowOp o s.inv }

/-- The branch "can not find 1" (lines 1795-1820). -/
def genFail (rnd : Nat → BitVec 32) (i : Nat) (s : Gen n) : Gen n :=
  let s := { s with invertible := false }
  if i < n - 1 then
    let p := i + 1 + (rnd s.pos).toNat % (n - 1 - i)
    let s := Gen.log (.swap p i) { s with pos := s.pos + 1 }
    (List.range' (i + 1) (n - 1 - i)).foldl (fun s t =>
      let r := rnd s.pos
      let s := { s with pos := s.pos + 1 }
      if r.toNat % 2 = 1 then Gen.log (.add t i) s else s) s
  else s

/-- `genMatpairMn` (lines 1601-2289) from the first random matrix on: forward loop. -/
def genForward (rnd : Nat → BitVec 32) (s : Gen n) : Gen n :=
  (List.range n).foldl (fun s i => (pivotStep Gen.temp Gen.log i s).getD (genFail rnd i s)) s

/-- Result of `genMatpairMn`: the two matrices, the number of `trail` entries written, random values used. -/
structure MatPair (n : Nat) where
  mat : Mat n
  inv : Mat n
  times : Nat
  pos : Nat

/-- Number of `cus_random()` values that `randMn` (lines 136-197) takes for a row. -/
def rowWords (n : Nat) : Nat := if n ≤ 32 then 1 else if n ≤ 64 then 2 else 4

/-- A row of `randMn` (lines 136-197): up to 32 bits a value converted to the row type, else two or four values, the first
one most significant. -/
def randRow (n : Nat) (rnd : Nat → BitVec 32) (pos : Nat) : BitVec n :=
  if n ≤ 32 then (rnd pos).setWidth n
  else if n ≤ 64 then (rnd pos ++ rnd (pos + 1) : BitVec 64).setWidth n
  else ((rnd pos ++ rnd (pos + 1)) ++ (rnd (pos + 2) ++ rnd (pos + 3)) : BitVec 128).setWidth n

/-- `randMn` (lines 136-197). -/
def randM (n : Nat) (rnd : Nat → BitVec 32) (pos : Nat) : Mat n := Vector.ofFn fun i => randRow n rnd (pos + rowWords n * i.1)

/-- `genMatpairMn` (lines 1601-2289).  `rnd` is the stream of `cus_random()` values, read from position `pos`. -/
def genMatpair (n : Nat) [WSize n] (rnd : Nat → BitVec 32) (pos : Nat) : MatPair n :=
  let result := randM n rnd pos
  let s := genForward rnd ⟨result, identityM n, [], true, pos + rowWords n * n⟩
  if s.invertible then
    let s' := backElim Gen.temp Gen.nolog s
    ⟨result, s'.inv, s.trail.length, s.pos⟩
  else
    let s' := backElim Gen.temp Gen.log s
    ⟨s'.trail.reverse.foldl (fun M o => applyRowOp o M) (identityM n), s'.inv, s'.trail.length, s'.pos⟩

/-- Values `rnd pos`, .. as 16-bit parts, the first one most significant. -/
def rnd16 (rnd : Nat → BitVec 32) (pos : Nat) : Nat → BitVec 128
  | 0 => 0
  | k + 1 => (rnd16 rnd pos k <<< 16) ||| ((rnd (pos + k)).truncate 16).setWidth 128

/-- `randVn` (lines 252-300): one value up to 16 bits, else 16 bits from each of two, four or eight values. -/
def randV (n : Nat) (rnd : Nat → BitVec 32) (pos : Nat) : BitVec n × Nat :=
  if n ≤ 16 then ((rnd pos).setWidth n, pos + 1)
  else ((rnd16 rnd pos (n / 16)).setWidth n, pos + n / 16)

/-- `genaffinepairMn` (lines 2584-2617). -/
def genaffinepair (n : Nat) [WSize n] (rnd : Nat → BitVec 32) (pos : Nat) : Aff n × Aff n × Nat :=
  let p := genMatpair n rnd pos
  let v := randV n rnd p.pos
  (⟨p.mat, v.1⟩, ⟨p.inv, matMulNum p.inv v.1⟩, v.2)

/-! ### permutations -/

/-- Exchange of `permutation[i]` and `permutation[j]`. -/
def swapAt {N : Nat} (p : Vector (Fin N) N) (i j : Fin N) : Vector (Fin N) N := (p.set i p[j]).set j p[i]

/-- The shuffle of `genPermutation4` (`N = 16`, lines 3283-3291) and `genPermutation8` (`N = 256`, lines 3300-3308).
The `uint8_t` entries are below `N`, here by typing. -/
def permShuffle (N : Nat) (rnd : Nat → BitVec 32) : Vector (Fin N) N :=
  (List.finRange N).foldl (fun p i =>
    if h : i.1 + 1 < N then
      swapAt p i ⟨i.1 + (rnd i.1).toNat % (N - i.1), by
        have := Nat.mod_lt (rnd i.1).toNat (show 0 < N - i.1 by omega); omega⟩
    else p) (Vector.ofFn id)

/-- The loop `inverse[permutation[i]] = i` (lines 3292-3294, 3309-3311); `junk` is the previous content of `inverse`. -/
def permInvert {N : Nat} (p junk : Vector (Fin N) N) : Vector (Fin N) N :=
  (List.finRange N).foldl (fun q i => q.set (p[i] : Fin N) i) junk

/-- `genPermutation4`, `genPermutation8` (lines 3280-3312): permutation and inverse. -/
def genPermutation {N : Nat} (rnd : Nat → BitVec 32) (junk : Vector (Fin N) N) : Vector (Fin N) N × Vector (Fin N) N :=
  (permShuffle N rnd, permInvert (permShuffle N rnd) junk)

end Verif.Model
