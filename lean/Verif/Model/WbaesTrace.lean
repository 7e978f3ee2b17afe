import Verif.Model.Wbaes
import Verif.Model.WbTrace

/-!
The encryption of `/repo/src/wbaes/wbaes.c` with a record of its table lookups: which table, which entry.
-/
set_option autoImplicit false

namespace Verif.Model

/-- A lookup in the tables of a context (wbaes.h lines 13-20): `i` is the round, `j` the byte or the column, `x` and `y` the entry. -/
inductive WaLook where
  | ia (j : Fin 16) (x : Byte)
  | ii (i : Nat) (j : Fin 16) (x : Byte)
  | ivii (i : Nat) (j : Fin 4) (s : Fin 3) (k : Fin 8) (x y : Nib)
  | iii (i : Nat) (j : Fin 16) (x : Byte)
  | iviii (i : Nat) (j : Fin 4) (s : Fin 3) (k : Fin 8) (x y : Nib)
  | ib (j : Fin 16) (x : Byte)
  deriving DecidableEq

/-- The lookup of an entry. -/
def lookAt {ι α : Type} (name : ι → WaLook) (T : ι → α) (x : ι) : WithLog WaLook α := ⟨T x, [name x]⟩

/-- One stage of `TypeIV` tables (wbaes.c lines 325-341), nibble by nibble. -/
def combineTr (name : Fin 8 → Nib → Nib → WaLook) (T : Fin 8 → Nib → Nib → Nib) (a b : BitVec 32) : WithLog WaLook (BitVec 32) :=
  ⟨combine T a b, (List.finRange 8).map fun k => name k (nib a k) (nib b k)⟩

/-- The third stage (wbaes.c lines 343-350). -/
def combineBytesTr (name : Fin 8 → Nib → Nib → WaLook) (T : Fin 8 → Nib → Nib → Nib) (a b : BitVec 32) : WithLog WaLook (Fin 4 → Byte) :=
  ⟨combineByte T a b, (List.finRange 8).map fun k => name k (nib a k) (nib b k)⟩

/-- wbaes.c lines 320-350 and 352-382: four lookups and the three stages. -/
def lookCombineTr (name : Fin 4 → Byte → WaLook) (name4 : Fin 3 → Fin 8 → Nib → Nib → WaLook) (T : Fin 4 → Byte → BitVec 32)
    (T4 : Fin 3 → Fin 8 → Nib → Nib → Nib) (s : Fin 4 → Byte) : WithLog WaLook (Fin 4 → Byte) := do
  let a ← lookAt (name 0) (T 0) (s 0)
  let b ← lookAt (name 1) (T 1) (s 1)
  let c ← lookAt (name 2) (T 2) (s 2)
  let d ← lookAt (name 3) (T 3) (s 3)
  let ab ← combineTr (name4 0) (T4 0) a b
  let cd ← combineTr (name4 1) (T4 1) c d
  combineBytesTr (name4 2) (T4 2) ab cd

/-- Body of the loop over `j` (wbaes.c lines 319-382) on column `j`. -/
def wbaesColTr (c : WbaesTables) (s : Block) (i : Fin 9) (j : Fin 4) : WithLog WaLook (Fin 4 → Byte) := do
  let u ← lookCombineTr (fun k => .ii i.1 (at4 j k)) (fun s k => .ivii i.1 j s k) (fun k => c.typeII i (at4 j k)) (c.typeIVII i j)
    fun k => s[at4 j k]
  lookCombineTr (fun k => .iii i.1 (at4 j k)) (fun s k => .iviii i.1 j s k) (fun k => c.typeIII i (at4 j k)) (c.typeIVIII i j) u

/-- Body of the loop over `i` (wbaes.c lines 317-383). -/
def wbaesRoundTr (c : WbaesTables) (s : Block) (i : Fin 9) : WithLog WaLook Block := do
  let s := wbShiftRows s
  let c0 ← wbaesColTr c s i 0
  let c1 ← wbaesColTr c s i 1
  let c2 ← wbaesColTr c s i 2
  let c3 ← wbaesColTr c s i 3
  pure (Vector.ofFn fun m => match colOf m with | 0 => c0 (rowOf m) | 1 => c1 (rowOf m) | 2 => c2 (rowOf m) | 3 => c3 (rowOf m))

/-- A lookup for each byte of a block. -/
def bytesTr (name : Fin 16 → Byte → WaLook) (T : Fin 16 → Byte → Byte) (s : Block) : WithLog WaLook Block :=
  ⟨Vector.ofFn fun j => T j s[j], (List.finRange 16).map fun j => name j s[j]⟩

/-- `aux_WBCRYPTO_wbaes_encrypt` (wbaes.c lines 309-390). -/
def auxWbaesEncryptTr (c : WbaesTables) (x : Block) : WithLog WaLook Block := do
  let s ← (List.finRange 9).foldlM (wbaesRoundTr c) x
  let s := wbShiftRows s
  bytesTr (.ii 9) (fun j x => (c.typeII9 j x).truncate 8) s

/-- `WBCRYPTO_wbaes_encrypt` (wbaes.c lines 392-407). -/
def wbaesEncryptTr (c : WbaesCtx) (x : Block) : WithLog WaLook Block := do
  let x ← bytesTr .ia c.tab.typeIa x
  let y ← auxWbaesEncryptTr c.tab x
  bytesTr .ib c.typeIb y

end Verif.Model
