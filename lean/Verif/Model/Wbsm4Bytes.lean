import Verif.Model.Wbsm4File
import Verif.Model.Wbaes

/-! Model of `WBCRYPTO_wbsm4_key2bytes`, `WBCRYPTO_wbsm4_bytes2key` (`/repo/src/wbsm4/wbsm4_exkey.c` lines 102-128) and of the
`..._context_free` functions. The structure holds pointers, so the tables live in a heap; 64-bit little-endian platform. -/
set_option autoImplicit false

namespace Verif.Model

/-- The tables reachable through the pointers of white-box SM4 contexts. -/
structure WbHeap where
  mm : BitVec 64 → Option (List (Fin 3 → Tab4))
  cc : BitVec 64 → Option (List Tab4)
  dd : BitVec 64 → Option (List Tab4)
  table : BitVec 64 → Option (List Tab4)

/-- `struct wbsm4_context` (wbsm4.h lines 12-25) with its pointers. -/
structure Wbsm4Struct where
  rounds : BitVec 32
  encmode : BitVec 32
  mm : BitVec 64
  cc : BitVec 64
  dd : BitVec 64
  se : Fin 4 → Tab4
  fe : Fin 4 → Tab4
  table : BitVec 64

/-- The words of a `uint32_t [4][4][256]` in memory order. -/
def tabWords (t : Fin 4 → Tab4) : List (BitVec 32) :=
  (List.range 4096).map fun n => t (Fin.ofNat 4 (n / 1024)) (Fin.ofNat 4 (n / 256)) (BitVec.ofNat 8 n)

/-- A pointer as two words. -/
def ptrWords (p : BitVec 64) : List (BitVec 32) := [p.truncate 32, (p >>> 32).truncate 32]

/-- The structure as 8202 words of memory (32808 bytes; there is no padding). -/
def structWords (s : Wbsm4Struct) : List (BitVec 32) :=
  [s.rounds, s.encmode] ++ ptrWords s.mm ++ ptrWords s.cc ++ ptrWords s.dd ++ tabWords s.se ++ tabWords s.fe ++ ptrWords s.table

/-- `WBCRYPTO_wbsm4_key2bytes` (lines 102-117): the length 32812 and the bytes of the structure. -/
def key2bytes (s : Wbsm4Struct) : List Byte := wordLE 32812 ++ (structWords s).flatMap wordLE

/-- `n` words; `none` if memory behind the object would be read. -/
def takeWords : Nat → List Byte → Option (List (BitVec 32))
  | 0, _ => some []
  | n + 1, l => (freadWord l).bind fun (w, r) => (takeWords n r).map (w :: ·)

/-- The structure found in 8202 words. -/
def structOfWords (w : List (BitVec 32)) : Wbsm4Struct where
  rounds := w.getD 0 0
  encmode := w.getD 1 0
  mm := w.getD 3 0 ++ w.getD 2 0
  cc := w.getD 5 0 ++ w.getD 4 0
  dd := w.getD 7 0 ++ w.getD 6 0
  se i j k := w.getD (8 + (i.1 * 1024 + j.1 * 256 + k.toNat)) 0
  fe i j k := w.getD (4104 + (i.1 * 1024 + j.1 * 256 + k.toNat)) 0
  table := w.getD 8201 0 ++ w.getD 8200 0

/-- `WBCRYPTO_wbsm4_bytes2key` (lines 119-128): the four length bytes are skipped. -/
def bytes2key (stream : List Byte) : Option Wbsm4Struct := (takeWords 8202 (stream.drop 4)).map structOfWords

/-- The tables of a structure in a heap: `none` if a pointer is dangling or an array has fewer than `rounds` entries. -/
def WbHeap.load (h : WbHeap) (s : Wbsm4Struct) (mode : EncMode) : Option Wbsm4Ctx :=
  let n := loopBound s.rounds
  if n = 0 then some { rnds := [], encmode := mode, se := s.se, fe := s.fe }
  else do
    let mm ← h.mm s.mm
    let cc ← h.cc s.cc
    let dd ← h.dd s.dd
    let tb ← h.table s.table
    if n ≤ mm.length ∧ n ≤ cc.length ∧ n ≤ dd.length ∧ n ≤ tb.length then
      let rows := List.zip (mm.take n) (List.zip (cc.take n) (List.zip (dd.take n) (tb.take n)))
      some { rnds := rows.map fun (a, b, c, d) => ⟨a, b, c, d⟩, encmode := mode, se := s.se, fe := s.fe }
    else none

/-- `WBCRYPTO_wbsm4_encrypt` through the pointers; the mode field is not used. -/
def wbsm4EncryptHeap (h : WbHeap) (s : Wbsm4Struct) (x : Block) : Option Block :=
  (h.load s .encrypt).map fun c => wbsm4Encrypt c x

/-- `WBCRYPTO_wbsm4_context_free` (wbsm4.c lines 47-49): `memset`; no table is freed. -/
def wbsm4Cleared : Wbsm4Struct :=
  { rounds := 0, encmode := 0, mm := 0, cc := 0, dd := 0, se := fun _ _ _ => 0, fe := fun _ _ _ => 0, table := 0 }

/-- What `WBCRYPTO_wbaes_context_init` (wbaes.c lines 3-14) and `WBCRYPTO_wbaes_context_free` (lines 16-18) leave: zeros. -/
def wbaesCleared : WbaesCtx :=
  { tab := { typeII := fun _ _ _ => 0, typeII9 := fun _ _ => 0, typeIII := fun _ _ _ => 0, typeIVII := fun _ _ _ _ _ _ => 0,
             typeIVIII := fun _ _ _ _ _ _ => 0, typeIa := fun _ _ => 0 }
    typeIb := fun _ _ => 0 }

end Verif.Model
