import Verif.Basic

/-!
Bounds-checked access to byte buffers.  `none` is an access outside the object (undefined behaviour).
-/
set_option autoImplicit false

namespace Verif.Model

/-- Read 16 bytes at `off`. -/
def rdBlk (m : List Byte) (off : Nat) : Option Block :=
  if h : off + 16 ≤ m.length then
    some (Vector.ofFn fun i => m[off + i.1]'(by omega))
  else none

/-- Write 16 bytes at `off`. -/
def wrBlk (m : List Byte) (off : Nat) (b : Block) : Option (List Byte) :=
  if off + 16 ≤ m.length then some (m.take off ++ b.toList ++ m.drop (off + 16)) else none

/-- Read one byte at `off`. -/
def rdByte (m : List Byte) (off : Nat) : Option Byte := m[off]?

/-- Write one byte at `off`. -/
def wrByte (m : List Byte) (off : Nat) (b : Byte) : Option (List Byte) :=
  if off < m.length then some (m.set off b) else none

theorem rdBlk_append (pre : List Byte) (b : Block) (post : List Byte) :
    rdBlk (pre ++ (b.toList ++ post)) pre.length = some b := by
  unfold rdBlk
  rw [dif_pos (by simp)]
  congr 1
  ext1 i h
  simp [List.getElem_append_left]

theorem wrBlk_append (pre old post : List Byte) (b : Block) (h : old.length = 16) :
    wrBlk (pre ++ (old ++ post)) pre.length b = some (pre ++ (b.toList ++ post)) := by
  unfold wrBlk
  rw [if_pos (by simp; omega)]
  have : (pre ++ (old ++ post)).drop (pre.length + 16) = post := by
    rw [← h, ← List.append_assoc, List.drop_append_of_le_length (by simp)]
    simp
  simp [this]

end Verif.Model
