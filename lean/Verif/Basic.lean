/-!
Basic types shared by the model and the specifications: bytes, 16-byte blocks, xor of blocks.
-/

set_option autoImplicit false

namespace Verif

/-- C `unsigned char` / `uint8_t`. -/
abbrev Byte := BitVec 8

/-- A 16-byte block (`unsigned char x[16]`). -/
abbrev Block := Vector Byte 16

/-- Lane-wise exclusive or of two equally long vectors of machine words. -/
instance instXorVector {w n : Nat} : XorOp (Vector (BitVec w) n) :=
  ⟨fun a b => Vector.zipWith (fun x y => x ^^^ y) a b⟩

/-- The all-zero block. -/
def zeroBlock : Block := Vector.replicate 16 0

/-- Concatenation of blocks as a byte string. -/
def fromBlocks (bs : List Block) : List Byte := bs.flatMap Vector.toList

section lemmas
variable {w n : Nat}

theorem Vec.getElem_xor (a b : Vector (BitVec w) n) (i : Nat) (h : i < n) :
    (a ^^^ b)[i] = a[i] ^^^ b[i] := by
  show (Vector.zipWith _ a b)[i] = _
  simp

theorem Vec.xor_comm (a b : Vector (BitVec w) n) : a ^^^ b = b ^^^ a := by
  ext1 i h; simp only [Vec.getElem_xor, BitVec.xor_comm]

theorem Vec.xor_assoc (a b c : Vector (BitVec w) n) : a ^^^ b ^^^ c = a ^^^ (b ^^^ c) := by
  ext1 i h; simp only [Vec.getElem_xor, BitVec.xor_assoc]

theorem Vec.xor_self (a : Vector (BitVec w) n) : a ^^^ a = Vector.replicate n 0 := by
  ext1 i h; simp [Vec.getElem_xor]

theorem Vec.xor_zero (a : Vector (BitVec w) n) : a ^^^ Vector.replicate n 0 = a := by
  ext1 i h; simp [Vec.getElem_xor]

theorem Vec.zero_xor (a : Vector (BitVec w) n) : Vector.replicate n 0 ^^^ a = a := by
  ext1 i h; simp [Vec.getElem_xor]

theorem Vec.xor_cancel_right (a b : Vector (BitVec w) n) : a ^^^ b ^^^ b = a := by
  rw [Vec.xor_assoc, Vec.xor_self, Vec.xor_zero]

theorem Vec.xor_cancel_left (a b : Vector (BitVec w) n) : a ^^^ (a ^^^ b) = b := by
  rw [← Vec.xor_assoc, Vec.xor_self, Vec.zero_xor]

theorem Vec.toList_xor (a b : Vector (BitVec w) n) :
    (a ^^^ b).toList = List.zipWith (fun x y => x ^^^ y) a.toList b.toList := by
  show (Vector.zipWith _ a b).toList = _
  simp

end lemmas

@[simp] theorem fromBlocks_nil : fromBlocks [] = [] := rfl

@[simp] theorem fromBlocks_cons (b : Block) (bs : List Block) :
    fromBlocks (b :: bs) = b.toList ++ fromBlocks bs := by
  simp [fromBlocks]

@[simp] theorem fromBlocks_append (as bs : List Block) :
    fromBlocks (as ++ bs) = fromBlocks as ++ fromBlocks bs := by
  simp [fromBlocks]

@[simp] theorem length_fromBlocks (bs : List Block) : (fromBlocks bs).length = 16 * bs.length := by
  induction bs with
  | nil => rfl
  | cons b bs ih => simp [ih]; omega

/-- Every byte string of length divisible by 16 is a concatenation of blocks. -/
theorem exists_blocks (l : List Byte) (h : l.length % 16 = 0) : ∃ bs, fromBlocks bs = l := by
  suffices H : ∀ n (l : List Byte), l.length = 16 * n → ∃ bs, fromBlocks bs = l from
    H (l.length / 16) l (by omega)
  intro n
  induction n with
  | zero => intro l hl; exact ⟨[], by simp at hl; simp [hl]⟩
  | succ n ih =>
    intro l hl
    obtain ⟨bs, hbs⟩ := ih (l.drop 16) (by simp; omega)
    refine ⟨⟨(l.take 16).toArray, by simp; omega⟩ :: bs, ?_⟩
    simp [hbs, Vector.toList]

theorem fromBlocks_inj {as bs : List Block} (h : fromBlocks as = fromBlocks bs) : as = bs := by
  induction as generalizing bs with
  | nil =>
    cases bs with
    | nil => rfl
    | cons b bs => exact absurd (congrArg List.length h) (by simp; try omega)
  | cons a as ih =>
    cases bs with
    | nil => exact absurd (congrArg List.length h) (by simp; try omega)
    | cons b bs =>
      simp only [fromBlocks_cons] at h
      obtain ⟨h1, h2⟩ := List.append_inj h (by simp)
      rw [ih h2]
      congr 1
      exact Vector.toList_inj.mp h1

end Verif
