import Verif.Basic

/-!
Cutting a byte string into pieces of 16 bytes (the last one possibly shorter), and the
identification of blocks with 128-bit strings (first byte = most significant).
-/
set_option autoImplicit false

namespace Verif

/-- Helper with explicit fuel so that the function reduces in the kernel. -/
def chunksAux : Nat → List Byte → List (List Byte)
  | 0, _ => []
  | _ + 1, [] => []
  | n + 1, b :: l => (b :: l).take 16 :: chunksAux n ((b :: l).drop 16)

/-- Pieces of 16 bytes; the last one has 1 to 16 bytes; the empty string has no piece. -/
def chunks (l : List Byte) : List (List Byte) := chunksAux l.length l

theorem chunksAux_fuel (n : Nat) : ∀ (m : Nat) (l : List Byte), l.length ≤ n → l.length ≤ m →
    chunksAux n l = chunksAux m l := by
  induction n with
  | zero =>
    intro m l h _
    have : l = [] := List.length_eq_zero_iff.mp (by omega)
    subst this
    cases m <;> rfl
  | succ n ih =>
    intro m l h1 h2
    cases l with
    | nil => cases m <;> rfl
    | cons b l =>
      cases m with
      | zero => simp at h2
      | succ m =>
        simp only [chunksAux]
        rw [ih m _ (by simp at *; omega) (by simp at *; omega)]

@[simp] theorem chunks_nil : chunks [] = [] := rfl

theorem chunks_of_ne_nil {l : List Byte} (h : l ≠ []) :
    chunks l = l.take 16 :: chunks (l.drop 16) := by
  cases l with
  | nil => exact absurd rfl h
  | cons b l =>
    show (b :: l).take 16 :: chunksAux l.length ((b :: l).drop 16) = _
    rw [chunksAux_fuel l.length ((b :: l).drop 16).length _ (by simp) (Nat.le_refl _)]
    rfl

/-- Induction following `chunks`. -/
theorem chunks_induction {P : List Byte → Prop} (nil : P [])
    (step : ∀ l, l ≠ [] → P (l.drop 16) → P l) : ∀ l, P l := by
  intro l
  suffices H : ∀ n (l : List Byte), l.length ≤ n → P l from H l.length l (Nat.le_refl _)
  intro n
  induction n with
  | zero => intro l h; obtain rfl := List.length_eq_zero_iff.mp (Nat.le_zero.mp h); exact nil
  | succ n ih =>
    intro l h
    by_cases hl : l = []
    · rw [hl]; exact nil
    · exact step l hl (ih _ (by have := List.length_pos_iff.mpr hl; simp; omega))

theorem chunks_flatten (l : List Byte) : (chunks l).flatten = l := by
  induction l using chunks_induction with
  | nil => rfl
  | step l hl ih => rw [chunks_of_ne_nil hl, List.flatten_cons, ih, List.take_append_drop]

theorem chunks_length_le (l : List Byte) : ∀ c ∈ chunks l, 1 ≤ c.length ∧ c.length ≤ 16 := by
  induction l using chunks_induction with
  | nil => simp
  | step l hl ih =>
    rw [chunks_of_ne_nil hl]
    intro c hc
    have := List.length_pos_iff.mpr hl
    rcases List.mem_cons.mp hc with rfl | hc
    · simp; omega
    · exact ih c hc

theorem chunks_append_aligned (a b : List Byte) (h : a.length % 16 = 0) :
    chunks (a ++ b) = chunks a ++ chunks b := by
  induction a using chunks_induction with
  | nil => simp
  | step a ha ih =>
    have h1 := List.length_pos_iff.mpr ha
    rw [chunks_of_ne_nil ha, chunks_of_ne_nil (by simp [ha]), List.take_append_of_le_length (by omega),
      List.drop_append_of_le_length (by omega), ih (by simp; omega)]
    rfl

theorem length_chunks (l : List Byte) : (chunks l).length = (l.length + 15) / 16 := by
  induction l using chunks_induction with
  | nil => rfl
  | step l hl ih =>
    have h1 := List.length_pos_iff.mpr hl
    rw [chunks_of_ne_nil hl, List.length_cons, ih]
    simp; omega

/-- The 128-bit string of a block: byte 0 holds the most significant bits. -/
def toBV (b : Block) : BitVec 128 :=
  b[0] ++ b[1] ++ b[2] ++ b[3] ++ b[4] ++ b[5] ++ b[6] ++ b[7] ++
  b[8] ++ b[9] ++ b[10] ++ b[11] ++ b[12] ++ b[13] ++ b[14] ++ b[15]

/-- The block of a 128-bit string. -/
def ofBV (v : BitVec 128) : Block := Vector.ofFn fun i => v.extractLsb' (120 - 8 * i.1) 8

end Verif
