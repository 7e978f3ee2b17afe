import Verif.Model.Endian
import Verif.Spec.Endian
import Verif.Lemmas.Wbaes
import Verif.Lemmas.SeSelfEq

/-! The combination of matrices on a big-endian machine. -/
set_option autoImplicit false
set_option linter.unusedSimpArgs false

namespace Verif
open Spec Model Props

theorem matMulNum_comBig (m1 m2 m3 m4 : Mat 8) (a b c d : Byte) :
    matMulNum (matrixcomOn .big m1 m2 m3 m4) (a ++ b ++ c ++ d : BitVec 32) =
      (matMulNum m1 d ++ matMulNum m2 c ++ matMulNum m3 b ++ matMulNum m4 a : BitVec 32) := by
  apply bits_ext
  intro i hi
  have h1 := bits_append (matMulNum m1 d ++ matMulNum m2 c ++ matMulNum m3 b) (matMulNum m4 a) i
  have h2 := bits_append (matMulNum m1 d ++ matMulNum m2 c) (matMulNum m3 b) i
  have h3 := bits_append (matMulNum m1 d) (matMulNum m2 c) i
  simp only [Nat.reduceAdd] at h1 h2 h3
  rw [bits_matMulNum' _ _ hi, matrixcomOn, row_ofFn _ hi, h1, h2, h3]
  simp only [ByteOrder.word]
  have e0 : parity (0 : Byte) = false := by decide
  have z : ∀ y : Byte, 0 &&& y = 0 := fun y => BitVec.zero_and
  have key : ∀ p q r s : Byte, parity ((p ++ q ++ r ++ s : BitVec 32) &&& (a ++ b ++ c ++ d : BitVec 32)) =
      (((parity (p &&& a) ^^ parity (q &&& b)) ^^ parity (r &&& c)) ^^ parity (s &&& d)) := by
    intro p q r s
    have h : ((p ++ q ++ r ++ s : BitVec 32) &&& (a ++ b ++ c ++ d : BitVec 32)) =
        ((p &&& a) ++ (q &&& b) ++ (r &&& c) ++ (s &&& d) : BitVec 32) := by
      have e1 := BitVec.and_append (x₁ := p ++ q ++ r) (x₂ := a ++ b ++ c) (y₁ := s) (y₂ := d)
      have e2 := BitVec.and_append (x₁ := p ++ q) (x₂ := a ++ b) (y₁ := r) (y₂ := c)
      have e3 := BitVec.and_append (x₁ := p) (x₂ := a) (y₁ := q) (y₂ := b)
      simp only [Nat.reduceAdd] at e1 e2 e3
      rw [e1, e2, e3]
    rw [h]
    have p1 := parity_append ((p &&& a) ++ (q &&& b) ++ (r &&& c)) (s &&& d)
    have p2 := parity_append ((p &&& a) ++ (q &&& b)) (r &&& c)
    have p3 := parity_append (p &&& a) (q &&& b)
    simp only [Nat.reduceAdd] at p1 p2 p3
    rw [p1, p2, p3]
  by_cases h8 : i < 8
  · simp only [h8, show i < 16 by omega, show i < 24 by omega, if_true, key, z, e0, Bool.xor_false, Bool.false_xor]
    rw [bits_matMulNum' _ _ h8]
  · by_cases h16 : i < 16
    · simp only [h8, h16, show i < 24 by omega, if_true, if_false, key, z, e0, Bool.xor_false, Bool.false_xor]
      rw [bits_matMulNum' _ _ (by omega)]
    · by_cases h24 : i < 24
      · simp only [h8, h16, h24, if_true, if_false, key, z, e0, Bool.xor_false, Bool.false_xor]
        rw [bits_matMulNum' _ _ (by omega)]
      · simp only [h8, h16, h24, if_false, key, z, e0, Bool.xor_false, Bool.false_xor]
        rw [bits_matMulNum' _ _ (by omega)]

theorem opp (t : Fin 4) : t = 0 ∨ t = 1 ∨ t = 2 ∨ t = 3 := by revert t; decide

/-- Bytes of a product with the combined matrix: the other end of the word. -/
theorem comBig_wbyte (M : Fin 4 → Mat 8) (x : BitVec 32) (t : Fin 4) :
    wbyte (matMulNum (matrixcomOn .big (M 0) (M 1) (M 2) (M 3)) x) t = matMulNum (M t) (wbyte x (3 - t)) := by
  have hx := matMulNum_comBig (M 0) (M 1) (M 2) (M 3) (wbyte x 0) (wbyte x 1) (wbyte x 2) (wbyte x 3)
  rw [append4_assoc, append4_assoc, word_of_bytes] at hx
  rw [hx]
  obtain ⟨h0, h1, h2, h3⟩ := wbyte_app (matMulNum (M 0) (wbyte x 3)) (matMulNum (M 1) (wbyte x 2)) (matMulNum (M 2) (wbyte x 1))
    (matMulNum (M 3) (wbyte x 0))
  rcases opp t with rfl | rfl | rfl | rfl
  · exact h0
  · exact h1
  · exact h2
  · exact h3

/-- Bytes of a combined affine map. -/
theorem comBig_aff (a : Fin 4 → Aff 8) (x : BitVec 32) (t : Fin 4) :
    wbyte (affineU (affinecomOn .big (a 0) (a 1) (a 2) (a 3)) x) t =
      matMulNum (a t).mat (wbyte x (3 - t)) ^^^ (a (3 - t)).vec := by
  unfold affineU affinecomOn
  rw [wbyte_xor, comBig_wbyte (fun t => (a t).mat)]
  congr 1
  simp only [ByteOrder.word, append4_assoc]
  obtain ⟨h0, h1, h2, h3⟩ := wbyte_app (a 3).vec (a 2).vec (a 1).vec (a 0).vec
  rcases opp t with rfl | rfl | rfl | rfl
  · exact h0
  · exact h1
  · exact h2
  · exact h3

theorem wbyte_ext (x y : BitVec 32) (h : ∀ t, wbyte x t = wbyte y t) : x = y := by
  rw [← word_of_bytes x, ← word_of_bytes y, h, h, h, h]

theorem wbyte_extract (x : BitVec 32) : wbyte x 0 = x.extractLsb' 24 8 ∧ wbyte x 1 = x.extractLsb' 16 8 ∧
    wbyte x 2 = x.extractLsb' 8 8 ∧ wbyte x 3 = x.extractLsb' 0 8 := by
  simp only [wbyte, trunc_shift]
  exact ⟨rfl, rfl, rfl, rfl⟩

theorem mirror_wbyte (x : BitVec 32) (t : Fin 4) : wbyte (mirror x) t = wbyte x (3 - t) := by
  obtain ⟨e0, e1, e2, e3⟩ := wbyte_extract x
  have h : mirror x = (wbyte x 3 ++ wbyte x 2) ++ (wbyte x 1 ++ wbyte x 0) := by rw [e0, e1, e2, e3]; rfl
  rw [h]
  obtain ⟨h0, h1, h2, h3⟩ := wbyte_app (wbyte x 3) (wbyte x 2) (wbyte x 1) (wbyte x 0)
  rcases opp t with rfl | rfl | rfl | rfl
  · exact h0
  · exact h1
  · exact h2
  · exact h3

theorem mirror_mirror (x : BitVec 32) : mirror (mirror x) = x := by
  apply wbyte_ext
  intro t
  rw [mirror_wbyte, mirror_wbyte]
  rcases opp t with rfl | rfl | rfl | rfl <;> rfl

/-- `tau` by bytes. -/
theorem tau_wbyte (x : BitVec 32) (t : Fin 4) : wbyte (sm4Tau x) t = sm4Sbox (wbyte x t) := by
  obtain ⟨e0, e1, e2, e3⟩ := wbyte_extract x
  have h : sm4Tau x = (sm4Sbox (wbyte x 0) ++ sm4Sbox (wbyte x 1)) ++ (sm4Sbox (wbyte x 2) ++ sm4Sbox (wbyte x 3)) := by
    rw [e0, e1, e2, e3]; rfl
  rw [h]
  obtain ⟨h0, h1, h2, h3⟩ := wbyte_app (sm4Sbox (wbyte x 0)) (sm4Sbox (wbyte x 1)) (sm4Sbox (wbyte x 2)) (sm4Sbox (wbyte x 3))
  rcases opp t with rfl | rfl | rfl | rfl
  · exact h0
  · exact h1
  · exact h2
  · exact h3

/-- The word made of four bytes. -/
def wordOf (f : Fin 4 → Byte) : BitVec 32 := (f 0 ++ f 1) ++ (f 2 ++ f 3)

theorem wordOf_wbyte (f : Fin 4 → Byte) (t : Fin 4) : wbyte (wordOf f) t = f t := by
  obtain ⟨h0, h1, h2, h3⟩ := wbyte_app (f 0) (f 1) (f 2) (f 3)
  rcases opp t with rfl | rfl | rfl | rfl
  · exact h0
  · exact h1
  · exact h2
  · exact h3

theorem wordOf_eq (f : Fin 4 → Byte) (x : BitVec 32) (h : ∀ t, wbyte x t = f t) : wordOf f = x :=
  wbyte_ext _ _ fun t => by rw [wordOf_wbyte, h]

end Verif
