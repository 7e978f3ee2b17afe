import Verif.Spec.Padding
import Verif.Model.Padding

/-! Properties C01, C02, C32: padding. -/
set_option autoImplicit false

namespace Verif.Props
open Verif Verif.Model

theorem signExtend_ofNat {n : Nat} (h : n < 2 ^ 31) :
    (BitVec.ofNat 32 n).signExtend 64 = BitVec.ofNat 64 n := by
  apply BitVec.eq_of_toInt_eq
  rw [BitVec.toInt_signExtend_of_le (by omega)]
  simp only [BitVec.toInt_ofNat', Int.bmod]
  omega

theorem ofNat32_sub {a b : Nat} (h : b ≤ a) :
    BitVec.ofNat 32 a - BitVec.ofNat 32 b = BitVec.ofNat 32 (a - b) := by
  apply BitVec.eq_of_toNat_eq
  simp only [BitVec.toNat_sub, BitVec.toNat_ofNat]
  omega

/-- Merge computes the specified padding and never leaves its domain below `2^31 - 16` bytes. -/
theorem pkcs7Merge_eq_spec (m : List Byte) (h : m.length < 2 ^ 31 - 16) :
    pkcs7Merge m = some (Spec.pkcs7 m) := by
  have hp : padLen m.length = m.length + Spec.padCount m.length := by
    unfold padLen Spec.padCount; split <;> omega
  have hc : Spec.padCount m.length < 16 := by unfold Spec.padCount; omega
  unfold pkcs7Merge Spec.pkcs7
  simp only [hp]
  rw [if_pos (by omega)]
  by_cases h0 : Spec.padCount m.length = 0
  · simp [h0]
  · rw [if_pos (by omega)]
    simp

/-- C01: for messages whose length is not a multiple of 16: the padded length is the next multiple
of 16, the message is a prefix, the 1..15 added bytes all equal their number, and stripping returns
the message. -/
theorem C01_pad_roundtrip (m : List Byte) (h : m.length < 2 ^ 31 - 16) (hu : m.length % 16 ≠ 0) :
    ∃ p k, pkcs7Merge m = some p ∧ 1 ≤ k ∧ k ≤ 15 ∧ p = m ++ List.replicate k (BitVec.ofNat 8 k) ∧
      p.length = (m.length / 16 + 1) * 16 ∧
      mergeLength m.length = BitVec.ofNat 64 p.length ∧
      pkcs7Separate p = some m ∧ separateLength p = some (BitVec.ofNat 64 m.length) := by
  have hk : Spec.padCount m.length = 16 - m.length % 16 := by unfold Spec.padCount; omega
  refine ⟨Spec.pkcs7 m, 16 - m.length % 16, pkcs7Merge_eq_spec m h, by omega, by omega,
    by simp only [Spec.pkcs7, hk], by simp only [Spec.pkcs7, hk, List.length_append, List.length_replicate]; omega, ?_, ?_, ?_⟩
  · simp only [mergeLength, Spec.pkcs7, hk, List.length_append, List.length_replicate, padLen, if_neg hu]
    rw [signExtend_ofNat (by omega)]
    congr 1; omega
  all_goals
    have hne : Spec.pkcs7 m ≠ [] := by
      intro hc; have := congrArg List.length hc
      simp only [Spec.pkcs7, List.length_append, List.length_replicate, List.length_nil] at this; omega
    have hl : (Spec.pkcs7 m).getLast hne = BitVec.ofNat 8 (16 - m.length % 16) := by
      simp only [Spec.pkcs7, hk]
      rw [List.getLast_append_of_ne_nil _ (by simp; omega)]
      simp
    have hs : stripNum (BitVec.ofNat 8 (16 - m.length % 16)) = 16 - m.length % 16 := by
      simp only [stripNum, BitVec.toNat_ofNat]; split <;> omega
    have hlen : (Spec.pkcs7 m).length = m.length + (16 - m.length % 16) := by simp [Spec.pkcs7, hk]
  · unfold pkcs7Separate
    rw [dif_pos hne]
    simp only [hl, hs, hlen]
    rw [if_pos (by omega)]
    simp [Spec.pkcs7]
  · unfold separateLength
    rw [dif_pos hne]
    simp only [hl, hs, hlen]
    rw [ofNat32_sub (by omega), signExtend_ofNat (by omega)]
    congr 2; omega

example : pkcs7Merge [1, 2, 3] = some ([1, 2, 3] ++ List.replicate 13 13) ∧
    pkcs7Separate ([1, 2, 3] ++ List.replicate 13 13) = some [1, 2, 3] := by decide

/-- C02: a non-empty block-aligned message is not padded; stripping recovers it exactly if its last
byte is 0 or above 16, and otherwise removes as many data bytes as the last byte says. -/
theorem C02_aligned_loss (m : List Byte) (hm : m ≠ []) (h : m.length < 2 ^ 31 - 16)
    (ha : m.length % 16 = 0) :
    pkcs7Merge m = some m ∧
    (pkcs7Separate m = some m ↔ (m.getLast hm = 0 ∨ 16 < (m.getLast hm).toNat)) ∧
    (1 ≤ (m.getLast hm).toNat → (m.getLast hm).toNat ≤ 16 →
      pkcs7Separate m = some (m.take (m.length - (m.getLast hm).toNat)) ∧
      separateLength m = some (BitVec.ofNat 64 (m.length - (m.getLast hm).toNat))) := by
  have h0 : 0 < m.length := List.length_pos_iff.mpr hm
  refine ⟨?_, ?_, ?_⟩
  · rw [pkcs7Merge_eq_spec m h]
    simp [Spec.pkcs7, Spec.padCount, ha]
  · unfold pkcs7Separate
    rw [dif_pos hm]
    generalize m.getLast hm = b
    by_cases h16 : 16 < b.toNat
    · simp only [stripNum, h16, if_true, or_true, iff_true]
      rw [if_pos (by omega)]; simp
    · simp only [stripNum, h16, or_false, if_false]
      rw [if_pos (by omega)]
      constructor
      · intro hh
        have := congrArg List.length (Option.some.inj hh)
        simp only [List.length_take] at this
        have : b.toNat = 0 := by omega
        exact BitVec.eq_of_toNat_eq (by simpa using this)
      · intro hh; simp [hh]
  · intro h1 h16
    unfold pkcs7Separate separateLength
    rw [dif_pos hm, dif_pos hm]
    have : stripNum (m.getLast hm) = (m.getLast hm).toNat := by
      simp only [stripNum]; rw [if_neg (by omega)]
    simp only [this]
    rw [if_pos (by omega), ofNat32_sub (by omega), signExtend_ofNat (by omega)]
    exact ⟨rfl, rfl⟩

/-- Concrete loss: sixteen data bytes ending in 2 lose two bytes. -/
example : pkcs7Merge (List.replicate 15 65 ++ [2]) = some (List.replicate 15 65 ++ [2]) ∧
    pkcs7Separate (List.replicate 15 65 ++ [2]) = some (List.replicate 14 65) := by decide

/-- The full round-trip claim is false for the code as written. -/
theorem C02_roundtrip_fails : ¬ ∀ m : List Byte, m ≠ [] → m.length < 2 ^ 31 - 16 →
    (pkcs7Merge m).bind pkcs7Separate = some m := by
  intro h
  have := h (List.replicate 15 65 ++ [1]) (by decide) (by decide)
  exact absurd this (by decide)

/-- C32 (shape): key padding always gives 16 bytes: the first 16 key bytes, or the key followed by
bytes equal to the number of missing bytes (zero bytes for the zero variant). -/
theorem C32_key_padding_shape (k : List Byte) :
    (keyPaddingPkcs7 k).length = 16 ∧ (keyPaddingZeros k).length = 16 ∧
    (keyPaddingPkcs7 k).take (min k.length 16) = k.take 16 ∧
    (keyPaddingZeros k).take (min k.length 16) = k.take 16 ∧
    (∀ i, k.length ≤ i → i < 16 → (keyPaddingPkcs7 k)[i]? = some (BitVec.ofNat 8 (16 - k.length)) ∧
      (keyPaddingZeros k)[i]? = some 0) := by
  unfold keyPaddingPkcs7 keyPaddingZeros
  by_cases h1 : k.length > 16
  · simp only [h1, if_true]
    refine ⟨by simp; omega, by simp; omega, ?_, ?_, ?_⟩
    · rw [List.take_take]; congr 1; omega
    · rw [List.take_take]; congr 1; omega
    · intro i h2 h3; omega
  · by_cases h2 : k.length < 16
    · simp only [h1, h2, if_true, if_false]
      refine ⟨by simp; omega, by simp; omega, ?_, ?_, ?_⟩
      · rw [List.take_append_of_le_length (by omega), Nat.min_eq_left (by omega),
          List.take_of_length_le (Nat.le_refl _), List.take_of_length_le (by omega)]
      · rw [List.take_append_of_le_length (by omega), Nat.min_eq_left (by omega),
          List.take_of_length_le (Nat.le_refl _), List.take_of_length_le (by omega)]
      · intro i hi hi2
        rw [List.getElem?_append_right hi, List.getElem?_append_right hi]
        simp only [List.getElem?_replicate]
        rw [if_pos (by omega)]
        exact ⟨rfl, if_pos (by omega)⟩
    · simp only [h1, h2, if_false]
      have : k.length = 16 := by omega
      refine ⟨this, this, ?_, ?_, ?_⟩
      · congr 1; omega
      · congr 1; omega
      · intro i h2 h3; omega

/-- C32 (collisions): two keys of at most 16 bytes are padded to the same cipher key exactly when
they are equal or one of them is the padded form of the other. -/
theorem C32_key_padding_collisions (k k' : List Byte) (h : k.length ≤ 16) (h' : k'.length ≤ 16) :
    keyPaddingPkcs7 k = keyPaddingPkcs7 k' ↔
      (k = k' ∨ k' = keyPaddingPkcs7 k ∨ k = keyPaddingPkcs7 k') := by
  have key16 : ∀ l : List Byte, l.length = 16 → keyPaddingPkcs7 l = l := by
    intro l hl; unfold keyPaddingPkcs7; rw [if_neg (by omega), if_neg (by omega)]
  constructor
  · intro he
    by_cases h1 : k.length = 16
    · right; right; rw [← he, key16 k h1]
    by_cases h2 : k'.length = 16
    · right; left; rw [he, key16 k' h2]
    left
    have hk : keyPaddingPkcs7 k = k ++ List.replicate (16 - k.length) (BitVec.ofNat 8 (16 - k.length)) := by
      unfold keyPaddingPkcs7; rw [if_neg (by omega), if_pos (by omega)]
    have hk' : keyPaddingPkcs7 k' = k' ++ List.replicate (16 - k'.length) (BitVec.ofNat 8 (16 - k'.length)) := by
      unfold keyPaddingPkcs7; rw [if_neg (by omega), if_pos (by omega)]
    have e15 := congrArg (fun l => l[15]?) he
    simp only [((C32_key_padding_shape k).2.2.2.2 15 (by omega) (by omega)).1,
      ((C32_key_padding_shape k').2.2.2.2 15 (by omega) (by omega)).1] at e15
    have e := congrArg BitVec.toNat (Option.some.inj e15)
    simp only [BitVec.toNat_ofNat] at e
    have hl : k.length = k'.length := by omega
    rw [hk, hk'] at he
    exact (List.append_inj he hl).1
  · rintro (rfl | rfl | rfl)
    · rfl
    · rw [key16 _ (C32_key_padding_shape k).1]
    · rw [key16 _ (C32_key_padding_shape k').1]

/-- The empty key and sixteen bytes `0x10` really collide. -/
example : keyPaddingPkcs7 [] = keyPaddingPkcs7 (List.replicate 16 16) ∧
    keyPaddingPkcs7 [1] ≠ keyPaddingPkcs7 [2] := by decide

end Verif.Props
