import Verif.Spec.Ff3Slide
import Verif.Props.FpeAppNist

/-! C95: FF3 under a tweak is two four-round ciphers in sequence, under a related tweak the same two in the other order. -/
set_option autoImplicit false

namespace Verif.Props
open Verif Spec Model

theorem length_slid (T : List Byte) : (slid T).length = T.length := by simp [slid]

theorem slid_slid (T : List Byte) : slid (slid T) = T := by
  apply List.ext_getElem
  · simp [slid]
  · intro i h1 h2
    simp only [slid, List.getElem_map, List.getElem_range, List.getD_eq_getElem?_getD, List.getElem?_map,
      List.getElem?_range h2, Option.map_some, Option.getD_some, List.getElem?_eq_getElem h2]
    split
    · rw [BitVec.xor_assoc, BitVec.xor_self, BitVec.xor_zero]
    · rfl

theorem slid_take (T : List Byte) (n : Nat) : slid (T.take n) = (slid T).take n := by
  apply List.ext_getElem
  · simp [slid]
  · intro i h1 h2
    have hi : i < n ∧ i < T.length := by simp [slid] at h1; omega
    simp [slid, List.getD_eq_getElem?_getD, List.getElem?_take_of_lt hi.1]

/-- A tweak as eight bytes. -/
theorem eight_bytes (T : List Byte) (h : T.length = 8) : ∃ a b c d e f g i, T = [a, b, c, d, e, f, g, i] := by
  match T, h with
  | [a, b, c, d, e, f, g, i], _ => exact ⟨a, b, c, d, e, f, g, i, rfl⟩

/-- Rounds 0-3 with the slid tweak are rounds 4-7 with the tweak. -/
theorem ff3P_slid (radix : Nat) (T : List Byte) (h : T.length = 8) (i : Nat) (hi : i < 4) (B : List Nat) :
    ff3P radix (slid T) i B = ff3P radix T (i + 4) B := by
  obtain ⟨a, b, c, d, e, f, g, k, rfl⟩ := eight_bytes T h
  have hs : slid [a, b, c, d, e, f, g, k] = [a, b, c, d ^^^ 4, e, f, g, k ^^^ 4] := by
    simp [slid, List.range_succ]
  rw [hs]
  have hc : i = 0 ∨ i = 1 ∨ i = 2 ∨ i = 3 := by omega
  unfold ff3P
  simp only
  congr 1
  rcases hc with rfl | rfl | rfl | rfl <;>
    simp [bytesOf, List.range_succ, BitVec.xor_assoc]

theorem ff3EncRound_slid (E : Block → Block) (radix n : Nat) (T : List Byte) (h : T.length = 8) (i : Nat) (hi : i < 4)
    (AB : List Nat × List Nat) : ff3EncRound E radix n (slid T) AB i = ff3EncRound E radix n T AB (i + 4) := by
  unfold ff3EncRound ff3Y
  rw [ff3P_slid radix T h i hi]
  simp only [show (i + 4) % 2 = i % 2 by omega]

theorem digits_ff3Four (E : Block → Block) (radix : Nat) (T : List Byte) (X : List Nat) (hr : 0 < radix) :
    DigitsOf radix X.length (ff3Four E radix T X) := by
  have e : List.range 4 = List.range 2 ++ [2, 3] := by decide
  unfold ff3Four
  simp only [e, List.foldl_append]
  generalize (List.range 2).foldl (ff3EncRound E radix X.length T) _ = AB
  exact digitsOf_append (digitsOf_rev (digitsOf_str _ _ _ hr)) (digitsOf_rev (digitsOf_str _ _ _ hr)) (by simp; omega)

/-- FF3 is four rounds with the tweak, then four rounds with the slid tweak. -/
theorem ff3Enc_four (E : Block → Block) (radix : Nat) (T : List Byte) (h : T.length = 8) (X : List Nat) (hr : 0 < radix) :
    ff3Enc E radix T X = ff3Four E radix (slid T) (ff3Four E radix T X) := by
  have hl := (digits_ff3Four E radix T X hr).1
  have e : List.range 8 = List.range 4 ++ [4, 5, 6, 7] := by decide
  have e4 : List.range 4 = [0, 1, 2, 3] := by decide
  have hsp : ∃ A B, (List.range 4).foldl (ff3EncRound E radix X.length T)
      (X.take ((X.length + 1) / 2), X.drop ((X.length + 1) / 2)) = (A, B) ∧ A.length = (X.length + 1) / 2 := by
    refine ⟨_, _, rfl, ?_⟩
    simp [ff3EncRound, length_strRadix]
  obtain ⟨A, B, hAB, hA⟩ := hsp
  have hf : ff3Four E radix T X = A ++ B := by unfold ff3Four; simp only [hAB]
  rw [hf] at hl ⊢
  unfold ff3Enc
  simp only [e, List.foldl_append, hAB]
  conv_rhs => unfold ff3Four
  simp only [hl, List.take_left' hA, List.drop_left' hA]
  rw [e4]
  simp only [List.foldl_cons, List.foldl_nil]
  rw [ff3EncRound_slid E radix _ T h 0 (by decide), ff3EncRound_slid E radix _ T h 1 (by decide),
    ff3EncRound_slid E radix _ T h 2 (by decide), ff3EncRound_slid E radix _ T h 3 (by decide)]

/-- The four-round cipher on numeral strings. -/
def fourChars (E : Block → Block) (radix : Nat) (T : List Byte) (s : List Byte) : List Byte :=
  (ff3Four E radix T (s.map numeralVal)).map numeralChar

theorem fourChars_ok (E : Block → Block) (radix : Nat) (T : List Byte) (s : List Byte) (hr : 2 ≤ radix) (hr' : radix ≤ 36) :
    (fourChars E radix T s).length = s.length ∧ (∀ c ∈ fourChars E radix T s, IsNumeral radix c) ∧
    (fourChars E radix T s).map numeralVal = ff3Four E radix T (s.map numeralVal) := by
  obtain ⟨h1, h2⟩ := digits_ff3Four E radix T (s.map numeralVal) (by omega)
  rw [List.length_map] at h1
  exact ⟨by rw [fourChars, List.length_map, h1], chars_numeral hr' _ h2, vals_chars _ fun d hd => by have := h2 d hd; omega⟩

/-- C95: for every tweak (the first eight bytes `T` count) and the tweak with bit 2 of the bytes 3 and 7 flipped there are two
four-round ciphers `H` and `G` on the numeral strings of a length, each of them a permutation, such that FF3 encryption is
`G` after `H` under the first tweak and `H` after `G` under the second. -/
theorem C95_slide (tweak : List Byte) (radix : Nat) (E : Block → Block) (ctx ctx' : FpeCtx)
    (hc : fpeInit tweak radix E = some ctx) (hc' : fpeInit (slid tweak) radix E = some ctx') (ht : 8 ≤ tweak.length)
    (lg : Nat → Nat → Nat) (hlg : LgOk lg) (n : Nat) (hn : 1 ≤ n) (hmax : radix ^ ((n + 1) / 2) ≤ 2 ^ 96) :
    ∃ H G : List Byte → List Byte,
      (H = fourChars E radix (tweak.take 8) ∧ G = fourChars E radix (slid (tweak.take 8))) ∧
      (∀ s, s.length = n → (∀ c ∈ s, IsNumeral radix c) →
        ((H s).length = n ∧ ∀ c ∈ H s, IsNumeral radix c) ∧ ((G s).length = n ∧ ∀ c ∈ G s, IsNumeral radix c)) ∧
      (∀ s t, s.length = n → t.length = n → (∀ c ∈ s, IsNumeral radix c) → (∀ c ∈ t, IsNumeral radix c) →
        (H s = H t → s = t) ∧ (G s = G t → s = t)) ∧
      ∀ s rest out, s.length = n → (∀ c ∈ s, IsNumeral radix c) → n < out.length →
        ff3Encrypt ctx lg (s ++ 0 :: rest) out = some (G (H s) ++ 0 :: out.drop (n + 1)) ∧
        ff3Encrypt ctx' lg (s ++ 0 :: rest) out = some (H (G s) ++ 0 :: out.drop (n + 1)) := by
  have hr : 2 ≤ radix ∧ radix ≤ 36 := by
    unfold fpeInit at hc
    split at hc
    · cases hc
    · omega
  have h8 : (tweak.take 8).length = 8 := by rw [List.length_take]; omega
  have hs8 : (slid (tweak.take 8)).length = 8 := by rw [length_slid, h8]
  have henc : ∀ s rest out, s.length = n → (∀ c ∈ s, IsNumeral radix c) → n < out.length →
      ff3Encrypt ctx lg (s ++ 0 :: rest) out = some (fourChars E radix (slid (tweak.take 8))
        (fourChars E radix (tweak.take 8) s) ++ 0 :: out.drop (n + 1)) ∧
      ff3Encrypt ctx' lg (s ++ 0 :: rest) out = some (fourChars E radix (tweak.take 8)
        (fourChars E radix (slid (tweak.take 8)) s) ++ 0 :: out.drop (n + 1)) := by
    intro s rest out hl hs ho
    subst hl
    have e1 := (C66_ff3_nist ctx tweak radix E hc ht lg hlg s rest out hs hn hmax ho).1
    have e2 := (C66_ff3_nist ctx' (slid tweak) radix E hc' (by rw [length_slid]; exact ht) lg hlg s rest out hs hn hmax ho).1
    rw [ff3Enc_four E radix _ h8 _ (by omega)] at e1
    rw [← slid_take, ff3Enc_four E radix _ hs8 _ (by omega), slid_slid] at e2
    rw [e1, e2]
    unfold fourChars
    constructor
    · rw [show ((ff3Four E radix (tweak.take 8) (s.map numeralVal)).map numeralChar).map numeralVal = _ from
        (fourChars_ok E radix (tweak.take 8) s hr.1 hr.2).2.2]
    · rw [show ((ff3Four E radix (slid (tweak.take 8)) (s.map numeralVal)).map numeralChar).map numeralVal = _ from
        (fourChars_ok E radix (slid (tweak.take 8)) s hr.1 hr.2).2.2]
  refine ⟨fourChars E radix (tweak.take 8), fourChars E radix (slid (tweak.take 8)), ⟨rfl, rfl⟩, ?_, ?_, henc⟩
  · intro s hl hs
    have a := fourChars_ok E radix (tweak.take 8) s hr.1 hr.2
    have b := fourChars_ok E radix (slid (tweak.take 8)) s hr.1 hr.2
    rw [hl] at a b
    exact ⟨⟨a.1, a.2.1⟩, ⟨b.1, b.2.1⟩⟩
  · have inj : ∀ (c : FpeCtx) (T : List Byte), fpeInit T radix E = some c → 8 ≤ T.length → ∀ s t : List Byte, s.length = n →
        t.length = n → (∀ c ∈ s, IsNumeral radix c) → (∀ c ∈ t, IsNumeral radix c) →
        ff3Encrypt c lg (s ++ 0 :: []) (List.replicate (n + 1) 0) = ff3Encrypt c lg (t ++ 0 :: []) (List.replicate (n + 1) 0) →
        s = t := by
      intro c T hcT hT s t hl hl' hs hs' e
      obtain ⟨ct, h1, h2⟩ := C47_ff3_roundtrip c T radix E hcT hT lg hlg s [] [] (List.replicate (n + 1) 0)
        (List.replicate (n + 1) 0) hs (by omega) (by simp; omega) (by simp; omega)
      obtain ⟨ct', h1', h2'⟩ := C47_ff3_roundtrip c T radix E hcT hT lg hlg t [] [] (List.replicate (n + 1) 0)
        (List.replicate (n + 1) 0) hs' (by omega) (by simp; omega) (by simp; omega)
      rw [h1, h1', hl, hl'] at e
      have e2 := List.append_inj_left' (Option.some.inj e) rfl
      subst e2
      rw [h2', hl, hl'] at h2
      exact (List.append_inj_left' (Option.some.inj h2) rfl).symm
    intro s t hl hl' hs hs'
    constructor
    · intro e
      apply inj ctx tweak hc ht s t hl hl' hs hs'
      rw [(henc s [] _ hl hs (by simp)).1, (henc t [] _ hl' hs' (by simp)).1, e]
    · intro e
      apply inj ctx' (slid tweak) hc' (by rw [length_slid]; exact ht) s t hl hl' hs hs'
      rw [(henc s [] _ hl hs (by simp)).2, (henc t [] _ hl' hs' (by simp)).2, e]

/-- C95: so a table of plaintexts and ciphertexts under one tweak is, renamed by the permutation `H`, such a table under the
other: chains of encryptions have the same lengths, and fixed points correspond to fixed points. -/
theorem C95_conjugate (tweak : List Byte) (radix : Nat) (E : Block → Block) (ctx ctx' : FpeCtx)
    (hc : fpeInit tweak radix E = some ctx) (hc' : fpeInit (slid tweak) radix E = some ctx') (ht : 8 ≤ tweak.length)
    (lg : Nat → Nat → Nat) (hlg : LgOk lg) (n : Nat) (hn : 1 ≤ n) (hmax : radix ^ ((n + 1) / 2) ≤ 2 ^ 96) :
    ∃ H : List Byte → List Byte,
      (∀ s, s.length = n → (∀ c ∈ s, IsNumeral radix c) → (H s).length = n ∧ ∀ c ∈ H s, IsNumeral radix c) ∧
      (∀ s t, s.length = n → t.length = n → (∀ c ∈ s, IsNumeral radix c) → (∀ c ∈ t, IsNumeral radix c) → H s = H t → s = t) ∧
      ∀ s, s.length = n → (∀ c ∈ s, IsNumeral radix c) → ∃ ct, ct.length = n ∧ (∀ c ∈ ct, IsNumeral radix c) ∧
        (∀ rest out, n < out.length → ff3Encrypt ctx lg (s ++ 0 :: rest) out = some (ct ++ 0 :: out.drop (n + 1)) ∧
          ff3Encrypt ctx' lg (H s ++ 0 :: rest) out = some (H ct ++ 0 :: out.drop (n + 1))) ∧ (ct = s ↔ H ct = H s) := by
  obtain ⟨H, G, -, h1, h2, h3⟩ := C95_slide tweak radix E ctx ctx' hc hc' ht lg hlg n hn hmax
  refine ⟨H, fun s hl hs => (h1 s hl hs).1, fun s t a b c d => (h2 s t a b c d).1, fun s hl hs => ?_⟩
  obtain ⟨l1, n1⟩ := (h1 s hl hs).1
  obtain ⟨l2, n2⟩ := (h1 (H s) l1 n1).2
  exact ⟨G (H s), l2, n2, fun rest out ho => ⟨(h3 s rest out hl hs ho).1, (h3 (H s) rest out l1 n1 ho).2⟩,
    fun e => by rw [e], (h2 _ _ l2 hl n2 hs).1⟩

/-- The tweaks `12345677` and `12305673`: eight shown digits of two phone numbers. -/
example : slid [49, 50, 51, 52, 53, 54, 55, 55] = [49, 50, 51, 48, 53, 54, 55, 51] := by decide

example (E : Block → Block) : ∃ H : List Byte → List Byte, ∃ ct, ct.length = 3 ∧
    ff3Encrypt ⟨E, 10, [49, 50, 51, 52, 53, 54, 55, 55, 0]⟩ exactLg ([48, 49, 50] ++ 0 :: []) [0, 0, 0, 0] = some (ct ++ [0]) ∧
    ff3Encrypt ⟨E, 10, [49, 50, 51, 48, 53, 54, 55, 51, 0]⟩ exactLg (H [48, 49, 50] ++ 0 :: []) [0, 0, 0, 0] = some (H ct ++ [0]) := by
  obtain ⟨H, -, -, h⟩ := C95_conjugate [49, 50, 51, 52, 53, 54, 55, 55, 0] 10 E _ _ rfl rfl (by decide) exactLg lgOk_clog 3
    (by decide) (by decide)
  obtain ⟨ct, hl, -, h1, -⟩ := h [48, 49, 50] rfl (by unfold IsNumeral; decide)
  obtain ⟨e1, e2⟩ := h1 [] [0, 0, 0, 0] (by decide)
  exact ⟨H, ct, hl, e1, e2⟩

end Verif.Props
