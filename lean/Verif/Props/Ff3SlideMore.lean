import Verif.Props.Ff3Slide

/-! Property C95, continued: the two four-round ciphers are onto, repeated encryption, and the phone application. -/
set_option autoImplicit false

namespace Verif.Props
open Verif Spec Model

/-- Numeral strings of one length. -/
def NumStr (radix n : Nat) (s : List Byte) : Prop := s.length = n ∧ ∀ c ∈ s, IsNumeral radix c

theorem numStr_of_digits {radix n : Nat} {l : List Nat} (hr : radix ≤ 36) (h : DigitsOf radix n l) :
    NumStr radix n (l.map numeralChar) := by
  refine ⟨by rw [List.length_map, h.1], ?_⟩
  intro c hc
  obtain ⟨d, hd, rfl⟩ := List.mem_map.mp hc
  exact numeralChar_isNumeral radix d hr (h.2 d hd)

theorem four_compose (E : Block → Block) (radix : Nat) (T : List Byte) (ht : T.length = 8) (hr : 2 ≤ radix) (hr' : radix ≤ 36)
    (s : List Byte) : (ff3Enc E radix T (s.map numeralVal)).map numeralChar =
      fourChars E radix (slid T) (fourChars E radix T s) := by
  rw [ff3Enc_four E radix T ht _ (by omega), ← (fourChars_ok E radix T s hr hr').2.2]
  rfl

theorem four_onto (E : Block → Block) (radix : Nat) (T : List Byte) (ht : T.length = 8) (hr : 2 ≤ radix) (hr' : radix ≤ 36)
    (n : Nat) (hn : 1 ≤ n) (hmax : radix ^ ((n + 1) / 2) ≤ 2 ^ 96) :
    (∀ s, NumStr radix n s → NumStr radix n (fourChars E radix T s)) ∧
    (∀ s t, NumStr radix n s → NumStr radix n t → fourChars E radix T s = fourChars E radix T t → s = t) ∧
    (∀ t, NumStr radix n t → ∃ s, NumStr radix n s ∧ fourChars E radix T s = t) := by
  have hr0 : 0 < radix := by omega
  have num : ∀ W s, NumStr radix n s → NumStr radix n (fourChars E radix W s) := by
    intro W s hs
    refine numStr_of_digits hr' ?_
    have := digits_ff3Four E radix W (s.map numeralVal) hr0
    rwa [List.length_map, hs.1] at this
  refine ⟨num T, ?_, ?_⟩
  · intro s₁ t hs₁ ht' e
    have hc : fpeInit T radix E = some ⟨E, radix, T⟩ := by rw [fpeInit, if_neg (by omega)]
    have r : ∀ s, NumStr radix n s → ∃ out', ff3Decrypt ⟨E, radix, T⟩ exactLg
        (fourChars E radix (slid T) (fourChars E radix T s) ++ [0]) (List.replicate (n + 1) 0) = some out' ∧
        out'.take n = s := by
      rintro s hs'
      obtain ⟨hl, hs⟩ := hs'
      subst hl
      obtain ⟨ct, h1, h2⟩ := C47_ff3_roundtrip _ T radix E hc (by omega) exactLg lgOk_clog s [] [] (List.replicate (s.length + 1) 0)
        (List.replicate (s.length + 1) 0) hs hn (by simp) (by simp)
      rw [(C66_ff3_nist _ T radix E hc (by omega) exactLg lgOk_clog s [] _ hs hn hmax (by simp)).1,
        List.take_of_length_le (by omega), four_compose E radix T ht hr hr'] at h1
      have := List.append_cancel_right (Option.some.inj h1)
      rw [this]
      exact ⟨_, h2, List.take_left' rfl⟩
    obtain ⟨o, h1, h2⟩ := r s₁ hs₁
    obtain ⟨o', h1', h2'⟩ := r t ht'
    rw [e, h1'] at h1
    rw [← h2, ← h2', Option.some.inj h1]
  · rintro t ⟨rfl, htn⟩
    have hc : fpeInit (slid T) radix E = some ⟨E, radix, slid T⟩ := by rw [fpeInit, if_neg (by omega)]
    have hl : 8 ≤ (slid T).length := by rw [length_slid]; omega
    obtain ⟨pt, h1, h2⟩ := C47_ff3_decrypt_then_encrypt _ _ radix E hc hl exactLg lgOk_clog t [] []
      (List.replicate (t.length + 1) 0) (List.replicate (t.length + 1) 0) htn hn (by simp) (by simp)
    rw [(C66_ff3_nist _ _ radix E hc hl exactLg lgOk_clog t [] _ htn hn hmax (by simp)).2] at h1
    have hp := List.append_cancel_right (Option.some.inj h1)
    have hd : NumStr radix t.length pt := by
      rw [← hp]
      refine numStr_of_digits hr' ?_
      have := digits_ff3Dec E radix ((slid T).take 8) (t.map numeralVal) hr0
      rwa [List.length_map] at this
    rw [(C66_ff3_nist _ _ radix E hc hl exactLg lgOk_clog pt [] _ hd.2 (by rw [hd.1]; exact hn) (by rw [hd.1]; exact hmax)
      (by rw [hd.1]; simp)).1, hd.1, ← slid_take, List.take_of_length_le (show T.length ≤ 8 by omega),
      four_compose E radix _ (by rw [length_slid, ht]) hr hr', slid_slid] at h2
    exact ⟨_, num _ pt hd, List.append_cancel_right (Option.some.inj h2)⟩

/-- FF3 under a tweak `T` is `H` after `G`, and under the related tweak it is `G` after `H`, where `G` and `H` are
permutations of the numeral strings of the length. -/
theorem slide_onto (ctx ctx' : FpeCtx) (tweak : List Byte) (radix : Nat) (E : Block → Block)
    (hc : fpeInit tweak radix E = some ctx) (hc' : fpeInit (slid tweak) radix E = some ctx') (ht : 8 ≤ tweak.length)
    (lg : Nat → Nat → Nat) (hlg : LgOk lg) (n : Nat) (hn : 1 ≤ n) (hmax : radix ^ ((n + 1) / 2) ≤ 2 ^ 96) :
    ∃ G H : List Byte → List Byte, (∀ F ∈ [G, H], (∀ s, NumStr radix n s → NumStr radix n (F s)) ∧
        (∀ s t, NumStr radix n s → NumStr radix n t → F s = F t → s = t) ∧
        (∀ t, NumStr radix n t → ∃ s, NumStr radix n s ∧ F s = t)) ∧
      ∀ (s rest out : List Byte), NumStr radix n s → n < out.length →
        ff3Encrypt ctx lg (s ++ 0 :: rest) out = some (H (G s) ++ 0 :: out.drop (n + 1)) ∧
        ff3Encrypt ctx' lg (s ++ 0 :: rest) out = some (G (H s) ++ 0 :: out.drop (n + 1)) := by
  have hrr : 2 ≤ radix ∧ radix ≤ 36 := by
    unfold fpeInit at hc
    split at hc
    · cases hc
    · omega
  have h8 : (tweak.take 8).length = 8 := by rw [List.length_take]; omega
  have h8' : (slid (tweak.take 8)).length = 8 := by rw [length_slid, h8]
  have ht' : 8 ≤ (slid tweak).length := by rw [length_slid]; exact ht
  refine ⟨fourChars E radix (tweak.take 8), fourChars E radix (slid (tweak.take 8)), ?_, ?_⟩
  rotate_left
  · rintro s rest out ⟨hl, hs⟩ ho
    subst hl
    have e1 := (C66_ff3_nist ctx tweak radix E hc ht lg hlg s rest out hs hn hmax ho).1
    have e2 := (C66_ff3_nist ctx' _ radix E hc' ht' lg hlg s rest out hs hn hmax ho).1
    rw [four_compose E radix _ h8 hrr.1 hrr.2] at e1
    rw [← slid_take, four_compose E radix _ h8' hrr.1 hrr.2, slid_slid] at e2
    exact ⟨e1, e2⟩
  · intro F hF
    rcases List.mem_cons.mp hF with rfl | hF
    · exact four_onto E radix _ h8 hrr.1 hrr.2 n hn hmax
    · rw [List.mem_singleton.mp hF]
      exact four_onto E radix _ h8' hrr.1 hrr.2 n hn hmax

/-- What encryption returns as a string. -/
def strOf (r : Option (List Byte)) : List Byte := (r.getD []).takeWhile (fun c => c != 0)

/-- FF3 as a map of strings of `n` characters. -/
def encStr (ctx : FpeCtx) (lg : Nat → Nat → Nat) (n : Nat) (s : List Byte) : List Byte :=
  strOf (ff3Encrypt ctx lg (s ++ [0]) (List.replicate (n + 1) 0))

theorem strOf_num {radix n : Nat} {s z : List Byte} (h : NumStr radix n s) : strOf (some (s ++ 0 :: z)) = s := by
  unfold strOf
  rw [Option.getD_some, List.takeWhile_append_of_pos]
  · simp
  · intro c hc
    have := h.2 c hc
    unfold IsNumeral at this
    simp only [bne_iff_ne, ne_eq]
    rintro rfl
    simp at this

/-- C95: the permutations under the two tweaks are conjugate: a fixed permutation `G` carries one to the other.  So whoever
finds `G` for one string knows it for all strings reached from it by encrypting (twice, three times, …) under the two tweaks,
and the two permutations have equally long cycles; in particular one leaves a string unchanged if the other does. -/
theorem C95_cycles (ctx ctx' : FpeCtx) (tweak : List Byte) (radix : Nat) (E : Block → Block)
    (hc : fpeInit tweak radix E = some ctx) (hc' : fpeInit (slid tweak) radix E = some ctx') (ht : 8 ≤ tweak.length)
    (lg : Nat → Nat → Nat) (hlg : LgOk lg) (n : Nat) (hn : 1 ≤ n) (hmax : radix ^ ((n + 1) / 2) ≤ 2 ^ 96) :
    ∃ G : List Byte → List Byte, (∀ s, NumStr radix n s → NumStr radix n (G s)) ∧
      (∀ s t, NumStr radix n s → NumStr radix n t → G s = G t → s = t) ∧
      (∀ t, NumStr radix n t → ∃ s, NumStr radix n s ∧ G s = t) ∧
      ∀ (k : Nat) (s : List Byte), NumStr radix n s →
        (encStr ctx' lg n)^[k] (G s) = G ((encStr ctx lg n)^[k] s) ∧
        ((encStr ctx' lg n)^[k] (G s) = G s ↔ (encStr ctx lg n)^[k] s = s) := by
  obtain ⟨G, H, hb, he⟩ := slide_onto ctx ctx' tweak radix E hc hc' ht lg hlg n hn hmax
  obtain ⟨g1, g2, g3⟩ := hb G (by simp)
  obtain ⟨h1, h2, h3⟩ := hb H (by simp)
  have e1 : ∀ s, NumStr radix n s → encStr ctx lg n s = H (G s) := by
    intro s hs
    unfold encStr
    rw [(he s [] _ hs (by simp)).1]
    exact strOf_num (h1 _ (g1 _ hs))
  have e2 : ∀ s, NumStr radix n s → encStr ctx' lg n s = G (H s) := by
    intro s hs
    unfold encStr
    rw [(he s [] _ hs (by simp)).2]
    exact strOf_num (g1 _ (h1 _ hs))
  have it : ∀ k s, NumStr radix n s → NumStr radix n ((encStr ctx lg n)^[k] s) ∧
      (encStr ctx' lg n)^[k] (G s) = G ((encStr ctx lg n)^[k] s) := by
    intro k
    induction k with
    | zero => intro s hs; exact ⟨hs, rfl⟩
    | succ k ih =>
      intro s hs
      rw [Function.iterate_succ_apply, Function.iterate_succ_apply, e2 _ (g1 _ hs), e1 _ hs]
      exact ih _ (h1 _ (g1 _ hs))
  refine ⟨G, g1, g2, g3, fun k s hs => ⟨(it k s hs).2, ?_⟩⟩
  rw [(it k s hs).2]
  exact ⟨fun h => g2 _ _ (it k s hs).1 hs h, fun h => by rw [h]⟩

/-- A phone number with its sample: visible characters `V`, `n` hidden digits. -/
def PhoneOf (V : List Byte) (n : Nat) (p smp : List Byte) : Prop :=
  (∀ c ∈ p, c ≠ 0) ∧ (∀ c ∈ smp, c ≠ 0) ∧ (smp = [] ∨ p.length ≤ smp.length) ∧
  (∀ i (hi : i < p.length), Hidden smp i → IsNumeral 10 p[i]) ∧ hiddenCount smp p.length = n ∧
  pick true (maskOf smp p.length) p = V

/-- The hidden digits of a phone number, or of its encryption. -/
def hiddenOf (smp : List Byte) (len : Nat) (p : List Byte) : List Byte := pick false (maskOf smp len) p

theorem phone_ff3 (imem : AppInitMem) (key : List Byte) (keylen : Nat) (k : Block) (cipher : String) (hk : 16 ≤ keylen)
    (ht : k.toList = key.take 16) (hw : cipher ≠ "wbsm4") :
    ∃ app, fpeAppInit imem key keylen cipher "ff3" = some app ∧
      ∀ (V : List Byte) (n : Nat), 8 ≤ V.length → 1 ≤ n → 10 ^ ((n + 1) / 2) ≤ 2 ^ 96 →
        ∀ p smp, PhoneOf V n p smp → ∀ (mem : AppMem) (rest more : List Byte), 1 ≤ mem.slack →
          NumStr 10 n (hiddenOf smp p.length p) ∧
          ∃ o, encryptPhone app exactLg mem (p ++ 0 :: rest) (smp ++ 0 :: more) (List.replicate p.length 0) = some o ∧
            hiddenOf smp p.length o =
              (ff3Enc (namedCipher cipher k) 10 (V.take 8) ((hiddenOf smp p.length p).map numeralVal)).map numeralChar := by
  obtain ⟨app, ha, h1⟩ := C92_phone imem key keylen k cipher "ff3" hk ht hw
  refine ⟨app, ha, ?_⟩
  rintro V n hV hn hmax p smp ⟨hp, h0, hs, hd, hcnt, hpick⟩ mem rest more hsl
  have m1 := maskOf_length smp p.length hs
  have hcf := length_pick false (maskOf smp p.length) p m1
  have hct := length_pick true (maskOf smp p.length) p m1
  have hcount := count_flags (maskOf smp p.length)
  have hmc := maskOf_count smp p.length
  rw [hpick] at hct
  have e1 := (h1 p smp hp h0 hs hd (by
    unfold FpeLens
    rw [if_neg (by decide), hcnt]
    exact ⟨by omega, hn, hmax⟩) mem rest more (List.replicate p.length 0) hsl (by simp)).1
  refine ⟨⟨by rw [hiddenOf, hcf, hmc, hcnt], ?_⟩, _, e1, ?_⟩
  · exact pick_hidden smp p hs _ hd
  · have hT : (pick true (maskOf smp p.length) p ++ [0]).take 8 = V.take 8 := by
      rw [hpick, List.take_append_of_le_length hV]
    have hX : namedFpe "ff3" (namedCipher cipher k) 10 (pick true (maskOf smp p.length) p ++ [0])
        ((pick false (maskOf smp p.length) p).map numeralVal) =
        ff3Enc (namedCipher cipher k) 10 (V.take 8) ((pick false (maskOf smp p.length) p).map numeralVal) := by
      unfold namedFpe
      rw [if_neg (by decide), hT]
    rw [hX]
    have d1 := (digits_ff3Enc (namedCipher cipher k) 10 (V.take 8)
      ((pick false (maskOf smp p.length) p).map numeralVal) (by decide)).1
    rw [List.length_map, hcf] at d1
    unfold hiddenOf
    generalize hr : (ff3Enc (namedCipher cipher k) 10 (V.take 8)
      ((pick false (maskOf smp p.length) p).map numeralVal)).map numeralChar = r
    have hrl : (maskOf smp p.length).count false = r.length := by rw [← hr, List.length_map, d1]
    have := pick_append false (maskOf smp p.length) (fill (maskOf smp p.length) p r) []
      ((List.replicate p.length (0 : Byte)).drop p.length) (by rw [length_fill _ _ _ m1 (by omega), m1])
    rw [List.append_nil] at this
    rw [this, pick_false_fill _ _ _ m1 hrl]
    simp [pick]

/-- C95: the phone application with FF3 and at least eight visible characters.  If the fourth and the eighth visible
characters of two numbers differ by 4 (bitwise, such as 0 and 4, 1 and 5), one permutation of the hidden digits, fixed for the
visible characters, carries the encryption of one to that of the other. -/
theorem C95_phone (imem : AppInitMem) (key : List Byte) (keylen : Nat) (k : Block) (cipher : String) (hk : 16 ≤ keylen)
    (ht : k.toList = key.take 16) (hw : cipher ≠ "wbsm4") :
    ∃ app, fpeAppInit imem key keylen cipher "ff3" = some app ∧
      ∀ (V : List Byte) (n : Nat), 8 ≤ V.length → 1 ≤ n → 10 ^ ((n + 1) / 2) ≤ 2 ^ 96 →
        ∃ G : List Byte → List Byte, (∀ s, NumStr 10 n s → NumStr 10 n (G s)) ∧
          (∀ s t, NumStr 10 n s → NumStr 10 n t → G s = G t → s = t) ∧
          (∀ t, NumStr 10 n t → ∃ s, NumStr 10 n s ∧ G s = t) ∧
          ∀ p smp p' smp', PhoneOf V n p smp → PhoneOf (slid V) n p' smp' →
            hiddenOf smp' p'.length p' = G (hiddenOf smp p.length p) →
            ∀ (mem mem' : AppMem) (rest more rest' more' : List Byte), 1 ≤ mem.slack → 1 ≤ mem'.slack →
              ∃ o o', encryptPhone app exactLg mem (p ++ 0 :: rest) (smp ++ 0 :: more) (List.replicate p.length 0) = some o ∧
                encryptPhone app exactLg mem' (p' ++ 0 :: rest') (smp' ++ 0 :: more') (List.replicate p'.length 0) = some o' ∧
                hiddenOf smp' p'.length o' = G (hiddenOf smp p.length o) := by
  obtain ⟨app, ha, h⟩ := phone_ff3 imem key keylen k cipher hk ht hw
  refine ⟨app, ha, ?_⟩
  intro V n hV hn hmax
  have h8 : (V.take 8).length = 8 := by rw [List.length_take]; omega
  obtain ⟨g1, g2, g3⟩ := four_onto (namedCipher cipher k) 10 (V.take 8) h8 (by omega) (by omega) n hn hmax
  refine ⟨_, g1, g2, g3, ?_⟩
  intro p smp p' smp' hp hp' e mem mem' rest more rest' more' hsl hsl'
  obtain ⟨-, o, e1, e2⟩ := h V n hV hn hmax p smp hp mem rest more hsl
  obtain ⟨-, o', e1', e2'⟩ := h (slid V) n (by rw [length_slid]; exact hV) hn hmax p' smp' hp' mem' rest' more' hsl'
  refine ⟨o, o', e1, e1', ?_⟩
  rw [e2', ← slid_take, four_compose _ _ _ (by rw [length_slid, h8]) (by omega) (by omega), slid_slid, e, e2,
    four_compose _ _ _ h8 (by omega) (by omega)]

/-- The hypotheses are met by 1380012345 and 1384012745 with the last two digits hidden. -/
example : PhoneOf [0x31, 0x33, 0x38, 0x30, 0x30, 0x31, 0x32, 0x33] 2
      [0x31, 0x33, 0x38, 0x30, 0x30, 0x31, 0x32, 0x33, 0x34, 0x35] [1, 1, 1, 1, 1, 1, 1, 1, 0x2a, 0x2a] ∧
    slid [0x31, 0x33, 0x38, 0x30, 0x30, 0x31, 0x32, 0x33] = [0x31, 0x33, 0x38, 0x34, 0x30, 0x31, 0x32, 0x37] := by
  refine ⟨⟨by decide, by decide, by decide, ?_, by decide, by decide⟩, by decide⟩
  intro i hi _
  have : ∀ c ∈ ([0x31, 0x33, 0x38, 0x30, 0x30, 0x31, 0x32, 0x33, 0x34, 0x35] : List Byte), IsNumeral 10 c := by
    intro c hc; unfold IsNumeral; revert c; decide
  exact this _ (List.getElem_mem hi)

end Verif.Props
