import Verif.Spec.FpeChars
import Verif.Lemmas.FeistelFree
import Verif.Props.Fpe3

/-! C96: FF1 and FF3 on strings with characters that are not numerals of the radix. -/
set_option autoImplicit false

namespace Verif.Props
open Verif Spec Model

theorem mapChar_eq (c : Byte) : mapChar c = charDigit c := by
  unfold mapChar charDigit
  have := c.isLt
  split
  · omega
  · split <;> omega

theorem map_mapChar_eq (s : List Byte) : s.map mapChar = s.map charDigit := List.map_congr_left fun c _ => mapChar_eq c

theorem start_eq (A B : List Nat) (u : Nat) : fpeStart (A ++ B) u = lay u 0 (A, B) := rfl

theorem start_split (X : List Nat) (u : Nat) : fpeStart X u = lay u 0 (X.take u, X.drop u) := by
  rw [← start_eq, List.take_append_drop]

/-- From two rounds to all. -/
theorem fold_two {S : Type} (g : S → Nat → Option S) (l : List Nat) (x y : S)
    (h : [0, 1].foldlM g x = [0, 1].foldlM g y) : ([0, 1] ++ l).foldlM g x = ([0, 1] ++ l).foldlM g y := by
  rw [List.foldlM_append, List.foldlM_append, h]

theorem ff1B_bytes (lg : Nat → Nat → Nat) (r v : Nat) : ff1B lg r v = (lg r v + 7) / 8 := by
  unfold ff1B
  rw [ceil2_eq]
  rfl

theorem ff1F_some (ctx : FpeCtx) (lg : Nat → Nat → Nat) (n i x : Nat) (h : x < 256 ^ ff1B lg ctx.radix (n - n / 2)) :
    ∃ y, ff1FOpt ctx lg n i x = some (y, ()) := by
  unfold ff1FOpt ff1RoundY
  simp only [floor2_eq]
  rw [ff1QBytes_some _ _ _ _ h]
  simp only [Option.bind_some]
  rw [ff1YOf_some]
  exact ⟨_, rfl⟩

theorem ff3F_some (ctx : FpeCtx) (lg : Nat → Nat → Nat) (n i x : Nat) (ht : 8 ≤ ctx.tweak.length)
    (h : x < 256 ^ ceil2 (lg ctx.radix ((n + 1) / 2)) 3) : ∃ y t, ff3FOpt ctx lg n i x = some (y, t) := by
  unfold ff3FOpt ff3RoundS ff3PBytes
  simp only [ceil2_one]
  rw [ff3W_some _ _ ht]
  simp only [Option.bind_some]
  rw [if_neg (by rw [length_bn2bin]; exact Nat.not_lt.mpr ((bnNumBytes_le_iff _ _).mpr h))]
  exact ⟨_, _, rfl⟩

theorem vals_halves {r : Nat} (A B : List Nat) (hr : r ≤ 36) (hA : ∀ d ∈ A, d < r) (hB : ∀ d ∈ B, d < r) :
    (((A ++ B).map numeralChar).take A.length).map numeralVal = A ∧
    (((A ++ B).map numeralChar).drop A.length).map numeralVal = B := by
  have a := vals_chars A (fun d hd => by have := hA d hd; omega)
  have b := vals_chars B (fun d hd => by have := hB d hd; omega)
  unfold vals at a b
  have e : A.length = (A.map numeralChar).length := by simp
  rw [List.map_append, e, List.take_left, List.drop_left]
  exact ⟨a, b⟩

/-- C96, FF1: a string of any characters whose second half has a number that fits the bytes reserved for it is encrypted
like a string `s'` of numerals, and decryption gives `s'`.  The second half of `s'` is the number of the second half of
`s`, reduced; when it needs no reduction, the first half of `s'` is that of `s`, reduced. -/
theorem C96_ff1 (tweak : List Byte) (radix : Nat) (E : Block → Block) (ctx : FpeCtx)
    (hc : fpeInit tweak radix E = some ctx) (lg : Nat → Nat → Nat) (hlg : LgOk lg) (s : List Byte) (h0 : ∀ c ∈ s, c ≠ 0)
    (hn : 2 ≤ s.length) (hT : QOk lg tweak radix s.length)
    (hfit : numRadix radix ((s.drop (s.length / 2)).map charDigit) < 256 ^ ((lg radix (s.length - s.length / 2) + 7) / 8)) :
    ∃ s' ct, s'.length = s.length ∧ (∀ c ∈ s', IsNumeral radix c) ∧
      numRadix radix ((s'.drop (s.length / 2)).map numeralVal) =
        numRadix radix ((s.drop (s.length / 2)).map charDigit) % radix ^ (s.length - s.length / 2) ∧
      (numRadix radix ((s.drop (s.length / 2)).map charDigit) < radix ^ (s.length - s.length / 2) →
        numRadix radix ((s'.take (s.length / 2)).map numeralVal) =
          numRadix radix ((s.take (s.length / 2)).map charDigit) % radix ^ (s.length / 2)) ∧
      ∀ rest out, s.length < out.length →
        ff1Encrypt ctx lg (s ++ 0 :: rest) out = some (ct ++ 0 :: out.drop (s.length + 1)) ∧
        ff1Encrypt ctx lg (s' ++ 0 :: rest) out = some (ct ++ 0 :: out.drop (s.length + 1)) ∧
        ff1Decrypt ctx lg (ct ++ 0 :: rest) out = some (s' ++ 0 :: out.drop (s.length + 1)) := by
  have hc0 := hc
  unfold fpeInit at hc
  split at hc
  · cases hc
  · rename_i hr
    injection hc with hc
    subst hc
    have hr2 : 2 ≤ radix := by omega
    have ok := ff1_ok ⟨E, radix, tweak⟩ lg hlg s.length hn hr2
    obtain ⟨X, hX⟩ : ∃ X, X = s.map charDigit := ⟨_, rfl⟩
    have hXl : X.length = s.length := by rw [hX, List.length_map]
    have hA : (X.take (s.length / 2)).length = s.length / 2 := by rw [List.length_take]; omega
    have hB : (X.drop (s.length / 2)).length = s.length - s.length / 2 := by rw [List.length_drop]; omega
    have eA : (s.take (s.length / 2)).map charDigit = X.take (s.length / 2) := by rw [hX, List.map_take]
    have eB : (s.drop (s.length / 2)).map charDigit = X.drop (s.length / 2) := by rw [hX, List.map_drop]
    rw [eB] at hfit
    rw [eA, eB]
    obtain ⟨y, hy⟩ := ff1F_some ⟨E, radix, tweak⟩ lg s.length 0 (str2num (X.drop (s.length / 2)) radix)
      (by rw [str2num_eq, ff1B_bytes]; exact hfit)
    obtain ⟨A', B', hH, hnB, hnA, hfold⟩ := exists_halves ok _ _ hA hB y () hy
    obtain ⟨lA, lB, dA0, dB0⟩ := hH
    have dA : ∀ d ∈ A', d < radix := dA0
    have dB : ∀ d ∈ B', d < radix := dB0
    have lA' : A'.length = s.length / 2 := lA
    have lB' : B'.length = s.length - s.length / 2 := lB
    obtain ⟨va, vb⟩ := vals_halves (r := radix) A' B' (by omega) dA dB
    rw [lA'] at va vb
    have hl' : ((A' ++ B').map numeralChar).length = s.length := by
      rw [List.length_map, List.length_append, lA', lB']; omega
    have hs' : ∀ c ∈ (A' ++ B').map numeralChar, IsNumeral radix c := chars_numeral (by omega) _ (by
      intro d hd
      rcases List.mem_append.mp hd with h | h
      · exact dA d h
      · exact dB d h)
    have hv' : ((A' ++ B').map numeralChar).map mapChar = A' ++ B' := by
      rw [map_mapChar _ hs']
      exact vals_chars _ (fun d hd => by
        rcases List.mem_append.mp hd with h | h
        · have := dA d h; omega
        · have := dB d h; omega)
    have hct : (ff1Out ⟨E, radix, tweak⟩ lg (vals ((A' ++ B').map numeralChar))).length = s.length := by
      rw [(ff1Out_ok ⟨E, radix, tweak⟩ lg hlg hr2 _ (vals_lt _ hs') (by rw [length_vals, hl']; exact hn)).1,
        length_vals, hl']
    refine ⟨(A' ++ B').map numeralChar, (ff1Out ⟨E, radix, tweak⟩ lg (vals ((A' ++ B').map numeralChar))).map numeralChar,
      hl', hs', ?_, ?_, ?_⟩
    · rw [vb]; simpa only [str2num_eq] using hnB
    · intro h
      rw [va]
      simpa only [str2num_eq] using hnA (by simpa only [str2num_eq] using h)
    · intro rest out ho
      have hE := ff1Encrypt_eq ⟨E, radix, tweak⟩ lg hlg hr2 _ rest out hs' (by rw [hl']; exact hn) (by rw [hl']; exact ho)
        (by rw [hl']; exact hT)
      have hD := C44_ff1_roundtrip _ tweak radix E hc0 lg hlg _ rest rest out out hs' (by rw [hl']; exact hn) (by rw [hl']; exact hT)
        (by rw [hl']; exact ho) (by rw [hl']; exact ho)
      rw [hl'] at hE hD
      refine ⟨?_, hE, ?_⟩
      · rw [← hE]
        unfold ff1Encrypt
        rw [cstr_append s rest h0, cstr_append _ rest (fun c hc => numeral_ne_zero c (hs' c hc))]
        simp only [Option.bind_some, hl', ff1Assert_ok lg tweak radix s.length hT]
        rw [hv', map_mapChar_eq, ← hX, foldlM_drop_unit _ _ (ff1Enc_round ⟨E, radix, tweak⟩ lg s.length),
          foldlM_drop_unit _ _ (ff1Enc_round ⟨E, radix, tweak⟩ lg s.length), floor2_eq, start_split X, start_eq]
        have := fold_two _ (List.range' 2 8) _ _ hfold
        rw [show [0, 1] ++ List.range' 2 8 = List.range 10 by decide] at this
        rw [this]
      · obtain ⟨ct, h1, h2⟩ := hD
        rw [hE] at h1
        have := Option.some.inj h1
        have hl : ((ff1Out ⟨E, radix, tweak⟩ lg (vals ((A' ++ B').map numeralChar))).map numeralChar).length = ct.length := by
          have := congrArg List.length this
          simpa using this
        rw [(List.append_inj this hl).1]
        exact h2

/-- C96, FF1: encryption is defined exactly when the assertion on the length of `Q` passes and the number of the second half fits. -/
theorem C96_ff1_defined (tweak : List Byte) (radix : Nat) (E : Block → Block) (ctx : FpeCtx)
    (hc : fpeInit tweak radix E = some ctx) (lg : Nat → Nat → Nat) (hlg : LgOk lg) (s rest out : List Byte)
    (h0 : ∀ c ∈ s, c ≠ 0) (hn : 2 ≤ s.length) (ho : s.length < out.length) :
    (ff1Encrypt ctx lg (s ++ 0 :: rest) out).isSome ↔ QOk lg tweak radix s.length ∧
      numRadix radix ((s.drop (s.length / 2)).map charDigit) < 256 ^ ((lg radix (s.length - s.length / 2) + 7) / 8) := by
  constructor
  · intro h
    obtain ⟨hcr, hct⟩ : ctx.radix = radix ∧ ctx.tweak = tweak := by
      unfold fpeInit at hc
      split at hc
      · cases hc
      · injection hc with hc; rw [← hc]; exact ⟨rfl, rfl⟩
    constructor
    · by_contra hq
      unfold QOk at hq
      simp only [not_or, Decidable.not_not] at hq
      rw [(C44_ff1_empty_tweak ctx lg (fun _ => zeroBlock) s rest out h0 (hct.trans hq.1) (by rw [hcr]; exact hq.2)).1] at h
      cases h
    by_contra hge
    rw [C46_ff1_overflow ctx lg s rest out h0 (by
      rw [hcr, ff1B_bytes, map_mapChar_eq, ← List.map_drop]; omega)] at h
    cases h
  · rintro ⟨hT, h⟩
    obtain ⟨s', ct, _, _, _, _, hh⟩ := C96_ff1 tweak radix E ctx hc lg hlg s h0 hn hT h
    rw [(hh rest out ho).1]
    rfl

/-- C96, FF3: a string of any characters whose second half has a number that fits the bytes reserved for it is encrypted
like a string `s'` of numerals, and decryption gives `s'`.  The second half of `s'` is the number of the second half of
`s`, reduced; when it needs no reduction, the first half of `s'` is that of `s`, reduced. -/
theorem C96_ff3 (tweak : List Byte) (radix : Nat) (E : Block → Block) (ctx : FpeCtx)
    (hc : fpeInit tweak radix E = some ctx) (ht : 8 ≤ tweak.length) (lg : Nat → Nat → Nat) (hlg : LgOk lg) (s : List Byte) (h0 : ∀ c ∈ s, c ≠ 0)
    (hn : 1 ≤ s.length)
    (hfit : numRadix radix ((s.drop ((s.length + 1) / 2)).map charDigit).reverse < 256 ^ ((lg radix ((s.length + 1) / 2) + 7) / 8)) :
    ∃ s' ct, s'.length = s.length ∧ (∀ c ∈ s', IsNumeral radix c) ∧
      numRadix radix ((s'.drop ((s.length + 1) / 2)).map numeralVal).reverse =
        numRadix radix ((s.drop ((s.length + 1) / 2)).map charDigit).reverse % radix ^ (s.length - (s.length + 1) / 2) ∧
      (numRadix radix ((s.drop ((s.length + 1) / 2)).map charDigit).reverse < radix ^ (s.length - (s.length + 1) / 2) →
        numRadix radix ((s'.take ((s.length + 1) / 2)).map numeralVal).reverse =
          numRadix radix ((s.take ((s.length + 1) / 2)).map charDigit).reverse % radix ^ ((s.length + 1) / 2)) ∧
      ∀ rest out, s.length < out.length →
        ff3Encrypt ctx lg (s ++ 0 :: rest) out = some (ct ++ 0 :: out.drop (s.length + 1)) ∧
        ff3Encrypt ctx lg (s' ++ 0 :: rest) out = some (ct ++ 0 :: out.drop (s.length + 1)) ∧
        ff3Decrypt ctx lg (ct ++ 0 :: rest) out = some (s' ++ 0 :: out.drop (s.length + 1)) := by
  have hc0 := hc
  unfold fpeInit at hc
  split at hc
  · cases hc
  · rename_i hr
    injection hc with hc
    subst hc
    have hr2 : 2 ≤ radix := by omega
    have ok := ff3_ok ⟨E, radix, tweak⟩ lg hlg s.length hn hr2 ht
    obtain ⟨X, hX⟩ : ∃ X, X = s.map charDigit := ⟨_, rfl⟩
    have hXl : X.length = s.length := by rw [hX, List.length_map]
    have hA : (X.take ((s.length + 1) / 2)).length = (s.length + 1) / 2 := by rw [List.length_take]; omega
    have hB : (X.drop ((s.length + 1) / 2)).length = s.length - (s.length + 1) / 2 := by rw [List.length_drop]; omega
    have eA : (s.take ((s.length + 1) / 2)).map charDigit = X.take ((s.length + 1) / 2) := by rw [hX, List.map_take]
    have eB : (s.drop ((s.length + 1) / 2)).map charDigit = X.drop ((s.length + 1) / 2) := by rw [hX, List.map_drop]
    rw [eB] at hfit
    rw [eA, eB]
    obtain ⟨y, t, hy⟩ := ff3F_some ⟨E, radix, tweak⟩ lg s.length 0 (str2numRev (X.drop ((s.length + 1) / 2)) radix) ht
      (by rw [str2numRev_eq, str2num_eq, ceil2_eq]; exact hfit)
    obtain ⟨A', B', hH, hnB, hnA, hfold⟩ := exists_halves ok _ _ hA hB y t hy
    obtain ⟨lA, lB, dA0, dB0⟩ := hH
    have dA : ∀ d ∈ A', d < radix := dA0
    have dB : ∀ d ∈ B', d < radix := dB0
    have lA' : A'.length = (s.length + 1) / 2 := lA
    have lB' : B'.length = s.length - (s.length + 1) / 2 := lB
    obtain ⟨va, vb⟩ := vals_halves (r := radix) A' B' (by omega) dA dB
    rw [lA'] at va vb
    have hl' : ((A' ++ B').map numeralChar).length = s.length := by
      rw [List.length_map, List.length_append, lA', lB']; omega
    have hs' : ∀ c ∈ (A' ++ B').map numeralChar, IsNumeral radix c := chars_numeral (by omega) _ (by
      intro d hd
      rcases List.mem_append.mp hd with h | h
      · exact dA d h
      · exact dB d h)
    have hv' : ((A' ++ B').map numeralChar).map mapChar = A' ++ B' := by
      rw [map_mapChar _ hs']
      exact vals_chars _ (fun d hd => by
        rcases List.mem_append.mp hd with h | h
        · have := dA d h; omega
        · have := dB d h; omega)
    have hct : (ff3Out ⟨E, radix, tweak⟩ lg (vals ((A' ++ B').map numeralChar))).length = s.length := by
      rw [(ff3Out_ok ⟨E, radix, tweak⟩ lg hlg hr2 ht _ (vals_lt _ hs') (by rw [length_vals, hl']; exact hn)).1,
        length_vals, hl']
    refine ⟨(A' ++ B').map numeralChar, (ff3Out ⟨E, radix, tweak⟩ lg (vals ((A' ++ B').map numeralChar))).map numeralChar,
      hl', hs', ?_, ?_, ?_⟩
    · rw [vb]; simpa only [str2numRev_eq, str2num_eq] using hnB
    · intro h
      rw [va]
      simpa only [str2numRev_eq, str2num_eq] using hnA (by simpa only [str2numRev_eq, str2num_eq] using h)
    · intro rest out ho
      have hE := ff3Encrypt_eq ⟨E, radix, tweak⟩ lg hlg hr2 ht _ rest out hs' (by rw [hl']; exact hn) (by rw [hl']; exact ho)
      have hD := C47_ff3_roundtrip _ tweak radix E hc0 ht lg hlg _ rest rest out out hs' (by rw [hl']; exact hn)
        (by rw [hl']; exact ho) (by rw [hl']; exact ho)
      rw [hl'] at hE hD
      refine ⟨?_, hE, ?_⟩
      · rw [← hE]
        unfold ff3Encrypt
        rw [cstr_append s rest h0, cstr_append _ rest (fun c hc => numeral_ne_zero c (hs' c hc))]
        simp only [Option.bind_some]
        rw [hl', hv', map_mapChar_eq, ← hX, foldlM_drop_unit _ _ (ff3Enc_round ⟨E, radix, tweak⟩ lg s.length),
          foldlM_drop_unit _ _ (ff3Enc_round ⟨E, radix, tweak⟩ lg s.length), ceil2_one, start_split X, start_eq]
        have := fold_two _ (List.range' 2 6) _ _ hfold
        rw [show [0, 1] ++ List.range' 2 6 = List.range 8 by decide] at this
        rw [this]
      · obtain ⟨ct, h1, h2⟩ := hD
        rw [hE] at h1
        have := Option.some.inj h1
        have hl : ((ff3Out ⟨E, radix, tweak⟩ lg (vals ((A' ++ B').map numeralChar))).map numeralChar).length = ct.length := by
          have := congrArg List.length this
          simpa using this
        rw [(List.append_inj this hl).1]
        exact h2

/-- FF3 with a second half that needs more bytes than reserved. -/
theorem ff3_overflow (ctx : FpeCtx) (lg : Nat → Nat → Nat) (s rest out : List Byte) (h0 : ∀ c ∈ s, c ≠ 0)
    (h : 256 ^ ((lg ctx.radix ((s.length + 1) / 2) + 7) / 8) ≤
      numRadix ctx.radix ((s.map mapChar).drop ((s.length + 1) / 2)).reverse) :
    ff3Encrypt ctx lg (s ++ 0 :: rest) out = none := by
  unfold ff3Encrypt
  rw [cstr_append s rest h0]
  simp only [Option.bind_some]
  have e : ff3EncryptRound ctx lg s.length (fpeStart (s.map mapChar) (ceil2 s.length 1)) 0 = none := by
    unfold ff3EncryptRound
    simp only [ceil2_one, fpeStart]
    have hrd : rdDigits (s.map mapChar) ((s.length + 1) / 2) (s.length - (s.length + 1) / 2) =
        some ((s.map mapChar).drop ((s.length + 1) / 2)) := by
      unfold rdDigits
      rw [if_pos (by rw [List.length_map]; omega), List.take_of_length_le (by simp)]
    rw [if_neg (by decide), hrd]
    simp only [Option.bind_some]
    unfold ff3RoundS ff3PBytes
    simp only [ceil2_one]
    rw [str2numRev_eq, str2num_eq]
    cases ff3W ctx.tweak 0 with
    | none => rfl
    | some W =>
      simp only [Option.bind_some]
      rw [if_pos (by
        rw [length_bn2bin, ceil2_eq]
        refine Nat.lt_of_not_le fun hle => ?_
        have := (bnNumBytes_le_iff _ _).mp hle
        exact absurd h (Nat.not_le.mpr this))]
      rfl
  rw [show List.range 8 = 0 :: List.range' 1 7 from rfl, List.foldlM_cons, e]
  rfl

/-- C96, FF3: encryption is defined exactly when the number of the second half fits. -/
theorem C96_ff3_defined (tweak : List Byte) (radix : Nat) (E : Block → Block) (ctx : FpeCtx)
    (hc : fpeInit tweak radix E = some ctx) (ht : 8 ≤ tweak.length) (lg : Nat → Nat → Nat) (hlg : LgOk lg) (s rest out : List Byte)
    (h0 : ∀ c ∈ s, c ≠ 0) (hn : 1 ≤ s.length) (ho : s.length < out.length) :
    (ff3Encrypt ctx lg (s ++ 0 :: rest) out).isSome ↔
      numRadix radix ((s.drop ((s.length + 1) / 2)).map charDigit).reverse < 256 ^ ((lg radix ((s.length + 1) / 2) + 7) / 8) := by
  constructor
  · intro h
    by_contra hge
    have hcr : ctx.radix = radix := by
      unfold fpeInit at hc
      split at hc
      · cases hc
      · injection hc with hc; rw [← hc]
    rw [ff3_overflow ctx lg s rest out h0 (by
      rw [hcr, map_mapChar_eq, ← List.map_drop]; omega)] at h
    cases h
  · intro h
    obtain ⟨s', ct, _, _, _, _, hh⟩ := C96_ff3 tweak radix E ctx hc ht lg hlg s h0 hn h
    rw [(hh rest out ho).1]
    rfl

/-! ### Strings that are taken for each other -/

theorem cstr_map_eq (s t rest rest' : List Byte) (hs : ∀ c ∈ s, c ≠ 0) (ht : ∀ c ∈ t, c ≠ 0)
    (h : s.map charDigit = t.map charDigit) : cstr (s ++ 0 :: rest) = some s ∧ cstr (t ++ 0 :: rest') = some t ∧
      s.map mapChar = t.map mapChar ∧ s.length = t.length :=
  ⟨cstr_append s rest hs, cstr_append t rest' ht, by rw [map_mapChar_eq, map_mapChar_eq, h], by
    have := congrArg List.length h
    simpa using this⟩

/-- C96: strings with the same values are not told apart by any of the eight functions. -/
theorem C96_same_values (ctx : FpeCtx) (lg : Nat → Nat → Nat) (junk : Nat → Block) (s t rest rest' out : List Byte)
    (hs : ∀ c ∈ s, c ≠ 0) (ht : ∀ c ∈ t, c ≠ 0) (h : s.map charDigit = t.map charDigit) :
    ff1Encrypt ctx lg (s ++ 0 :: rest) out = ff1Encrypt ctx lg (t ++ 0 :: rest') out ∧
    ff1Decrypt ctx lg (s ++ 0 :: rest) out = ff1Decrypt ctx lg (t ++ 0 :: rest') out ∧
    ff3Encrypt ctx lg (s ++ 0 :: rest) out = ff3Encrypt ctx lg (t ++ 0 :: rest') out ∧
    ff3Decrypt ctx lg (s ++ 0 :: rest) out = ff3Decrypt ctx lg (t ++ 0 :: rest') out ∧
    cmacEncrypt ctx lg junk (s ++ 0 :: rest) out = cmacEncrypt ctx lg junk (t ++ 0 :: rest') out ∧
    cmacDecrypt ctx lg junk (s ++ 0 :: rest) out = cmacDecrypt ctx lg junk (t ++ 0 :: rest') out ∧
    gmacEncrypt ctx lg (s ++ 0 :: rest) out = gmacEncrypt ctx lg (t ++ 0 :: rest') out ∧
    gmacDecrypt ctx lg (s ++ 0 :: rest) out = gmacDecrypt ctx lg (t ++ 0 :: rest') out := by
  obtain ⟨h1, h2, h3, h4⟩ := cstr_map_eq s t rest rest' hs ht h
  unfold ff1Encrypt ff1Decrypt ff3Encrypt ff3Decrypt cmacEncrypt cmacDecrypt gmacEncrypt gmacDecrypt
  simp only [h1, h2, h3, h4, Option.bind_some, and_self]

theorem takenFor_digit (c : Byte) (h : c ≠ 0) : takenFor c ≠ 0 ∧ charDigit (takenFor c) = charDigit c := by
  unfold takenFor charDigit
  split
  · rename_i hc
    have e : (c + 39).toNat = c.toNat + 39 := by
      rw [BitVec.toNat_add, show (39 : Byte).toNat = 39 from rfl]
      omega
    refine ⟨fun h0 => ?_, ?_⟩
    · rw [h0] at e
      change 0 = _ at e
      omega
    · rw [e, if_pos (by omega), if_neg (by omega), if_pos (by omega)]
      omega
  · exact ⟨h, rfl⟩

/-- C96: capital letters are taken for other letters.  In every function `A` is `h`, `B` is `i` and so on up to `S`, which is
`z`, and the characters from `:` to `@` are `a` to `g`. -/
theorem C96_capitals (ctx : FpeCtx) (lg : Nat → Nat → Nat) (junk : Nat → Block) (s rest rest' out : List Byte)
    (hs : ∀ c ∈ s, c ≠ 0) :
    ff1Encrypt ctx lg (s ++ 0 :: rest) out = ff1Encrypt ctx lg (s.map takenFor ++ 0 :: rest') out ∧
    ff1Decrypt ctx lg (s ++ 0 :: rest) out = ff1Decrypt ctx lg (s.map takenFor ++ 0 :: rest') out ∧
    ff3Encrypt ctx lg (s ++ 0 :: rest) out = ff3Encrypt ctx lg (s.map takenFor ++ 0 :: rest') out ∧
    ff3Decrypt ctx lg (s ++ 0 :: rest) out = ff3Decrypt ctx lg (s.map takenFor ++ 0 :: rest') out ∧
    cmacEncrypt ctx lg junk (s ++ 0 :: rest) out = cmacEncrypt ctx lg junk (s.map takenFor ++ 0 :: rest') out ∧
    cmacDecrypt ctx lg junk (s ++ 0 :: rest) out = cmacDecrypt ctx lg junk (s.map takenFor ++ 0 :: rest') out ∧
    gmacEncrypt ctx lg (s ++ 0 :: rest) out = gmacEncrypt ctx lg (s.map takenFor ++ 0 :: rest') out ∧
    gmacDecrypt ctx lg (s ++ 0 :: rest) out = gmacDecrypt ctx lg (s.map takenFor ++ 0 :: rest') out := by
  refine C96_same_values ctx lg junk s (s.map takenFor) rest rest' out hs ?_ ?_
  · intro c hc
    obtain ⟨d, hd, rfl⟩ := List.mem_map.mp hc
    exact (takenFor_digit d (hs d hd)).1
  · rw [List.map_map]
    exact List.map_congr_left fun c hc => (takenFor_digit c (hs c hc)).2.symm

/-- "A1B" is "h1i". -/
example : ([65, 49, 66] : List Byte).map takenFor = [104, 49, 105] ∧ ∀ c ∈ ([65, 49, 66] : List Byte), c ≠ 0 := by decide

/-! ### Characters below `0` -/

theorem le_numRadix (r : Nat) (hr : 1 ≤ r) (X : List Nat) (d : Nat) (hd : d ∈ X) : d ≤ numRadix r X := by
  rw [← str2num_eq]
  induction X using List.reverseRecOn with
  | nil => cases hd
  | append_singleton X x ih =>
    have e : str2num (X ++ [x]) r = str2num X r * r + x := by
      simp [str2num, List.foldl_append]
    rw [e]
    rcases List.mem_append.mp hd with h | h
    · have := ih h
      have : str2num X r * 1 ≤ str2num X r * r := Nat.mul_le_mul_left _ hr
      omega
    · rw [List.mem_singleton.mp h]; omega

theorem below_zero_digit (c : Byte) (h : c.toNat < 48) : 256 ^ 3 ≤ charDigit c := by
  unfold charDigit
  rw [if_neg (by omega), if_neg (by omega)]
  omega

theorem clog_bytes (x : Nat) (h : x ≤ 2 ^ 24) : 256 ^ ((Nat.clog 2 x + 7) / 8) ≤ 256 ^ 3 := by
  have := Nat.clog_le_of_le_pow h
  exact Nat.pow_le_pow_right (by decide) (by omega)

/-- C96: a character below `0` (space, `+`, `-`, `.`, `/`, ...) in the second half makes encryption write outside `Bytes`
whenever `radix^v ≤ 2^24`, `v` the length of the longer half: for decimal strings of up to 14 characters. -/
theorem C96_below_zero (tweak : List Byte) (radix : Nat) (E : Block → Block) (ctx : FpeCtx)
    (hc : fpeInit tweak radix E = some ctx) (s rest out : List Byte) (h0 : ∀ c ∈ s, c ≠ 0) (c : Byte) (hlow : c.toNat < 48)
    (hv : radix ^ ((s.length + 1) / 2) ≤ 2 ^ 24) :
    (c ∈ s.drop (s.length / 2) → ff1Encrypt ctx (fun r k => Nat.clog 2 (r ^ k)) (s ++ 0 :: rest) out = none) ∧
    (c ∈ s.drop ((s.length + 1) / 2) → ff3Encrypt ctx (fun r k => Nat.clog 2 (r ^ k)) (s ++ 0 :: rest) out = none) := by
  have hcr : ctx.radix = radix ∧ 2 ≤ radix := by
    unfold fpeInit at hc
    split at hc
    · cases hc
    · injection hc with hc; rw [← hc]; exact ⟨rfl, by omega⟩
  have hd := below_zero_digit c hlow
  constructor
  · intro hm
    apply C46_ff1_overflow ctx _ s rest out h0
    rw [hcr.1, ff1B_bytes, map_mapChar_eq, ← List.map_drop, show s.length - s.length / 2 = (s.length + 1) / 2 by omega]
    exact (clog_bytes _ hv).trans (hd.trans (le_numRadix _ (by omega) _ _ (List.mem_map_of_mem hm)))
  · intro hm
    apply ff3_overflow ctx _ s rest out h0
    rw [hcr.1, map_mapChar_eq, ← List.map_drop]
    exact (clog_bytes _ hv).trans (hd.trans (le_numRadix _ (by omega) _ _ (List.mem_reverse.mpr (List.mem_map_of_mem hm))))

/-- "138-8888-8888" in radix 10. -/
example : (45 : Byte) ∈ ([49, 51, 56, 45, 56, 56, 56, 56, 45, 56, 56, 56, 56] : List Byte).drop ((13 + 1) / 2) ∧
    10 ^ ((13 + 1) / 2) ≤ 2 ^ 24 := by decide

/-- C96 is met by "-1234" in radix 10 for both modes: the second half is "234" or "34", the first half has a number far too
large and is reduced. -/
example : numRadix 10 ((([45, 49, 50, 51, 52] : List Byte).drop 2).map charDigit) <
      256 ^ ((Nat.clog 2 (10 ^ 3) + 7) / 8) ∧
    numRadix 10 ((([45, 49, 50, 51, 52] : List Byte).drop 3).map charDigit).reverse <
      256 ^ ((Nat.clog 2 (10 ^ 3) + 7) / 8) ∧
    10 ^ 2 ≤ numRadix 10 ((([45, 49, 50, 51, 52] : List Byte).take 2).map charDigit) := by
  simp only [← str2num_eq]; decide

end Verif.Props
