import Verif.Props.FpeChars
import Verif.Props.FpeAppNist

/-! C96 for phone numbers and identity cards: hidden characters that are not digits. -/
set_option autoImplicit false

namespace Verif.Props
open Verif Spec Model

/-- The engine on any string: undefined for all buffers, or the same as on a string of numerals. -/
theorem engine_chars (app : FpeApp) (lg : Nat → Nat → Nat) (hlg : LgOk lg) (tweak s : List Byte) (h0 : ∀ c ∈ s, c ≠ 0)
    (hk : EngineOk app.ffx tweak.length s.length) :
    (∀ rest out, encFn app lg ⟨app.E, 10, tweak⟩ (s ++ 0 :: rest) out = none) ∨
    ∃ s' ct, s'.length = s.length ∧ (∀ c ∈ s', IsNumeral 10 c) ∧
      Inverts (encFn app lg) (decFn app lg) 10 app.E tweak s' ct ∧
      ∀ rest out, s.length < out.length →
        encFn app lg ⟨app.E, 10, tweak⟩ (s ++ 0 :: rest) out = some (ct ++ 0 :: out.drop (s.length + 1)) := by
  have hc : fpeInit tweak 10 app.E = some ⟨app.E, 10, tweak⟩ := rfl
  unfold EngineOk at hk
  unfold encFn decFn
  cases hf : app.ffx with
  | ff1 =>
    rw [hf] at hk
    simp only at hk ⊢
    have hT : ∀ {n}, QOk lg tweak 10 n := Or.inl (List.length_pos_iff.mp hk.2)
    by_cases hfit : numRadix 10 ((s.drop (s.length / 2)).map charDigit) < 256 ^ ((lg 10 (s.length - s.length / 2) + 7) / 8)
    · right
      obtain ⟨s', ct, h1, h2, _, _, h5⟩ := C96_ff1 tweak 10 app.E _ hc lg hlg s h0 hk.1 hT hfit
      refine ⟨s', ct, h1, h2, ?_, fun rest out ho => (h5 rest out ho).1⟩
      obtain ⟨ct', g1, g2, g3⟩ := C45_ff1_format _ tweak 10 app.E hc lg hlg s' [] (List.replicate (s'.length + 1) 0) h2
        (by omega) hT (by simp)
      have e := (h5 [] (List.replicate (s'.length + 1) 0) (by simp; omega)).2.1
      rw [g1, ← h1] at e
      have ee : ct' = ct := by
        have := Option.some.inj e
        have hl : ct'.length = ct.length := by simpa using congrArg List.length this
        exact (List.append_inj this hl).1
      subst ee
      exact ⟨g2, g3, fun rest out ho => by rw [h1] at ho ⊢; exact (h5 rest out ho).2.1,
        fun rest out ho => by rw [h1] at ho ⊢; exact (h5 rest out ho).2.2⟩
    · left
      intro rest out
      apply C46_ff1_overflow _ lg s rest out h0
      rw [ff1B_bytes, map_mapChar_eq, ← List.map_drop]
      exact Nat.not_lt.mp hfit
  | ff3 =>
    rw [hf] at hk
    simp only at hk ⊢
    by_cases hfit : numRadix 10 ((s.drop ((s.length + 1) / 2)).map charDigit).reverse < 256 ^ ((lg 10 ((s.length + 1) / 2) + 7) / 8)
    · right
      obtain ⟨s', ct, h1, h2, _, _, h5⟩ := C96_ff3 tweak 10 app.E _ hc hk.2 lg hlg s h0 hk.1 hfit
      refine ⟨s', ct, h1, h2, ?_, fun rest out ho => (h5 rest out ho).1⟩
      obtain ⟨ct', g1, g2, g3⟩ := C48_ff3_format _ tweak 10 app.E hc hk.2 lg hlg s' [] (List.replicate (s'.length + 1) 0) h2
        (by omega) (by simp)
      have e := (h5 [] (List.replicate (s'.length + 1) 0) (by simp; omega)).2.1
      rw [g1, ← h1] at e
      have ee : ct' = ct := by
        have := Option.some.inj e
        have hl : ct'.length = ct.length := by simpa using congrArg List.length this
        exact (List.append_inj this hl).1
      subst ee
      exact ⟨g2, g3, fun rest out ho => by rw [h1] at ho ⊢; exact (h5 rest out ho).2.1,
        fun rest out ho => by rw [h1] at ho ⊢; exact (h5 rest out ho).2.2⟩
    · left
      intro rest out
      apply ff3_overflow _ lg s rest out h0
      rw [map_mapChar_eq, ← List.map_drop]
      exact Nat.not_lt.mp hfit

theorem fill_twice : ∀ (ms : List Bool) (xs r r' : List Byte), ms.length = xs.length → ms.count false ≤ r.length →
    fill ms (fill ms xs r) r' = fill ms xs r' := by
  intro ms
  induction ms with
  | nil => intro xs r r' _ _; cases xs <;> rfl
  | cons m ms ih =>
    intro xs r r' h h1
    cases xs with
    | nil => simp at h
    | cons x xs =>
      have hl : ms.length = xs.length := by simpa using h
      cases m with
      | true =>
        simp only [fill]
        rw [ih xs r r' hl (by simpa using h1)]
      | false =>
        cases r with
        | nil => simp at h1
        | cons y r =>
          cases r' with
          | nil => simp [fill]
          | cons z r' =>
            simp only [fill]
            rw [ih xs r r' hl (by simpa using h1)]

/-- C96, phone numbers: with a hidden character that is not a digit, encryption is undefined for all contents of memory, or
succeeds with a number that decrypts to another phone number, which has digits in all hidden places. -/
theorem C96_phone (app : FpeApp) (lg : Nat → Nat → Nat) (hlg : LgOk lg) (phone smp : List Byte)
    (hp : ∀ c ∈ phone, c ≠ 0) (h0 : ∀ c ∈ smp, c ≠ 0) (hs : smp = [] ∨ phone.length ≤ smp.length)
    (hk : HiddenOk app.ffx smp phone.length)
    (i : Nat) (hi : i < phone.length) (hh : Hidden smp i) (hbad : ¬ IsNumeral 10 phone[i]) :
    (∀ (mem : AppMem) (rest more after : List Byte),
      encryptPhone app lg mem (phone ++ 0 :: rest) (smp ++ 0 :: more) after = none) ∨
    ∃ o other : List Byte, o.length = phone.length ∧ other.length = phone.length ∧ other ≠ phone ∧
      (∀ i, ¬ Hidden smp i → other[i]? = phone[i]?) ∧ (∀ i (hi : i < other.length), Hidden smp i → IsNumeral 10 other[i]) ∧
      ∀ (mem : AppMem) (rest more after : List Byte), 1 ≤ mem.slack → phone.length ≤ after.length →
        encryptPhone app lg mem (phone ++ 0 :: rest) (smp ++ 0 :: more) after = some (o ++ after.drop phone.length) ∧
        decryptPhone app lg mem (o ++ 0 :: rest) (smp ++ 0 :: more) after = some (other ++ after.drop phone.length) := by
  have hl := maskOf_length smp phone.length hs
  have hcf := length_pick false _ phone hl
  have hz : ∀ c ∈ pick false (maskOf smp phone.length) phone, c ≠ 0 := fun c hc => hp c (mem_pick _ _ _ c hc)
  rcases engine_chars app lg hlg (pick true (maskOf smp phone.length) phone ++ [0]) _ hz
    (engineOk_of app.ffx _ phone hl (maskOk_of _ _ _ hs hk)) with hn | ⟨s', ct, e1, e2, e3, e4⟩
  · left
    intro mem rest more after
    unfold encryptPhone
    rw [auxPhone_eq app mem phone rest smp more after hp h0 hs, hn []]
    rfl
  · right
    rw [hcf] at e1
    have hlo : (fill (maskOf smp phone.length) phone s').length = phone.length := length_fill _ _ _ hl (by omega)
    have hzf := fill_ne_zero _ phone s' hl (by omega) hp (fun c hc => numeral_ne_zero c (e2 c hc))
    have hget := fun i h1 h2 h3 => fill_getElem (maskOf smp phone.length) phone s' i h1 h2 h3
    obtain ⟨k1, k2⟩ := shown_kept (o := fill (maskOf smp phone.length) phone s') hs hlo
      (fun i h1 h2 h3 => ⟨(hget i h1 h2 h3).1, fun e => e2 _ ((hget i h1 h2 h3).2 e)⟩)
    have hcore := phone_core app (fill (maskOf smp phone.length) phone s') smp hzf h0 (by rw [hlo]; exact hs)
      (encFn app lg) (decFn app lg) ⟨ct, by
        rw [hlo, pick_true_fill _ _ _ hl (by omega), pick_false_fill _ _ _ hl e1.symm]
        exact e3⟩
    obtain ⟨o, o1, _, _, o4, o5⟩ := hcore
    rw [hlo] at o1 o4 o5
    have hctl : ct.length = (maskOf smp phone.length).count false := by rw [e3.1, e1]
    refine ⟨o, _, o1, hlo, ?_, k1, k2, ?_⟩
    · intro h
      have := k2 i (by rw [hlo]; exact hi) hh
      simp only [h] at this
      exact hbad this
    · intro mem rest more after hm ha
      refine ⟨?_, o5 mem rest more after hm ha⟩
      rw [← o4 mem rest more after hm ha]
      unfold encryptPhone
      rw [auxPhone_some app mem phone rest smp more after hp h0 hs ha _ ct _ hctl
        (e4 [] _ (by rw [length_vla, hcf]; omega))]
      rw [auxPhone_some app mem (fill (maskOf smp phone.length) phone s') rest smp more after hzf h0 (by rw [hlo]; exact hs)
        (by rw [hlo]; exact ha) _ ct _ (by rw [hlo]; exact hctl) (by
          rw [hlo, pick_true_fill _ _ _ hl (by omega), pick_false_fill _ _ _ hl e1.symm]
          exact e3.2.2.1 [] _ (by rw [length_vla]; omega))]
      rw [hlo, fill_twice _ _ _ _ hl (by omega)]

/-- C96, identity cards: with a hidden character that is not a digit, encryption is undefined for all contents of memory, or
succeeds with a number that decrypts to another card number, which has digits in all hidden places. -/
theorem C96_idcard (app : FpeApp) (lg : Nat → Nat → Nat) (hlg : LgOk lg) (body tail smp : List Byte) (hform : CardForm body tail)
    (hp : ∀ c ∈ body, c ≠ 0) (h0 : ∀ c ∈ smp, c ≠ 0) (hs : smp = [] ∨ body.length ≤ smp.length)
    (hk : HiddenOk app.ffx smp body.length)
    (i : Nat) (hi : i < body.length) (hh : Hidden smp i) (hbad : ¬ IsNumeral 10 body[i]) :
    (∀ (mem : AppMem) (rest more after : List Byte),
      encryptIdcard app lg mem (body ++ tail ++ 0 :: rest) (smp ++ 0 :: more) after = none) ∨
    ∃ o other : List Byte, o.length = body.length ∧ other.length = body.length ∧ other ≠ body ∧
      (∀ i, ¬ Hidden smp i → other[i]? = body[i]?) ∧ (∀ i (hi : i < other.length), Hidden smp i → IsNumeral 10 other[i]) ∧
      ∀ (mem : AppMem) (rest more after : List Byte), 1 ≤ mem.slack → (body ++ tail).length ≤ after.length →
        encryptIdcard app lg mem (body ++ tail ++ 0 :: rest) (smp ++ 0 :: more) after = some (o ++ tail ++ after.drop (body ++ tail).length) ∧
        decryptIdcard app lg mem (o ++ tail ++ 0 :: rest) (smp ++ 0 :: more) after = some (other ++ tail ++ after.drop (body ++ tail).length) := by
  have hl := maskOf_length smp body.length hs
  have hcf := length_pick false _ body hl
  have hz : ∀ c ∈ pick false (maskOf smp body.length) body, c ≠ 0 := fun c hc => hp c (mem_pick _ _ _ c hc)
  rcases engine_chars app lg hlg (pick true (maskOf smp body.length) body ++ [0]) _ hz
    (engineOk_of app.ffx _ body hl (maskOk_of _ _ _ hs hk)) with hn | ⟨s', ct, e1, e2, e3, e4⟩
  · left
    intro mem rest more after
    unfold encryptIdcard
    rw [auxIdcard_eq app mem body tail rest smp more after hform hp h0 hs, hn []]
    rfl
  · right
    rw [hcf] at e1
    have hlo : (fill (maskOf smp body.length) body s').length = body.length := length_fill _ _ _ hl (by omega)
    have hzf := fill_ne_zero _ body s' hl (by omega) hp (fun c hc => numeral_ne_zero c (e2 c hc))
    have hget := fun i h1 h2 h3 => fill_getElem (maskOf smp body.length) body s' i h1 h2 h3
    obtain ⟨k1, k2⟩ := shown_kept (o := fill (maskOf smp body.length) body s') hs hlo
      (fun i h1 h2 h3 => ⟨(hget i h1 h2 h3).1, fun e => e2 _ ((hget i h1 h2 h3).2 e)⟩)
    have hlt : (fill (maskOf smp body.length) body s' ++ tail).length = (body ++ tail).length := by
      rw [List.length_append, List.length_append, hlo]
    have hform' : CardForm (fill (maskOf smp body.length) body s') tail := by
      rcases hform with rfl | ⟨rfl, c, hc, hx⟩
      · exact Or.inl rfl
      · refine Or.inr ⟨rfl, ?_⟩
        rw [List.getLast?_eq_getElem?, List.getElem?_eq_getElem (by omega)] at hc
        injection hc with hc
        rw [List.getLast?_eq_getElem?, List.getElem?_eq_getElem (by omega)]
        refine ⟨_, rfl, ?_⟩
        simp only [hlo]
        by_cases hh' : Hidden smp (body.length - 1)
        · have := k2 (body.length - 1) (by omega) hh'
          intro hx'
          rw [hx'] at this
          exact absurd this (by decide)
        · have := k1 (body.length - 1) hh'
          rw [List.getElem?_eq_getElem (by omega), List.getElem?_eq_getElem (by omega)] at this
          rw [Option.some.inj this, hc]
          exact hx
    have hcore := card_core app (fill (maskOf smp body.length) body s') tail smp hform' hzf h0 (by rw [hlo]; exact hs)
      (encFn app lg) (decFn app lg) ⟨ct, by
        rw [hlo, pick_true_fill _ _ _ hl (by omega), pick_false_fill _ _ _ hl e1.symm]
        exact e3⟩
    obtain ⟨o, o1, _, _, o4, o5⟩ := hcore
    rw [hlo] at o1
    rw [hlt] at o4 o5
    have hctl : ct.length = (maskOf smp body.length).count false := by rw [e3.1, e1]
    refine ⟨o, _, o1, hlo, ?_, k1, k2, ?_⟩
    · intro h
      have := k2 i (by rw [hlo]; exact hi) hh
      simp only [h] at this
      exact hbad this
    · intro mem rest more after hm ha
      refine ⟨?_, o5 mem rest more after hm ha⟩
      rw [← o4 mem rest more after hm ha]
      unfold encryptIdcard
      rw [auxIdcard_some app mem body tail rest smp more after hform hp h0 hs ha _ ct _ hctl
        (e4 [] _ (by rw [length_vla, hcf]; omega))]
      rw [auxIdcard_some app mem (fill (maskOf smp body.length) body s') tail rest smp more after hform' hzf h0 (by rw [hlo]; exact hs)
        (by rw [hlt]; exact ha) _ ct _ (by rw [hlo]; exact hctl) (by
          rw [hlo, pick_true_fill _ _ _ hl (by omega), pick_false_fill _ _ _ hl e1.symm]
          exact e3.2.2.1 [] _ (by rw [length_vla]; omega))]
      rw [hlo, hlt, fill_twice _ _ _ _ hl (by omega)]

/-- A card number with a lower-case check character, "11010519491231002x", without sample under FF1. -/
example : let body : List Byte := [49, 49, 48, 49, 48, 53, 49, 57, 52, 57, 49, 50, 51, 49, 48, 48, 50, 120]
    CardForm body [] ∧ (∀ c ∈ body, c ≠ 0) ∧ HiddenOk .ff1 [] body.length ∧ Hidden [] 17 ∧ ¬ IsNumeral 10 (120 : Byte) :=
  ⟨Or.inr ⟨rfl, 120, rfl, by decide⟩, by decide, show 2 ≤ 18 by decide, Or.inl rfl, by decide⟩

/-- C96, phone numbers: a space, plus, minus, dot or slash in the second half of at most 14 hidden characters makes encryption
write outside a buffer, for every mode and cipher. -/
theorem C96_phone_separator (app : FpeApp) (mem : AppMem) (phone smp rest more after : List Byte)
    (hp : ∀ c ∈ phone, c ≠ 0) (h0 : ∀ c ∈ smp, c ≠ 0) (hs : smp = [] ∨ phone.length ≤ smp.length)
    (h14 : hiddenCount smp phone.length ≤ 14) (c : Byte) (hlow : c.toNat < 48)
    (hc : c ∈ (pick false (maskOf smp phone.length) phone).drop ((hiddenCount smp phone.length + 1) / 2)) :
    encryptPhone app exactLg mem (phone ++ 0 :: rest) (smp ++ 0 :: more) after = none := by
  have hl := maskOf_length smp phone.length hs
  have hcf := length_pick false _ phone hl
  rw [maskOf_count] at hcf
  have hz : ∀ c ∈ pick false (maskOf smp phone.length) phone, c ≠ 0 := fun c hc => hp c (mem_pick _ _ _ c hc)
  have hb := C96_below_zero (pick true (maskOf smp phone.length) phone ++ [0]) 10 app.E _ rfl _ []
    (vla mem.ans ((maskOf smp phone.length).count false + mem.slack)) hz c hlow (by
      rw [hcf]
      exact (Nat.pow_le_pow_right (by decide) (show (hiddenCount smp phone.length + 1) / 2 ≤ 7 by omega)).trans (by decide))
  rw [hcf] at hb
  have hc2 : c ∈ (pick false (maskOf smp phone.length) phone).drop (hiddenCount smp phone.length / 2) :=
    (List.drop_sublist_drop_left _ (by omega)).subset hc
  unfold encryptPhone
  rw [auxPhone_eq app mem phone rest smp more after hp h0 hs]
  have : encFn app exactLg ⟨app.E, 10, pick true (maskOf smp phone.length) phone ++ [0]⟩
      (pick false (maskOf smp phone.length) phone ++ [0])
      (vla mem.ans ((maskOf smp phone.length).count false + mem.slack)) = none := by
    unfold encFn exactLg
    cases app.ffx
    · exact hb.1 hc2
    · exact hb.2 hc
  rw [this]
  rfl

/-- "138-888-88888" without sample: the second half is "-88888". -/
example : (45 : Byte) ∈ (pick false (maskOf [] 13) [49, 51, 56, 45, 56, 56, 56, 45, 56, 56, 56, 56, 56]).drop ((hiddenCount [] 13 + 1) / 2) := by
  decide

end Verif.Props
