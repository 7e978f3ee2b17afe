import Verif.Lemmas.FpeApp

/-! C53-C55: phone numbers and identity card numbers with a mask. -/
set_option autoImplicit false

namespace Verif.Props
open Verif Spec Model

theorem over_full (xs base : List Byte) (c : Byte) (h : base.length = xs.length + 1) :
    over xs ((base.set xs.length c)) = xs ++ [c] := by
  unfold over
  rw [List.drop_eq_getElem_cons (by rw [List.length_set]; omega), List.getElem_set_self,
    List.drop_of_length_le (by rw [List.length_set]; omega)]

theorem set_over (xs base : List Byte) (c : Byte) (h : base.length = xs.length + 1) :
    (over xs base).set xs.length c = xs ++ [c] := by
  unfold over
  rw [List.set_append_right _ _ (Nat.le_refl _), Nat.sub_self, List.drop_eq_getElem_cons (by omega),
    List.set_cons_zero, List.drop_of_length_le (by omega)]

theorem fpeInit_ten (t : List Byte) (E : Block → Block) : fpeInit t 10 E = some ⟨E, 10, t⟩ := rfl

theorem len_sub (mask : List Bool) (n : Nat) (h : mask.length = n) : n - mask.count true = mask.count false := by
  have := count_flags mask
  omega

/-- What `aux_fpe_phone` computes, in terms of the engine `block`. -/
theorem auxPhone_eq (app : FpeApp) (mem : AppMem) (phone rest smp more after : List Byte)
    (hp : ∀ c ∈ phone, c ≠ 0) (h0 : ∀ c ∈ smp, c ≠ 0) (hs : smp = [] ∨ phone.length ≤ smp.length) (block : FpeFn) :
    auxPhone app mem (phone ++ 0 :: rest) (smp ++ 0 :: more) after block =
      (block ⟨app.E, 10, pick true (maskOf smp phone.length) phone ++ [0]⟩
        (pick false (maskOf smp phone.length) phone ++ [0])
        (vla mem.ans ((maskOf smp phone.length).count false + mem.slack))).bind fun ans =>
      ((List.range phone.length).foldlM (mergeStep (phone ++ 0 :: rest) (smp ++ 0 :: more) ans) (after, 0)).bind
        fun o => some o.1 := by
  have hl := maskOf_length smp phone.length hs
  have hm := maskIs_maskOf smp more h0 phone.length hs
  have hct := length_pick true _ phone hl
  have hcf := length_pick false _ phone hl
  unfold auxPhone
  rw [cstr_append phone rest hp]
  simp only [Option.bind_some]
  rw [maskCount_eq smp more h0 phone.length hs]
  simp only [Option.bind_some]
  rw [len_sub _ _ hl]
  unfold wrByte
  rw [if_pos (by rw [length_vla]; omega), if_pos (by rw [length_vla]; omega)]
  simp only [Option.bind_some]
  rw [split_loop phone _ _ _ hl hm _ _ (by rw [List.length_set, length_vla]; omega)
    (by rw [List.length_set, length_vla]; omega)]
  simp only [Option.bind_some]
  rw [← hct, over_full _ _ _ (length_vla _ _), ← hcf, over_full _ _ _ (length_vla _ _), fpeInit_ten]
  rfl

/-- The same when the engine succeeds. -/
theorem auxPhone_some (app : FpeApp) (mem : AppMem) (phone rest smp more after : List Byte)
    (hp : ∀ c ∈ phone, c ≠ 0) (h0 : ∀ c ∈ smp, c ≠ 0) (hs : smp = [] ∨ phone.length ≤ smp.length)
    (ha : phone.length ≤ after.length) (block : FpeFn) (r more' : List Byte)
    (hr : r.length = (maskOf smp phone.length).count false)
    (hb : block ⟨app.E, 10, pick true (maskOf smp phone.length) phone ++ [0]⟩
        (pick false (maskOf smp phone.length) phone ++ [0])
        (vla mem.ans ((maskOf smp phone.length).count false + mem.slack)) = some (r ++ more')) :
    auxPhone app mem (phone ++ 0 :: rest) (smp ++ 0 :: more) after block =
      some (fill (maskOf smp phone.length) phone r ++ after.drop phone.length) := by
  have hl := maskOf_length smp phone.length hs
  have hm := maskIs_maskOf smp more h0 phone.length hs
  rw [auxPhone_eq app mem phone rest smp more after hp h0 hs block, hb]
  simp only [Option.bind_some]
  rw [merge_loop phone _ _ _ hl hm r more' after hr ha]
  simp only [Option.bind_some, over]
  rw [length_fill _ _ _ hl (by omega)]

/-- The mask conditions under which the engine is defined: FF1 needs two hidden characters; FF3 needs one hidden
and seven visible characters (the terminator counts as the eighth tweak byte). -/
def MaskOk (f : Ffx) (mask : List Bool) : Prop :=
  match f with
  | .ff1 => 2 ≤ mask.count false
  | .ff3 => 1 ≤ mask.count false ∧ 7 ≤ mask.count true

theorem engineOk_of (f : Ffx) (mask : List Bool) (xs : List Byte) (hl : mask.length = xs.length) (h : MaskOk f mask) :
    EngineOk f (pick true mask xs ++ [0]).length (pick false mask xs).length := by
  unfold MaskOk at h
  unfold EngineOk
  rw [List.length_append, length_pick _ _ _ hl, length_pick _ _ _ hl]
  cases f
  · exact ⟨h, by simp⟩
  · exact ⟨h.1, by simp; omega⟩

theorem fill_ne_zero (ms : List Bool) (xs r : List Byte) (hl : ms.length = xs.length) (hr : ms.count false ≤ r.length)
    (h1 : ∀ c ∈ xs, c ≠ 0) (h2 : ∀ c ∈ r, c ≠ 0) : ∀ c ∈ fill ms xs r, c ≠ 0 := by
  intro c hc
  obtain ⟨i, hi, rfl⟩ := List.mem_iff_getElem.mp hc
  have hi2 : i < xs.length := by rw [length_fill _ _ _ hl hr] at hi; exact hi
  have hi1 : i < ms.length := by omega
  have := fill_getElem ms xs r i hi1 hi2 hi
  cases h : ms[i] with
  | true => rw [this.1 h]; exact h1 _ (List.getElem_mem _)
  | false => exact h2 _ (this.2 h)

/-- An engine pair on one string: `f` maps it to a numeral string of the same length, and `g` maps that back. -/
def Inverts (f g : FpeFn) (radix : Nat) (E : Block → Block) (tweak s ct : List Byte) : Prop :=
  ct.length = s.length ∧ (∀ c ∈ ct, IsNumeral radix c) ∧
  (∀ rest out, s.length < out.length →
    f ⟨E, radix, tweak⟩ (s ++ 0 :: rest) out = some (ct ++ 0 :: out.drop (s.length + 1))) ∧
  (∀ rest out, s.length < out.length →
    g ⟨E, radix, tweak⟩ (ct ++ 0 :: rest) out = some (s ++ 0 :: out.drop (s.length + 1)))

/-- The common part of C53 and C54 for the two directions. -/
theorem phone_core (app : FpeApp) (phone smp : List Byte)
    (hp : ∀ c ∈ phone, c ≠ 0) (h0 : ∀ c ∈ smp, c ≠ 0) (hs : smp = [] ∨ phone.length ≤ smp.length) (f g : FpeFn)
    (hfg : ∃ ct, Inverts f g 10 app.E (pick true (maskOf smp phone.length) phone ++ [0])
      (pick false (maskOf smp phone.length) phone) ct) :
    ∃ o : List Byte, o.length = phone.length ∧ (∀ c ∈ o, c ≠ 0) ∧
      (∀ i (h1 : i < (maskOf smp phone.length).length) (h2 : i < phone.length) (h3 : i < o.length),
        ((maskOf smp phone.length)[i] = true → o[i] = phone[i]) ∧
        ((maskOf smp phone.length)[i] = false → IsNumeral 10 o[i])) ∧
      (∀ (mem : AppMem) (rest more after : List Byte), 1 ≤ mem.slack → phone.length ≤ after.length →
        auxPhone app mem (phone ++ 0 :: rest) (smp ++ 0 :: more) after f = some (o ++ after.drop phone.length)) ∧
      (∀ (mem : AppMem) (rest more after : List Byte), 1 ≤ mem.slack → phone.length ≤ after.length →
        auxPhone app mem (o ++ 0 :: rest) (smp ++ 0 :: more) after g = some (phone ++ after.drop phone.length)) := by
  have hl := maskOf_length smp phone.length hs
  obtain ⟨ct, hct, hnum, hf, hg⟩ := hfg
  have hcf := length_pick false _ phone hl
  have hcr : ct.length = (maskOf smp phone.length).count false := by rw [hct, hcf]
  have hlo : (fill (maskOf smp phone.length) phone ct).length = phone.length := length_fill _ _ _ hl (by omega)
  have hz := fill_ne_zero _ phone ct hl (by omega) hp (fun c hc => numeral_ne_zero c (hnum c hc))
  refine ⟨fill (maskOf smp phone.length) phone ct, hlo, hz, ?_, ?_, ?_⟩
  · intro i h1 h2 h3
    have := fill_getElem _ phone ct i h1 h2 h3
    exact ⟨this.1, fun e => hnum _ (this.2 e)⟩
  · intro mem rest more after hk ha
    exact auxPhone_some app mem phone rest smp more after hp h0 hs ha f ct _ hcr
      (hf [] _ (by rw [length_vla, hcf]; omega))
  · intro mem rest more after hk ha
    have hb := hg [] (vla mem.ans ((maskOf smp phone.length).count false + mem.slack))
      (by rw [length_vla, hcf]; omega)
    have := auxPhone_some app mem (fill (maskOf smp phone.length) phone ct) rest smp more after hz h0
      (by rw [hlo]; exact hs) (by rw [hlo]; exact ha) g (pick false (maskOf smp phone.length) phone)
      (0 :: (vla mem.ans ((maskOf smp phone.length).count false + mem.slack)).drop
        ((pick false (maskOf smp phone.length) phone).length + 1)) (by rw [hlo, hcf])
      (by
        rw [hlo, pick_true_fill _ _ _ hl (by omega), pick_false_fill _ _ _ hl hcr.symm]
        exact hb)
    rw [this, hlo, fill_fill _ _ _ hl (by omega)]

/-! ### Masks in terms of the sample -/

theorem maskOf_getElem (smp : List Byte) (len i : Nat) (hs : smp = [] ∨ len ≤ smp.length)
    (h : i < (maskOf smp len).length) : (maskOf smp len)[i] = false ↔ Hidden smp i := by
  have hi := h
  rw [maskOf_length smp len hs] at hi
  unfold Hidden
  cases smp with
  | nil => simp [maskOf]
  | cons c t =>
    have hil : i < (c :: t).length := by rcases hs with hs | hs; cases hs; omega
    have e : maskOf (c :: t) len = ((c :: t).take len).map fun c => c != 0x2a := if_neg (by simp)
    simp only [e, List.getElem_map, List.getElem_take]
    rw [List.getElem?_eq_getElem hil]
    simp

theorem maskOf_count (smp : List Byte) (len : Nat) : (maskOf smp len).count false = hiddenCount smp len := by
  unfold maskOf hiddenCount
  split
  · simp
  · generalize smp.take len = l
    induction l with
    | nil => rfl
    | cons c l ih =>
      rw [List.map_cons]
      by_cases h : c = 0x2a
      · subst h
        rw [show ((0x2a : Byte) != 0x2a) = false from rfl, List.count_cons_self, List.count_cons_self, ih]
      · rw [show (c != 0x2a) = true from bne_iff_ne.mpr h, List.count_cons_of_ne (by decide), List.count_cons_of_ne h, ih]

/-- The conditions under which the engine is defined: FF1 needs two hidden characters; FF3 needs one hidden and
seven visible characters (with the terminator they are the eight tweak bytes). -/
def HiddenOk (f : Ffx) (smp : List Byte) (len : Nat) : Prop :=
  match f with
  | .ff1 => 2 ≤ hiddenCount smp len
  | .ff3 => 1 ≤ hiddenCount smp len ∧ hiddenCount smp len + 7 ≤ len

theorem maskOk_of (f : Ffx) (smp : List Byte) (len : Nat) (hs : smp = [] ∨ len ≤ smp.length)
    (h : HiddenOk f smp len) : MaskOk f (maskOf smp len) := by
  have h1 := maskOf_count smp len
  have h2 := count_flags (maskOf smp len)
  have h3 := maskOf_length smp len hs
  unfold HiddenOk at h
  unfold MaskOk
  cases f <;> simp only at h ⊢ <;> omega

theorem pick_hidden (smp xs : List Byte) (hs : smp = [] ∨ xs.length ≤ smp.length) (P : Byte → Prop)
    (h : ∀ i (hi : i < xs.length), Hidden smp i → P xs[i]) : ∀ c ∈ pick false (maskOf smp xs.length) xs, P c := by
  have hl := maskOf_length smp xs.length hs
  have key : ∀ (ms : List Bool) (ys : List Byte), ms.length = ys.length →
      (∀ i (h1 : i < ms.length) (h2 : i < ys.length), ms[i] = false → P ys[i]) → ∀ c ∈ pick false ms ys, P c := by
    intro ms
    induction ms with
    | nil => intro ys _ _ c hc; simp [pick] at hc
    | cons m ms ih =>
      intro ys hly hP c hc
      cases ys with
      | nil => simp at hly
      | cons y ys =>
        have ih' := ih ys (by simpa using hly) (fun i h1 h2 e =>
          hP (i + 1) (by simpa using h1) (by simpa using h2) (by simpa using e))
        simp only [pick] at hc
        split at hc
        · rename_i hm
          rcases List.mem_cons.mp hc with rfl | hc
          · exact hP 0 (by simp) (by simp) (by simpa using hm)
          · exact ih' c hc
        · exact ih' c hc
  exact key _ _ hl fun i h1 h2 e => h i h2 ((maskOf_getElem smp xs.length i hs h1).mp e)

theorem inverts_fwd (app : FpeApp) (lg : Nat → Nat → Nat) (hlg : LgOk lg) (smp xs : List Byte)
    (hs : smp = [] ∨ xs.length ≤ smp.length) (hd : ∀ i (hi : i < xs.length), Hidden smp i → IsNumeral 10 xs[i])
    (hk : HiddenOk app.ffx smp xs.length) :
    ∃ ct, Inverts (encFn app lg) (decFn app lg) 10 app.E (pick true (maskOf smp xs.length) xs ++ [0])
      (pick false (maskOf smp xs.length) xs) ct := by
  have hl := maskOf_length smp xs.length hs
  obtain ⟨ct, h⟩ := engine_fwd app lg hlg 10 (by decide) (by decide) app.E _ _
    (engineOk_of app.ffx _ xs hl (maskOk_of _ _ _ hs hk)) (pick_hidden smp xs hs _ hd)
  exact ⟨ct, h⟩

theorem inverts_bwd (app : FpeApp) (lg : Nat → Nat → Nat) (hlg : LgOk lg) (smp xs : List Byte)
    (hs : smp = [] ∨ xs.length ≤ smp.length) (hd : ∀ i (hi : i < xs.length), Hidden smp i → IsNumeral 10 xs[i])
    (hk : HiddenOk app.ffx smp xs.length) :
    ∃ ct, Inverts (decFn app lg) (encFn app lg) 10 app.E (pick true (maskOf smp xs.length) xs ++ [0])
      (pick false (maskOf smp xs.length) xs) ct := by
  have hl := maskOf_length smp xs.length hs
  obtain ⟨ct, h⟩ := engine_bwd app lg hlg 10 (by decide) (by decide) app.E _ _
    (engineOk_of app.ffx _ xs hl (maskOk_of _ _ _ hs hk)) (pick_hidden smp xs hs _ hd)
  exact ⟨ct, h⟩

theorem shown_kept {smp xs o : List Byte} (hs : smp = [] ∨ xs.length ≤ smp.length) (ho : o.length = xs.length)
    (h : ∀ i (h1 : i < (maskOf smp xs.length).length) (h2 : i < xs.length) (h3 : i < o.length),
        ((maskOf smp xs.length)[i] = true → o[i] = xs[i]) ∧
        ((maskOf smp xs.length)[i] = false → IsNumeral 10 o[i])) :
    (∀ i, ¬ Hidden smp i → o[i]? = xs[i]?) ∧ (∀ i (hi : i < o.length), Hidden smp i → IsNumeral 10 o[i]) := by
  have hl := maskOf_length smp xs.length hs
  constructor
  · intro i hn
    by_cases hi : i < xs.length
    · have h1 : i < (maskOf smp xs.length).length := by omega
      have h3 : i < o.length := by omega
      rw [List.getElem?_eq_getElem hi, List.getElem?_eq_getElem h3]
      refine congrArg some ((h i h1 hi h3).1 ?_)
      cases e : (maskOf smp xs.length)[i] with
      | true => rfl
      | false => exact absurd ((maskOf_getElem smp xs.length i hs h1).mp e) hn
    · rw [List.getElem?_eq_none (by omega), List.getElem?_eq_none (by omega)]
  · intro i hi hh
    have h1 : i < (maskOf smp xs.length).length := by omega
    exact (h i h1 (by omega) hi).2 ((maskOf_getElem smp xs.length i hs h1).mpr hh)

/-! ### C53, C54: phone numbers -/

/-- C53: for every phone number and sample (none, or at least as long as the number), if the byte behind `ans` may be
written, encryption and decryption keep the length and the visible characters and put a decimal digit at
every hidden position.  The result does not depend on uninitialised memory. -/
theorem C53_phone_mask (app : FpeApp) (lg : Nat → Nat → Nat) (hlg : LgOk lg) (phone smp : List Byte)
    (hp : ∀ c ∈ phone, c ≠ 0) (h0 : ∀ c ∈ smp, c ≠ 0) (hs : smp = [] ∨ phone.length ≤ smp.length)
    (hd : ∀ i (hi : i < phone.length), Hidden smp i → IsNumeral 10 phone[i])
    (hk : HiddenOk app.ffx smp phone.length) :
    (∃ o : List Byte, o.length = phone.length ∧ (∀ i, ¬ Hidden smp i → o[i]? = phone[i]?) ∧
      (∀ i (hi : i < o.length), Hidden smp i → IsNumeral 10 o[i]) ∧
      ∀ (mem : AppMem) (rest more after : List Byte), 1 ≤ mem.slack → phone.length ≤ after.length →
        encryptPhone app lg mem (phone ++ 0 :: rest) (smp ++ 0 :: more) after = some (o ++ after.drop phone.length)) ∧
    (∃ o : List Byte, o.length = phone.length ∧ (∀ i, ¬ Hidden smp i → o[i]? = phone[i]?) ∧
      (∀ i (hi : i < o.length), Hidden smp i → IsNumeral 10 o[i]) ∧
      ∀ (mem : AppMem) (rest more after : List Byte), 1 ≤ mem.slack → phone.length ≤ after.length →
        decryptPhone app lg mem (phone ++ 0 :: rest) (smp ++ 0 :: more) after =
          some (o ++ after.drop phone.length)) := by
  constructor
  · obtain ⟨o, h1, _, h2, h3, _⟩ := phone_core app phone smp hp h0 hs _ _ (inverts_fwd app lg hlg smp phone hs hd hk)
    obtain ⟨h4, h5⟩ := shown_kept hs h1 h2
    exact ⟨o, h1, h4, h5, h3⟩
  · obtain ⟨o, h1, _, h2, h3, _⟩ := phone_core app phone smp hp h0 hs _ _ (inverts_bwd app lg hlg smp phone hs hd hk)
    obtain ⟨h4, h5⟩ := shown_kept hs h1 h2
    exact ⟨o, h1, h4, h5, h3⟩

/-- C54: decryption with the same sample returns the phone number, for all contents of the uninitialised
arrays and output buffers in the two calls. -/
theorem C54_phone_roundtrip (app : FpeApp) (lg : Nat → Nat → Nat) (hlg : LgOk lg) (phone smp : List Byte)
    (hp : ∀ c ∈ phone, c ≠ 0) (h0 : ∀ c ∈ smp, c ≠ 0) (hs : smp = [] ∨ phone.length ≤ smp.length)
    (hd : ∀ i (hi : i < phone.length), Hidden smp i → IsNumeral 10 phone[i])
    (hk : HiddenOk app.ffx smp phone.length) :
    ∃ o : List Byte, (∀ c ∈ o, c ≠ 0) ∧
      (∀ (mem : AppMem) (rest more after : List Byte), 1 ≤ mem.slack → phone.length ≤ after.length →
        encryptPhone app lg mem (phone ++ 0 :: rest) (smp ++ 0 :: more) after = some (o ++ after.drop phone.length)) ∧
      (∀ (mem : AppMem) (rest more after : List Byte), 1 ≤ mem.slack → phone.length ≤ after.length →
        decryptPhone app lg mem (o ++ 0 :: rest) (smp ++ 0 :: more) after =
          some (phone ++ after.drop phone.length)) := by
  obtain ⟨o, _, h0, _, h3, h4⟩ := phone_core app phone smp hp h0 hs _ _ (inverts_fwd app lg hlg smp phone hs hd hk)
  exact ⟨o, h0, h3, h4⟩

/-- C54, the other direction: encrypting a decrypted number returns it. -/
theorem C54_phone_reverse (app : FpeApp) (lg : Nat → Nat → Nat) (hlg : LgOk lg) (phone smp : List Byte)
    (hp : ∀ c ∈ phone, c ≠ 0) (h0 : ∀ c ∈ smp, c ≠ 0) (hs : smp = [] ∨ phone.length ≤ smp.length)
    (hd : ∀ i (hi : i < phone.length), Hidden smp i → IsNumeral 10 phone[i])
    (hk : HiddenOk app.ffx smp phone.length) :
    ∃ o : List Byte, (∀ c ∈ o, c ≠ 0) ∧
      (∀ (mem : AppMem) (rest more after : List Byte), 1 ≤ mem.slack → phone.length ≤ after.length →
        decryptPhone app lg mem (phone ++ 0 :: rest) (smp ++ 0 :: more) after = some (o ++ after.drop phone.length)) ∧
      (∀ (mem : AppMem) (rest more after : List Byte), 1 ≤ mem.slack → phone.length ≤ after.length →
        encryptPhone app lg mem (o ++ 0 :: rest) (smp ++ 0 :: more) after =
          some (phone ++ after.drop phone.length)) := by
  obtain ⟨o, _, h0, _, h3, h4⟩ := phone_core app phone smp hp h0 hs _ _ (inverts_bwd app lg hlg smp phone hs hd hk)
  exact ⟨o, h0, h3, h4⟩

/-- C54, defect: `ans` has no room for the terminator that the engine writes.  In the C language (no slack) every
call writes outside `ans`, for all numbers, samples and engines. -/
theorem C54_phone_overflow (app : FpeApp) (lg : Nat → Nat → Nat) (mem : AppMem) (phone smp rest more after : List Byte)
    (hp : ∀ c ∈ phone, c ≠ 0) (h0 : ∀ c ∈ smp, c ≠ 0) (hs : smp = [] ∨ phone.length ≤ smp.length)
    (hk : mem.slack = 0) :
    encryptPhone app lg mem (phone ++ 0 :: rest) (smp ++ 0 :: more) after = none ∧
    decryptPhone app lg mem (phone ++ 0 :: rest) (smp ++ 0 :: more) after = none := by
  have hl := maskOf_length smp phone.length hs
  have hz : ∀ c ∈ pick false (maskOf smp phone.length) phone, c ≠ 0 := fun c hc => hp c (mem_pick _ _ _ c hc)
  have hn := engine_no_room app ⟨app.E, 10, pick true (maskOf smp phone.length) phone ++ [0]⟩ lg _ []
    (vla mem.ans ((maskOf smp phone.length).count false + mem.slack)) hz
    (by rw [length_vla, length_pick _ _ _ hl]; omega)
  unfold encryptPhone decryptPhone
  rw [auxPhone_eq app mem phone rest smp more after hp h0 hs, auxPhone_eq app mem phone rest smp more after hp h0 hs,
    hn.1, hn.2]
  exact ⟨rfl, rfl⟩

/-- C54, defect: with FF3 and fewer than seven visible characters (in particular without a sample) both
functions read outside `tweak`, for every number, engine key, memory and slack. -/
theorem C54_phone_ff3_tweak (app : FpeApp) (lg : Nat → Nat → Nat) (mem : AppMem) (phone smp rest more after : List Byte)
    (hp : ∀ c ∈ phone, c ≠ 0) (h0 : ∀ c ∈ smp, c ≠ 0) (hs : smp = [] ∨ phone.length ≤ smp.length)
    (hf : app.ffx = .ff3) (hv : phone.length < hiddenCount smp phone.length + 7) :
    encryptPhone app lg mem (phone ++ 0 :: rest) (smp ++ 0 :: more) after = none ∧
    decryptPhone app lg mem (phone ++ 0 :: rest) (smp ++ 0 :: more) after = none := by
  have hl := maskOf_length smp phone.length hs
  have h1 := maskOf_count smp phone.length
  have h2 := count_flags (maskOf smp phone.length)
  have hn := C49_ff3_short_tweak (pick true (maskOf smp phone.length) phone ++ [0]) 10 app.E _ rfl
    (by rw [List.length_append, length_pick _ _ _ hl]; simp; omega) lg
    (pick false (maskOf smp phone.length) phone ++ [0])
    (vla mem.ans ((maskOf smp phone.length).count false + mem.slack))
  unfold encryptPhone decryptPhone
  rw [auxPhone_eq app mem phone rest smp more after hp h0 hs, auxPhone_eq app mem phone rest smp more after hp h0 hs]
  unfold encFn decFn
  simp only [hf]
  rw [hn.1, hn.2]
  exact ⟨rfl, rfl⟩

instance (r : Nat) (c : Byte) : Decidable (IsNumeral r c) := by unfold IsNumeral; infer_instance

instance (smp : List Byte) (i : Nat) : Decidable (Hidden smp i) := by unfold Hidden; infer_instance

example (E : Block → Block) := C54_phone_roundtrip ⟨E, .ff1⟩ _ lgOk_clog
  [0x31, 0x33, 0x38, 0x30, 0x30, 0x31, 0x33, 0x38, 0x30, 0x30, 0x30]
  [0x31, 0x33, 0x38, 0x2a, 0x2a, 0x2a, 0x2a, 0x38, 0x2a, 0x2a, 0x2a] (by decide) (by decide) (by decide) (by decide)
  (show 2 ≤ hiddenCount _ _ by decide)

/-- "13800138000" with the sample "138****8***": seven stars (FF1); "1**00138000" with "1**00138000": two
stars and nine visible characters (FF3). -/
example : HiddenOk .ff1 [0x31, 0x33, 0x38, 0x2a, 0x2a, 0x2a, 0x2a, 0x38, 0x2a, 0x2a, 0x2a] 11 ∧
    HiddenOk .ff3 [0x31, 0x2a, 0x2a, 0x30, 0x30, 0x31, 0x33, 0x38, 0x30, 0x30, 0x30] 11 ∧ HiddenOk .ff1 [] 11 ∧
    ¬ HiddenOk .ff3 [] 11 := by unfold HiddenOk; decide

/-! ### C55: identity cards -/

theorem getLast_append_x (b : List Byte) (rest : List Byte) (x : Byte) :
    rdByte (b ++ [x] ++ 0 :: rest) b.length = some x := by
  unfold rdByte
  rw [List.append_assoc, List.getElem?_append_right (Nat.le_refl _)]
  simp

/-- A card number: `body` and either the final `X`, or nothing and then `body` is not empty and does not end in `X`.
Every non-empty string has exactly one such form. -/
def CardForm (body tail : List Byte) : Prop :=
  tail = [0x58] ∨ (tail = [] ∧ ∃ c, body.getLast? = some c ∧ c ≠ 0x58)

theorem card_last (body tail rest : List Byte) (h : CardForm body tail) :
    ∃ last, (if (body ++ tail).length = 0 then none
        else rdByte (body ++ tail ++ 0 :: rest) ((body ++ tail).length - 1)) = some last ∧
      (if last = 0x58 then (body ++ tail).length - 1 else (body ++ tail).length) = body.length ∧
      (∃ c, rdByte (body ++ tail ++ 0 :: rest) body.length = some c ∧ (c = 0x58 ↔ tail = [0x58])) := by
  rcases h with rfl | ⟨rfl, c, hc, hx⟩
  · refine ⟨0x58, ?_, ?_, 0x58, getLast_append_x body rest 0x58, by simp⟩
    · rw [if_neg (by simp), show (body ++ [(0x58 : Byte)]).length - 1 = body.length by simp]
      exact getLast_append_x body rest 0x58
    · simp
  · have hb : body ≠ [] := by rintro rfl; simp at hc
    have hl : 0 < body.length := List.length_pos_iff.mpr hb
    rw [List.getLast?_eq_getElem?] at hc
    rw [List.append_nil]
    refine ⟨c, ?_, by rw [if_neg hx], 0, ?_, by simp⟩
    · rw [if_neg (by omega), rdByte_append _ _ _ (by omega)]
      rw [List.getElem?_eq_getElem (by omega)] at hc
      exact hc
    · unfold rdByte
      rw [List.getElem?_append_right (Nat.le_refl _)]
      simp

theorem auxIdcard_eq (app : FpeApp) (mem : AppMem) (body tail rest smp more after : List Byte) (hf : CardForm body tail)
    (hp : ∀ c ∈ body, c ≠ 0) (h0 : ∀ c ∈ smp, c ≠ 0) (hs : smp = [] ∨ body.length ≤ smp.length) (block : FpeFn) :
    auxIdcard app mem (body ++ tail ++ 0 :: rest) (smp ++ 0 :: more) after block =
      (block ⟨app.E, 10, pick true (maskOf smp body.length) body ++ [0]⟩
        (pick false (maskOf smp body.length) body ++ [0])
        (vla mem.ans ((maskOf smp body.length).count false + mem.slack))).bind fun ans =>
      ((List.range body.length).foldlM (mergeStep (body ++ (tail ++ 0 :: rest)) (smp ++ 0 :: more) ans) (after, 0)).bind
        fun o => if tail = [0x58] then wrByte o.1 body.length 0x58 else some o.1 := by
  have hl := maskOf_length smp body.length hs
  have hm := maskIs_maskOf smp more h0 body.length hs
  have hct := length_pick true _ body hl
  have hcf := length_pick false _ body hl
  have htz : ∀ c ∈ body ++ tail, c ≠ 0 := by
    intro c hc
    rcases List.mem_append.mp hc with hc | hc
    · exact hp c hc
    · rcases hf with rfl | ⟨rfl, _⟩
      · rw [List.mem_singleton] at hc; subst hc; decide
      · cases hc
  obtain ⟨last, e1, e2, c, e3, e4⟩ := card_last body tail rest hf
  unfold auxIdcard
  rw [cstr_append (body ++ tail) rest htz]
  simp only [Option.bind_some]
  rw [e1]
  simp only [Option.bind_some]
  rw [e2, maskCount_eq smp more h0 body.length hs]
  simp only [Option.bind_some]
  rw [len_sub _ _ hl, List.append_assoc, split_loop body _ _ _ hl hm _ _ (by rw [length_vla]; omega)
    (by rw [length_vla]; omega)]
  simp only [Option.bind_some]
  unfold wrByte
  rw [if_pos (by rw [over, List.length_append, List.length_drop, length_vla]; omega),
    if_pos (by rw [over, List.length_append, List.length_drop, length_vla]; omega)]
  simp only [Option.bind_some]
  rw [← hct, set_over _ _ _ (length_vla _ _), ← hcf, set_over _ _ _ (length_vla _ _), fpeInit_ten]
  rw [← List.append_assoc, e3]
  simp only [Option.bind_some]
  simp only [e4]

theorem auxIdcard_some (app : FpeApp) (mem : AppMem) (body tail rest smp more after : List Byte)
    (hf : CardForm body tail) (hp : ∀ c ∈ body, c ≠ 0) (h0 : ∀ c ∈ smp, c ≠ 0)
    (hs : smp = [] ∨ body.length ≤ smp.length)
    (ha : (body ++ tail).length ≤ after.length) (block : FpeFn) (r more' : List Byte)
    (hr : r.length = (maskOf smp body.length).count false)
    (hb : block ⟨app.E, 10, pick true (maskOf smp body.length) body ++ [0]⟩
        (pick false (maskOf smp body.length) body ++ [0])
        (vla mem.ans ((maskOf smp body.length).count false + mem.slack)) = some (r ++ more')) :
    auxIdcard app mem (body ++ tail ++ 0 :: rest) (smp ++ 0 :: more) after block =
      some (fill (maskOf smp body.length) body r ++ tail ++ after.drop (body ++ tail).length) := by
  have hl := maskOf_length smp body.length hs
  have hm := maskIs_maskOf smp more h0 body.length hs
  have hlf := length_fill _ body r hl (by omega)
  rw [List.length_append] at ha
  rw [auxIdcard_eq app mem body tail rest smp more after hf hp h0 hs block, hb]
  simp only [Option.bind_some]
  rw [merge_loop body _ _ _ hl hm r more' after hr (by omega)]
  simp only [Option.bind_some]
  rcases hf with rfl | ⟨rfl, _⟩
  · rw [if_pos rfl]
    have := wrByte_over (fill (maskOf smp body.length) body r) after 0x58 (by rw [hlf]; simp at ha; omega)
    rw [hlf] at this
    rw [this, over]
    simp [hlf]
  · rw [if_neg (by simp), over, hlf]
    simp

theorem card_core (app : FpeApp) (body tail smp : List Byte) (hform : CardForm body tail)
    (hp : ∀ c ∈ body, c ≠ 0) (h0 : ∀ c ∈ smp, c ≠ 0) (hs : smp = [] ∨ body.length ≤ smp.length) (f g : FpeFn)
    (hfg : ∃ ct, Inverts f g 10 app.E (pick true (maskOf smp body.length) body ++ [0])
      (pick false (maskOf smp body.length) body) ct) :
    ∃ o : List Byte, o.length = body.length ∧ (∀ c ∈ o, c ≠ 0) ∧
      (∀ i (h1 : i < (maskOf smp body.length).length) (h2 : i < body.length) (h3 : i < o.length),
        ((maskOf smp body.length)[i] = true → o[i] = body[i]) ∧
        ((maskOf smp body.length)[i] = false → IsNumeral 10 o[i])) ∧
      (∀ (mem : AppMem) (rest more after : List Byte), 1 ≤ mem.slack → (body ++ tail).length ≤ after.length →
        auxIdcard app mem (body ++ tail ++ 0 :: rest) (smp ++ 0 :: more) after f =
          some (o ++ tail ++ after.drop (body ++ tail).length)) ∧
      (∀ (mem : AppMem) (rest more after : List Byte), 1 ≤ mem.slack → (body ++ tail).length ≤ after.length →
        auxIdcard app mem (o ++ tail ++ 0 :: rest) (smp ++ 0 :: more) after g =
          some (body ++ tail ++ after.drop (body ++ tail).length)) := by
  have hl := maskOf_length smp body.length hs
  obtain ⟨ct, hct, hnum, hf, hg⟩ := hfg
  have hcf := length_pick false _ body hl
  have hcr : ct.length = (maskOf smp body.length).count false := by rw [hct, hcf]
  have hlo : (fill (maskOf smp body.length) body ct).length = body.length := length_fill _ _ _ hl (by omega)
  have hz := fill_ne_zero _ body ct hl (by omega) hp (fun c hc => numeral_ne_zero c (hnum c hc))
  have hpt : ∀ i (h1 : i < (maskOf smp body.length).length) (h2 : i < body.length)
      (h3 : i < (fill (maskOf smp body.length) body ct).length),
        ((maskOf smp body.length)[i] = true → (fill (maskOf smp body.length) body ct)[i] = body[i]) ∧
        ((maskOf smp body.length)[i] = false → IsNumeral 10 (fill (maskOf smp body.length) body ct)[i]) := by
    intro i h1 h2 h3
    have := fill_getElem _ body ct i h1 h2 h3
    exact ⟨this.1, fun e => hnum _ (this.2 e)⟩
  have hform' : CardForm (fill (maskOf smp body.length) body ct) tail := by
    rcases hform with rfl | ⟨rfl, c, hc, hx⟩
    · exact Or.inl rfl
    · refine Or.inr ⟨rfl, ?_⟩
      have hb : 0 < body.length := by
        cases body with
        | nil => simp at hc
        | cons => simp
      rw [List.getLast?_eq_getElem?, List.getElem?_eq_getElem (by omega)] at hc
      injection hc with hc
      rw [List.getLast?_eq_getElem?, List.getElem?_eq_getElem (by omega)]
      refine ⟨_, rfl, ?_⟩
      have hp' := hpt (body.length - 1) (by omega) (by omega) (by omega)
      simp only [hlo]
      cases e : (maskOf smp body.length)[body.length - 1] with
      | true => rw [hp'.1 e, hc]; exact hx
      | false =>
        have := hp'.2 e
        intro hx'
        rw [hx'] at this
        exact absurd this (by decide)
  refine ⟨fill (maskOf smp body.length) body ct, hlo, hz, hpt, ?_, ?_⟩
  · intro mem rest more after hk ha
    exact auxIdcard_some app mem body tail rest smp more after hform hp h0 hs ha f ct _ hcr
      (hf [] _ (by rw [length_vla, hcf]; omega))
  · intro mem rest more after hk ha
    have hb := hg [] (vla mem.ans ((maskOf smp body.length).count false + mem.slack))
      (by rw [length_vla, hcf]; omega)
    have hlt : (fill (maskOf smp body.length) body ct ++ tail).length = (body ++ tail).length := by
      rw [List.length_append, List.length_append, hlo]
    have := auxIdcard_some app mem (fill (maskOf smp body.length) body ct) tail rest smp more after hform' hz h0
      (by rw [hlo]; exact hs) (by rw [hlt]; exact ha) g (pick false (maskOf smp body.length) body)
      (0 :: (vla mem.ans ((maskOf smp body.length).count false + mem.slack)).drop
        ((pick false (maskOf smp body.length) body).length + 1)) (by rw [hlo, hcf])
      (by
        rw [hlo, pick_true_fill _ _ _ hl (by omega), pick_false_fill _ _ _ hl hcr.symm]
        exact hb)
    rw [this, hlo, fill_fill _ _ _ hl (by omega), hlt]

/-- C55: a final `X` is kept, all visible characters are kept, every hidden position gets a digit, and decryption with
the same sample returns the card number (if the byte behind `ans` may be written). -/
theorem C55_idcard (app : FpeApp) (lg : Nat → Nat → Nat) (hlg : LgOk lg) (body tail smp : List Byte)
    (hform : CardForm body tail) (hp : ∀ c ∈ body, c ≠ 0) (h0 : ∀ c ∈ smp, c ≠ 0)
    (hs : smp = [] ∨ body.length ≤ smp.length)
    (hd : ∀ i (hi : i < body.length), Hidden smp i → IsNumeral 10 body[i])
    (hk : HiddenOk app.ffx smp body.length) :
    ∃ o : List Byte, o.length = body.length ∧ (∀ i, ¬ Hidden smp i → o[i]? = body[i]?) ∧
      (∀ i (hi : i < o.length), Hidden smp i → IsNumeral 10 o[i]) ∧
      (∀ (mem : AppMem) (rest more after : List Byte), 1 ≤ mem.slack → (body ++ tail).length ≤ after.length →
        encryptIdcard app lg mem (body ++ tail ++ 0 :: rest) (smp ++ 0 :: more) after =
          some (o ++ tail ++ after.drop (body ++ tail).length)) ∧
      (∀ (mem : AppMem) (rest more after : List Byte), 1 ≤ mem.slack → (body ++ tail).length ≤ after.length →
        decryptIdcard app lg mem (o ++ tail ++ 0 :: rest) (smp ++ 0 :: more) after =
          some (body ++ tail ++ after.drop (body ++ tail).length)) := by
  obtain ⟨o, h1, _, h2, h3, h4⟩ := card_core app body tail smp hform hp h0 hs _ _
    (inverts_fwd app lg hlg smp body hs hd hk)
  obtain ⟨h5, h6⟩ := shown_kept hs h1 h2
  exact ⟨o, h1, h5, h6, h3, h4⟩

/-- C55, defect: as for phone numbers, `ans` has no room for the terminator. -/
theorem C55_idcard_overflow (app : FpeApp) (lg : Nat → Nat → Nat) (mem : AppMem)
    (body tail smp rest more after : List Byte) (hform : CardForm body tail)
    (hp : ∀ c ∈ body, c ≠ 0) (h0 : ∀ c ∈ smp, c ≠ 0) (hs : smp = [] ∨ body.length ≤ smp.length)
    (hk : mem.slack = 0) :
    encryptIdcard app lg mem (body ++ tail ++ 0 :: rest) (smp ++ 0 :: more) after = none ∧
    decryptIdcard app lg mem (body ++ tail ++ 0 :: rest) (smp ++ 0 :: more) after = none := by
  have hl := maskOf_length smp body.length hs
  have hz : ∀ c ∈ pick false (maskOf smp body.length) body, c ≠ 0 := fun c hc => hp c (mem_pick _ _ _ c hc)
  have hn := engine_no_room app ⟨app.E, 10, pick true (maskOf smp body.length) body ++ [0]⟩ lg _ []
    (vla mem.ans ((maskOf smp body.length).count false + mem.slack)) hz
    (by rw [length_vla, length_pick _ _ _ hl]; omega)
  unfold encryptIdcard decryptIdcard
  rw [auxIdcard_eq app mem body tail rest smp more after hform hp h0 hs,
    auxIdcard_eq app mem body tail rest smp more after hform hp h0 hs, hn.1, hn.2]
  exact ⟨rfl, rfl⟩

/-- C55, defect: with FF3 and fewer than seven visible characters (in particular without a sample) both functions
read outside `tweak`. -/
theorem C55_idcard_ff3_tweak (app : FpeApp) (lg : Nat → Nat → Nat) (mem : AppMem)
    (body tail smp rest more after : List Byte) (hform : CardForm body tail)
    (hp : ∀ c ∈ body, c ≠ 0) (h0 : ∀ c ∈ smp, c ≠ 0) (hs : smp = [] ∨ body.length ≤ smp.length)
    (hf : app.ffx = .ff3) (hv : body.length < hiddenCount smp body.length + 7) :
    encryptIdcard app lg mem (body ++ tail ++ 0 :: rest) (smp ++ 0 :: more) after = none ∧
    decryptIdcard app lg mem (body ++ tail ++ 0 :: rest) (smp ++ 0 :: more) after = none := by
  have hl := maskOf_length smp body.length hs
  have h1 := maskOf_count smp body.length
  have h2 := count_flags (maskOf smp body.length)
  have hn := C49_ff3_short_tweak (pick true (maskOf smp body.length) body ++ [0]) 10 app.E _ rfl
    (by rw [List.length_append, length_pick _ _ _ hl]; simp; omega) lg
    (pick false (maskOf smp body.length) body ++ [0])
    (vla mem.ans ((maskOf smp body.length).count false + mem.slack))
  unfold encryptIdcard decryptIdcard
  rw [auxIdcard_eq app mem body tail rest smp more after hform hp h0 hs,
    auxIdcard_eq app mem body tail rest smp more after hform hp h0 hs]
  unfold encFn decFn
  simp only [hf]
  rw [hn.1, hn.2]
  exact ⟨rfl, rfl⟩

/-- C55: the empty card number is read at index -1. -/
theorem C55_idcard_empty (app : FpeApp) (lg : Nat → Nat → Nat) (mem : AppMem) (rest sample after : List Byte) :
    encryptIdcard app lg mem (0 :: rest) sample after = none ∧
    decryptIdcard app lg mem (0 :: rest) sample after = none := by
  have h : cstr (0 :: rest) = some [] := cstr_append [] rest (by simp)
  unfold encryptIdcard decryptIdcard auxIdcard
  rw [h]
  exact ⟨rfl, rfl⟩

example : CardForm [0x31, 0x31, 0x30] [0x58] ∧ CardForm [0x31, 0x31, 0x30] [] :=
  ⟨Or.inl rfl, Or.inr ⟨rfl, 0x30, rfl, by decide⟩⟩

end Verif.Props
