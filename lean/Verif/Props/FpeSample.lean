import Verif.Props.FpeCn
import Verif.Props.FpeMem
import Verif.Lemmas.Gf2More

/-! C113: samples that do not fit the text, and results read as strings. -/
set_option autoImplicit false

namespace Verif.Props
open Verif Spec Model

/-! ### phone numbers and identity cards: any memory behind the sample pointer -/

theorem foldlM_congr_range {α : Type} (f g : α → Nat → Option α) (n : Nat) (h : ∀ a i, i < n → f a i = g a i) (a : α) :
    (List.range n).foldlM f a = (List.range n).foldlM g a :=
  (foldlM_congr_inv f g (fun _ _ => True) n (fun i a hi _ => h a i hi) (fun _ _ _ _ _ _ => trivial) a trivial).1

theorem foldlM_range_stop {α : Type} (f : α → Nat → Option α) (n i : Nat) (hi : i < n) (h : ∀ a, f a i = none) (a : α) :
    (List.range n).foldlM f a = none := by
  induction n with
  | zero => omega
  | succ n ih =>
    rw [List.range_succ, List.foldlM_append]
    rcases Nat.lt_succ_iff_lt_or_eq.1 hi with h' | rfl
    · rw [ih h']; rfl
    · cases (List.range i).foldlM f a with
      | none => rfl
      | some b =>
        show Option.bind (f b i) _ = none
        rw [h]; rfl

/-- `maskCount` counts the shown positions. -/
theorem maskCount_shown (sample : List Byte) (hne : sample ≠ []) (len : Nat) :
    maskCount sample len =
      (List.range len).foldlM (fun t i => (maskShown sample i).bind fun b => some (if b then t + 1 else t)) 0 := by
  cases sample with
  | nil => exact absurd rfl hne
  | cons c l =>
    have e0 : rdByte (c :: l) 0 = some c := rfl
    rw [maskCount, e0, Option.bind_some]
    by_cases hc : c = 0
    · rw [if_pos hc]
      have : ∀ n, (List.range n).foldlM (fun t i => (maskShown (c :: l) i).bind fun b => some (if b then t + 1 else t)) 0 =
          some 0 := by
        intro n
        induction n with
        | zero => rfl
        | succ n ih =>
          rw [List.range_succ, List.foldlM_append, ih]
          have : maskShown (c :: l) n = some false := by rw [maskShown, e0, Option.bind_some, if_pos hc]
          simp [this]
      exact (this len).symm
    · rw [if_neg hc]
      refine foldlM_congr_range _ _ _ (fun t i _ => ?_) 0
      rw [maskShown, e0, Option.bind_some, if_neg hc]
      cases rdByte (c :: l) i <;> rfl

/-- Only the stars among the first `len` bytes of the sample matter. -/
theorem auxPhone_sample (app : FpeApp) (mem : AppMem) (phone rest s s' after : List Byte) (hp : ∀ c ∈ phone, c ≠ 0)
    (hs : s ≠ []) (hs' : s' ≠ []) (h : ∀ i, i < phone.length → maskShown s i = maskShown s' i) (block : FpeFn) :
    auxPhone app mem (phone ++ 0 :: rest) s after block = auxPhone app mem (phone ++ 0 :: rest) s' after block := by
  unfold auxPhone
  rw [cstr_append phone rest hp]
  simp only [Option.bind_some]
  rw [maskCount_shown s hs, maskCount_shown s' hs',
    foldlM_congr_range _ (fun t i => (maskShown s' i).bind fun b => some (if b then t + 1 else t)) _
      (fun t i hi => by rw [h i hi])]
  refine bind_congr' fun t _ => bind_congr' fun input _ => bind_congr' fun tweak _ => ?_
  rw [foldlM_congr_range _ (splitStep (phone ++ 0 :: rest) s') _ (fun a i hi => by rw [splitStep, splitStep, h i hi])]
  refine bind_congr' fun t _ => bind_congr' fun input _ => bind_congr' fun ans _ => ?_
  rw [foldlM_congr_range _ (mergeStep (phone ++ 0 :: rest) s' ans) _ (fun a i hi => by rw [mergeStep, mergeStep, h i hi])]

theorem auxIdcard_sample (app : FpeApp) (mem : AppMem) (body tail rest s s' after : List Byte) (hf : CardForm body tail)
    (hp : ∀ c ∈ body, c ≠ 0) (hs : s ≠ []) (hs' : s' ≠ [])
    (h : ∀ i, i < body.length → maskShown s i = maskShown s' i) (block : FpeFn) :
    auxIdcard app mem (body ++ tail ++ 0 :: rest) s after block =
      auxIdcard app mem (body ++ tail ++ 0 :: rest) s' after block := by
  obtain ⟨last, hl1, hl2, c, hc, _⟩ := card_last body tail rest hf
  have hz : ∀ c ∈ body ++ tail, c ≠ 0 := by
    intro c hc
    rcases List.mem_append.1 hc with hc | hc
    · exact hp c hc
    · rcases hf with rfl | ⟨rfl, _⟩
      · rw [List.mem_singleton.1 hc]; decide
      · cases hc
  unfold auxIdcard
  rw [cstr_append _ rest hz]
  simp only [Option.bind_some]
  rw [hl1]
  simp only [Option.bind_some]
  rw [hl2]
  rw [maskCount_shown s hs, maskCount_shown s' hs',
    foldlM_congr_range _ (fun t i => (maskShown s' i).bind fun b => some (if b then t + 1 else t)) _
      (fun t i hi => by rw [h i hi])]
  refine bind_congr' fun t _ => ?_
  rw [foldlM_congr_range _ (splitStep (body ++ tail ++ 0 :: rest) s') _ (fun a i hi => by rw [splitStep, splitStep, h i hi])]
  refine bind_congr' fun t _ => bind_congr' fun input _ => bind_congr' fun input _ => bind_congr' fun ctx _ =>
    bind_congr' fun ans _ => ?_
  rw [foldlM_congr_range _ (mergeStep (body ++ tail ++ 0 :: rest) s' ans) _
    (fun a i hi => by rw [mergeStep, mergeStep, h i hi])]

/-- The sample string for `len` characters that has the stars of the memory `buf`. -/
def fullSample (buf : List Byte) (len : Nat) : List Byte := (buf.take len).map fun c => if c = 0 then 0x30 else c

theorem fullSample_length (buf : List Byte) (len : Nat) (h : len ≤ buf.length) : (fullSample buf len).length = len := by
  rw [fullSample, List.length_map, List.length_take, Nat.min_eq_left h]

theorem fullSample_ne_zero (buf : List Byte) (len : Nat) : ∀ c ∈ fullSample buf len, c ≠ 0 := by
  intro c hc
  obtain ⟨d, _, rfl⟩ := List.mem_map.1 hc
  by_cases hd : d = 0
  · rw [if_pos hd]; decide
  · rw [if_neg hd]; exact hd

theorem fullSample_star (buf : List Byte) (len i : Nat) (hi : i < len) :
    (fullSample buf len)[i]? = some 0x2a ↔ buf[i]? = some 0x2a := by
  rw [fullSample, List.getElem?_map, List.getElem?_take, if_pos hi]
  cases buf[i]? with
  | none => simp
  | some c =>
    by_cases hc : c = 0
    · subst hc; simp
    · rw [Option.map_some, if_neg hc]

theorem maskShown_of_star (s : List Byte) (c0 : Byte) (h0 : s[0]? = some c0) (hc : c0 ≠ 0) (i : Nat) (hi : i < s.length) :
    maskShown s i = some (decide (¬ s[i]? = some 0x2a)) := by
  unfold maskShown rdByte
  rw [h0, Option.bind_some, if_neg hc, List.getElem?_eq_getElem hi, Option.bind_some]
  congr 1
  by_cases h : s[i] = 0x2a
  · rw [h]; rfl
  · rw [show decide (¬ some s[i] = some 0x2a) = true from decide_eq_true (fun h' => h (Option.some.inj h'))]
    exact bne_iff_ne.2 h

theorem fullSample_shown (buf : List Byte) (c0 : Byte) (h0 : buf[0]? = some c0) (hc : c0 ≠ 0) (len : Nat)
    (hl : len ≤ buf.length) (more : List Byte) (i : Nat) (hi : i < len) :
    maskShown buf i = maskShown (fullSample buf len ++ 0 :: more) i := by
  have hlen := fullSample_length buf len hl
  have e : ∀ j, j < len → (fullSample buf len ++ 0 :: more)[j]? = (fullSample buf len)[j]? :=
    fun j hj => List.getElem?_append_left (by omega)
  have h1 : (fullSample buf len ++ 0 :: more)[0]? = some c0 := by
    rw [e 0 (by omega), fullSample, List.getElem?_map, List.getElem?_take, if_pos (by omega), h0, Option.map_some, if_neg hc]
  rw [maskShown_of_star buf c0 h0 hc i (by omega), maskShown_of_star _ c0 h1 hc i (by rw [List.length_append]; omega),
    e i hi]
  congr 1
  exact decide_eq_decide.2 (not_congr (fullSample_star buf len i hi).symm)

theorem fullSample_count (buf : List Byte) (len : Nat) : (fullSample buf len).count 0x2a = (buf.take len).count 0x2a := by
  unfold fullSample
  generalize buf.take len = l
  induction l with
  | nil => rfl
  | cons c l ih =>
    rw [List.map_cons, List.count_cons, List.count_cons, ih]
    congr 1
    by_cases hc : c = 0
    · subst hc; rfl
    · rw [if_neg hc]

theorem fullSample_hidden (buf : List Byte) (len : Nat) (hb : buf ≠ []) (hl : 0 < len) :
    hiddenCount (fullSample buf len) len = hiddenCount buf len := by
  have hne : fullSample buf len ≠ [] := by
    intro h
    have := congrArg List.length h
    rw [fullSample, List.length_map, List.length_take, List.length_nil] at this
    have : 0 < buf.length := List.length_pos_iff.2 hb
    omega
  rw [hiddenCount, hiddenCount, if_neg hne, if_neg hb, List.take_of_length_le, fullSample_count]
  rw [fullSample, List.length_map, List.length_take]; omega

/-- What a string read from a buffer is, whose first bytes are no terminators. -/
theorem cstr_prefix (o t : List Byte) (h : ∀ c ∈ o, c ≠ 0) : cstr (o ++ t) = (cstr t).map (o ++ ·) := by
  have hm : ((0 : Byte) ∈ o ++ t) = (0 ∈ t) := propext ⟨fun h' => by
    rcases List.mem_append.1 h' with h' | h'
    · exact absurd rfl (h 0 h')
    · exact h', fun h' => List.mem_append_right _ h'⟩
  have htw : (o ++ t).takeWhile (fun c => c != 0) = o ++ t.takeWhile (fun c => c != 0) := by
    rw [List.takeWhile_append_of_pos]
    intro c hc
    exact bne_iff_ne.2 (h c hc)
  unfold cstr
  simp only [hm]
  by_cases h0 : (0 : Byte) ∈ t
  · rw [if_pos h0, if_pos h0, htw]; rfl
  · rw [if_neg h0, if_neg h0]; rfl

theorem cstr_nil_iff (t : List Byte) : cstr t = some [] ↔ t[0]? = some 0 := by
  cases t with
  | nil => simp [cstr]
  | cons c t =>
    by_cases hc : c = 0
    · subst hc; simp [cstr]
    · unfold cstr
      constructor
      · intro h
        split at h
        · have := Option.some.inj h
          rw [List.takeWhile_cons, if_pos (bne_iff_ne.2 hc)] at this
          cases this
        · cases h
      · intro h
        exact absurd (Option.some.inj h) hc

/-- The string in the output is `o` exactly if a terminator was already behind it. -/
theorem cstr_out_iff (o after : List Byte) (n : Nat) (h : ∀ c ∈ o, c ≠ 0) :
    cstr (o ++ after.drop n) = some o ↔ after[n]? = some 0 := by
  rw [cstr_prefix o _ h, show after[n]? = (after.drop n)[0]? by rw [List.getElem?_drop]; rfl, ← cstr_nil_iff]
  cases cstr (after.drop n) with
  | none => simp
  | some t => simp

/-- C113: what decides over a phone number is the memory behind the sample pointer, up to the length of the number,
whether the sample ends there or not: if the first byte is no terminator, exactly the positions where the
memory holds a star are encrypted.  With the same memory decryption returns the number.  No terminator is
written: the result read as a string is the ciphertext exactly if the output held one. -/
theorem C113_phone (app : FpeApp) (lg : Nat → Nat → Nat) (hlg : LgOk lg) (phone buf : List Byte) (c0 : Byte)
    (h0 : buf[0]? = some c0) (hc : c0 ≠ 0) (hl : phone.length ≤ buf.length) (hp : ∀ c ∈ phone, c ≠ 0)
    (hd : ∀ i (hi : i < phone.length), buf[i]? = some 0x2a → IsNumeral 10 phone[i])
    (hk : HiddenOk app.ffx buf phone.length) :
    ∃ o : List Byte, o.length = phone.length ∧ (∀ c ∈ o, c ≠ 0) ∧
      (∀ i, i < phone.length → buf[i]? ≠ some 0x2a → o[i]? = phone[i]?) ∧
      (∀ i (hi : i < o.length), buf[i]? = some 0x2a → IsNumeral 10 o[i]) ∧
      (∀ (mem : AppMem) (rest after : List Byte), 1 ≤ mem.slack → phone.length ≤ after.length →
        ∃ out, encryptPhone app lg mem (phone ++ 0 :: rest) buf after = some out ∧ out = o ++ after.drop phone.length ∧
          (cstr out = some o ↔ after[phone.length]? = some 0)) ∧
      (∀ (mem : AppMem) (rest after : List Byte), 1 ≤ mem.slack → phone.length ≤ after.length →
        ∃ out, decryptPhone app lg mem (o ++ 0 :: rest) buf after = some out ∧ out = phone ++ after.drop phone.length ∧
          (cstr out = some phone ↔ after[phone.length]? = some 0)) := by
  have hb : buf ≠ [] := by rintro rfl; cases h0
  have hpos : 0 < phone.length := by
    rcases Nat.eq_zero_or_pos phone.length with h | h
    · exfalso
      unfold HiddenOk hiddenCount at hk
      rw [if_neg hb, h] at hk
      revert hk
      cases app.ffx <;> simp
    · exact h
  have hfl := fullSample_length buf phone.length hl
  have hne : fullSample buf phone.length ≠ [] := by
    intro h; rw [h] at hfl; simp at hfl; omega
  have hz := fullSample_ne_zero buf phone.length
  have hs : fullSample buf phone.length = [] ∨ phone.length ≤ (fullSample buf phone.length).length := .inr (by omega)
  have hid : ∀ i, i < phone.length → (Hidden (fullSample buf phone.length) i ↔ buf[i]? = some 0x2a) := by
    intro i hi
    rw [Hidden, fullSample_star buf _ i hi]
    simp [hne]
  have hd' : ∀ i (hi : i < phone.length), Hidden (fullSample buf phone.length) i → IsNumeral 10 phone[i] :=
    fun i hi h => hd i hi ((hid i hi).1 h)
  have hk' : HiddenOk app.ffx (fullSample buf phone.length) phone.length := by
    unfold HiddenOk at hk ⊢
    rw [fullSample_hidden buf _ hb hpos]
    exact hk
  obtain ⟨o, hoz, he, hdc⟩ := C54_phone_roundtrip app lg hlg phone _ hp hz hs hd' hk'
  obtain ⟨⟨o', hol, hos, hon, he'⟩, _⟩ := C53_phone_mask app lg hlg phone _ hp hz hs hd' hk'
  have hoo : o = o' := by
    have h1 := he ⟨fun _ => 0, fun _ => 0, fun _ => 0, 1⟩ [] [] (List.replicate phone.length 0) (Nat.le_refl _) (by simp)
    have h2 := he' ⟨fun _ => 0, fun _ => 0, fun _ => 0, 1⟩ [] [] (List.replicate phone.length 0) (Nat.le_refl _) (by simp)
    rw [h1] at h2
    simpa using h2
  subst hoo
  have hsh : ∀ i, i < phone.length → maskShown buf i = maskShown (fullSample buf phone.length ++ 0 :: []) i :=
    fullSample_shown buf c0 h0 hc phone.length hl []
  refine ⟨o, hol, hoz, fun i hi h => hos i (fun h' => h ((hid i hi).1 h')), fun i hi h => hon i hi ((hid i (by omega)).2 h), ?_, ?_⟩
  · intro mem rest after hm ha
    refine ⟨_, ?_, rfl, cstr_out_iff o after _ hoz⟩
    rw [← he mem rest [] after hm ha]
    exact auxPhone_sample app mem phone rest _ _ after hp hb (by simp) hsh _
  · intro mem rest after hm ha
    refine ⟨_, ?_, rfl, cstr_out_iff phone after _ hp⟩
    rw [← hdc mem rest [] after hm ha]
    exact auxPhone_sample app mem o rest _ _ after hoz hb (by simp) (by rw [hol]; exact hsh) _

/-- C113: a sample whose memory ends before the number does is read beyond its end. -/
theorem C113_phone_unread (app : FpeApp) (lg : Nat → Nat → Nat) (mem : AppMem) (phone rest buf after : List Byte)
    (hp : ∀ c ∈ phone, c ≠ 0) (h0 : buf[0]? ≠ some 0) (hl : buf.length < phone.length) :
    encryptPhone app lg mem (phone ++ 0 :: rest) buf after = none ∧
    decryptPhone app lg mem (phone ++ 0 :: rest) buf after = none := by
  have key : maskCount buf phone.length = none := by
    unfold maskCount
    cases hb : rdByte buf 0 with
    | none => rfl
    | some c =>
      have hc : c ≠ 0 := by rintro rfl; exact h0 hb
      rw [Option.bind_some, if_neg hc]
      exact foldlM_range_stop _ phone.length buf.length hl (fun t => by
        rw [show rdByte buf buf.length = none from List.getElem?_eq_none (Nat.le_refl _)]; rfl) 0
  unfold encryptPhone decryptPhone auxPhone
  rw [cstr_append phone rest hp]
  simp only [Option.bind_some]
  rw [key]
  exact ⟨rfl, rfl⟩

theorem numeral_ne_x (c : Byte) (h : IsNumeral 10 c) : c ≠ 0x58 := by
  rintro rfl
  revert h
  unfold IsNumeral
  decide

/-- C113: the same for identity cards; a trailing X is never hidden. -/
theorem C113_idcard (app : FpeApp) (lg : Nat → Nat → Nat) (hlg : LgOk lg) (body tail buf : List Byte) (c0 : Byte)
    (hform : CardForm body tail) (h0 : buf[0]? = some c0) (hc : c0 ≠ 0) (hl : body.length ≤ buf.length)
    (hp : ∀ c ∈ body, c ≠ 0) (hd : ∀ i (hi : i < body.length), buf[i]? = some 0x2a → IsNumeral 10 body[i])
    (hk : HiddenOk app.ffx buf body.length) :
    ∃ o : List Byte, o.length = body.length ∧ (∀ c ∈ o, c ≠ 0) ∧
      (∀ i, i < body.length → buf[i]? ≠ some 0x2a → o[i]? = body[i]?) ∧
      (∀ i (hi : i < o.length), buf[i]? = some 0x2a → IsNumeral 10 o[i]) ∧
      (∀ (mem : AppMem) (rest after : List Byte), 1 ≤ mem.slack → (body ++ tail).length ≤ after.length →
        ∃ out, encryptIdcard app lg mem (body ++ tail ++ 0 :: rest) buf after = some out ∧
          out = o ++ tail ++ after.drop (body ++ tail).length ∧
          (cstr out = some (o ++ tail) ↔ after[(body ++ tail).length]? = some 0)) ∧
      (∀ (mem : AppMem) (rest after : List Byte), 1 ≤ mem.slack → (body ++ tail).length ≤ after.length →
        ∃ out, decryptIdcard app lg mem (o ++ tail ++ 0 :: rest) buf after = some out ∧
          out = body ++ tail ++ after.drop (body ++ tail).length ∧
          (cstr out = some (body ++ tail) ↔ after[(body ++ tail).length]? = some 0)) := by
  have hb : buf ≠ [] := by rintro rfl; cases h0
  have hpos : 0 < body.length := by
    rcases Nat.eq_zero_or_pos body.length with h | h
    · exfalso
      unfold HiddenOk hiddenCount at hk
      rw [if_neg hb, h] at hk
      revert hk
      cases app.ffx <;> simp
    · exact h
  have hfl := fullSample_length buf body.length hl
  have hne : fullSample buf body.length ≠ [] := by
    intro h; rw [h] at hfl; simp at hfl; omega
  have hz := fullSample_ne_zero buf body.length
  have hs : fullSample buf body.length = [] ∨ body.length ≤ (fullSample buf body.length).length := .inr (by omega)
  have hid : ∀ i, i < body.length → (Hidden (fullSample buf body.length) i ↔ buf[i]? = some 0x2a) := by
    intro i hi
    rw [Hidden, fullSample_star buf _ i hi]
    simp [hne]
  have hd' : ∀ i (hi : i < body.length), Hidden (fullSample buf body.length) i → IsNumeral 10 body[i] :=
    fun i hi h => hd i hi ((hid i hi).1 h)
  have hk' : HiddenOk app.ffx (fullSample buf body.length) body.length := by
    unfold HiddenOk at hk ⊢
    rw [fullSample_hidden buf _ hb hpos]
    exact hk
  obtain ⟨o, hol, hos, hon, he, hdc⟩ := C55_idcard app lg hlg body tail _ hform hp hz hs hd' hk'
  have hsh : ∀ i, i < body.length → maskShown buf i = maskShown (fullSample buf body.length ++ 0 :: []) i :=
    fullSample_shown buf c0 h0 hc body.length hl []
  have hos' : ∀ i, i < body.length → buf[i]? ≠ some 0x2a → o[i]? = body[i]? :=
    fun i hi h => hos i (fun h' => h ((hid i hi).1 h'))
  have hon' : ∀ i (hi : i < o.length), buf[i]? = some 0x2a → IsNumeral 10 o[i] :=
    fun i hi h => hon i hi ((hid i (by omega)).2 h)
  have hoz : ∀ c ∈ o, c ≠ 0 := by
    intro c hc
    obtain ⟨i, hi, rfl⟩ := List.mem_iff_getElem.1 hc
    by_cases hst : buf[i]? = some 0x2a
    · exact numeral_ne_zero _ (hon' i hi hst)
    · have := hos' i (by omega) hst
      rw [List.getElem?_eq_getElem hi, List.getElem?_eq_getElem (by omega)] at this
      rw [Option.some.inj this]
      exact hp _ (List.getElem_mem _)
  have hof : CardForm o tail := by
    rcases hform with h | ⟨h, c, hcl, hcx⟩
    · exact .inl h
    · refine .inr ⟨h, o[o.length - 1], by rw [List.getLast?_eq_getElem?, List.getElem?_eq_getElem], ?_⟩
      by_cases hst : buf[o.length - 1]? = some 0x2a
      · exact numeral_ne_x _ (hon' _ (by omega) hst)
      · have := hos' _ (by omega) hst
        have e : body[o.length - 1]? = some c := by rw [hol, ← List.getLast?_eq_getElem?, hcl]
        rw [List.getElem?_eq_getElem (by omega), e] at this
        rw [Option.some.inj this]
        exact hcx
  have htz : ∀ c ∈ tail, c ≠ 0 := by
    intro c hc
    rcases hform with rfl | ⟨rfl, _⟩
    · rw [List.mem_singleton.1 hc]; decide
    · cases hc
  have happ : ∀ l : List Byte, (∀ c ∈ l, c ≠ 0) → ∀ c ∈ l ++ tail, c ≠ 0 := fun l hl c hc =>
    (List.mem_append.1 hc).elim (hl c) (htz c)
  refine ⟨o, hol, hoz, hos', hon', ?_, ?_⟩
  · intro mem rest after hm ha
    refine ⟨_, ?_, rfl, cstr_out_iff (o ++ tail) after _ (happ o hoz)⟩
    rw [← he mem rest [] after hm ha]
    exact auxIdcard_sample app mem body tail rest _ _ after hform hp hb (by simp) hsh _
  · intro mem rest after hm ha
    refine ⟨_, ?_, rfl, cstr_out_iff (body ++ tail) after _ (happ body hp)⟩
    rw [← hdc mem rest [] after hm ha]
    exact auxIdcard_sample app mem o tail rest _ _ after hof hoz hb (by simp) (by rw [hol]; exact hsh) _

/-- "12345" with a sample buffer that holds "1*", its terminator and, left over from an earlier sample, "*7": the
fourth digit is encrypted too. -/
example (E : Block → Block) := C113_phone ⟨E, .ff1⟩ _ lgOk_clog [0x31, 0x32, 0x33, 0x34, 0x35] [0x31, 0x2a, 0, 0x2a, 0x37, 0x2a]
  0x31 rfl (by decide) (by decide) (by decide) (by decide) (show 2 ≤ hiddenCount _ _ by decide)

example (E : Block → Block) := C113_idcard ⟨E, .ff1⟩ _ lgOk_clog [0x31, 0x32, 0x33] [0x58] [0x2a, 0x2a, 0] 0x2a
  (.inl rfl) rfl (by decide) (by decide) (by decide) (by decide) (show 2 ≤ hiddenCount _ _ by decide)

/-- The sample "1*" in a buffer of its own for a number of five digits. -/
example (E : Block → Block) (mem : AppMem) (after : List Byte) :=
  C113_phone_unread ⟨E, .ff1⟩ (fun r k => Nat.clog 2 (r ^ k)) mem [0x31, 0x32, 0x33, 0x34, 0x35] [] [0x31, 0x2a, 0] after
    (by decide) (by decide) (by decide)

/-! ### Chinese text -/

/-- `cnSplitMask_run` with a tweak array that is longer than the visible characters need. -/
theorem cnSplitMask_short (cn more : List Byte) : ∀ (ms : List Bool) (cps : List Nat) (pI tI pT tT : List Byte) (ch : Nat),
    ms.length = cps.length → (∀ cp ∈ cps, InCnRange cp) → tI.length = 4 * ms.count false + 1 →
    4 * ms.count true + 1 ≤ tT.length → cn.drop ch = utf8Text cps ++ more →
    ∃ x y ip tp ch', cnSplitMask cn ms ⟨pI ++ tI, pT ++ tT, pI.length, pT.length, ch⟩ =
      some ⟨pI ++ duoText (pick false ms cps) ++ [x],
        pT ++ duoText (pick true ms cps) ++ y :: tT.drop (4 * ms.count true + 1), ip, tp, ch'⟩ := by
  intro ms
  induction ms with
  | nil =>
    intro cps pI tI pT tT ch hl _ hI hT _
    match tI, hI, tT, hT with
    | [x], _, y :: tT, _ => exact ⟨x, y, _, _, _, by simp [cnSplitMask, pick, duoText]; exact ⟨rfl, rfl, rfl⟩⟩
  | cons m ms ih =>
    intro cps pI tI pT tT ch hl hr hI hT hd
    cases cps with
    | nil => simp at hl
    | cons cp cps =>
      have hrc := hr cp List.mem_cons_self
      have hr' : ∀ c ∈ cps, InCnRange c := fun c hc => hr c (List.mem_cons_of_mem _ hc)
      have hl' : ms.length = cps.length := by simpa using hl
      have e : utf8Text (cp :: cps) = utf8Three cp ++ utf8Text cps := rfl
      rw [e, List.append_assoc] at hd
      have hd' : cn.drop (ch + 3) = utf8Text cps ++ more := by
        rw [← List.drop_drop, hd]
        rfl
      have hv : cp - 0x4E00 ≤ 20735 := by unfold InCnRange at hrc; omega
      have h5 : (duo4 (cp - 0x4E00) ++ [0x30]).length = 5 := by rw [List.length_append, length_duo4]; rfl
      rw [cnSplitMask]
      simp only
      rw [cnInt_text cn ch cp _ hrc hd]
      simp only [Option.bind_some]
      cases m with
      | false =>
        rw [if_neg (by decide)]
        have hc : (false :: ms).count false = ms.count false + 1 := List.count_cons_self
        have hc' : (false :: ms).count true = ms.count true := List.count_cons_of_ne (by decide)
        rw [hc] at hI
        rw [hc'] at hT ⊢
        unfold cnHide
        simp only
        rw [duoEncode_eq _ hv, wrBytes_prefix _ _ _ (by rw [h5]; omega)]
        simp only [Option.bind_some]
        rw [h5]
        have e1 : pI ++ (duo4 (cp - 0x4E00) ++ [0x30] ++ tI.drop 5) =
            (pI ++ duo4 (cp - 0x4E00)) ++ (0x30 :: tI.drop 5) := by simp
        have e2 : pI.length + 4 = (pI ++ duo4 (cp - 0x4E00)).length := by rw [List.length_append, length_duo4]
        rw [e1, e2]
        obtain ⟨x, y, ip, tp, ch', h⟩ := ih cps (pI ++ duo4 (cp - 0x4E00)) (0x30 :: tI.drop 5) pT tT (ch + 3) hl' hr'
          (by rw [List.length_cons, List.length_drop]; omega) hT hd'
        refine ⟨x, y, ip, tp, ch', h.trans ?_⟩
        simp [pick, duoText]
      | true =>
        rw [if_pos rfl]
        have hc : (true :: ms).count true = ms.count true + 1 := List.count_cons_self
        have hc' : (true :: ms).count false = ms.count false := List.count_cons_of_ne (by decide)
        rw [hc] at hT ⊢
        rw [hc'] at hI
        unfold cnShow
        simp only
        rw [duoEncode_eq _ hv, wrBytes_prefix _ _ _ (by rw [h5]; omega)]
        simp only [Option.bind_some]
        rw [h5]
        have e1 : pT ++ (duo4 (cp - 0x4E00) ++ [0x30] ++ tT.drop 5) =
            (pT ++ duo4 (cp - 0x4E00)) ++ (0x30 :: tT.drop 5) := by simp
        have e2 : pT.length + 4 = (pT ++ duo4 (cp - 0x4E00)).length := by rw [List.length_append, length_duo4]
        rw [e1, e2]
        obtain ⟨x, y, ip, tp, ch', h⟩ := ih cps pI tI (pT ++ duo4 (cp - 0x4E00)) (0x30 :: tT.drop 5) (ch + 3) hl' hr'
          hI (by rw [List.length_cons, List.length_drop]; omega) hd'
        refine ⟨x, y, ip, tp, ch', h.trans ?_⟩
        rw [List.drop_succ_cons, List.drop_drop, show 5 + 4 * ms.count true = 4 * (ms.count true + 1) + 1 by omega]
        simp [pick, duoText]

theorem utf8Text_take_drop (cps : List Nat) (m : Nat) : utf8Text cps = utf8Text (cps.take m) ++ utf8Text (cps.drop m) := by
  unfold utf8Text
  rw [← List.flatMap_append, List.take_append_drop]

/-- What `aux_fpe_cn` computes with a sample for fewer characters than the text has. -/
theorem auxCn_short (app : FpeApp) (mem : AppMem) (cps : List Nat) (items : List (Option (Byte × Byte × Byte)))
    (rest more after : List Byte) (hr : ∀ cp ∈ cps, InCnRange cp) (hok : SampleOk items) (hne : items ≠ [])
    (hlt : items.length ≤ cps.length) (block : FpeFn) :
    ∃ y : Byte, auxCn app mem (utf8Text cps ++ 0 :: rest) (sampleOf items ++ 0 :: more) after block =
      (block ⟨app.E, 12, (duoText (pick true (items.map Option.isSome) (cps.take items.length)) ++ y ::
          (vla mem.tweak ((cps.length - items.count none) * 4 + 1)).drop (4 * (items.map Option.isSome).count true + 1)).set
            ((cps.length - items.count none) * 4) 0⟩
        (duoText (pick false (items.map Option.isSome) (cps.take items.length)) ++ [0])
        (vla mem.ans (4 * items.count none + mem.slack))).bind fun ans =>
      (cnMergeMask (utf8Text cps ++ 0 :: rest) ans (items.map Option.isSome) ⟨after, 0, 0⟩).bind fun o => some o.out := by
  have hcn : (items.map Option.isSome).count false = items.count none := by
    clear hok hne hlt
    induction items with
    | nil => rfl
    | cons x l ih => cases x <;> simp [ih]
  have hcount := count_flags (items.map Option.isSome)
  rw [List.length_map] at hcount
  generalize hmask : items.map Option.isSome = mask at *
  have hl : mask.length = (cps.take items.length).length := by
    rw [← hmask, List.length_map, List.length_take, Nat.min_eq_left hlt]
  have hlt' := length_pick true mask _ hl
  have hlf := length_pick false mask _ hl
  unfold auxCn
  rw [cstr_append _ rest (utf8Text_ne_zero cps hr), cstr_append _ more (sampleOf_ne_zero items hok).1]
  simp only [Option.bind_some]
  rw [length_utf8Text, Nat.mul_div_cancel_left _ (by decide : 0 < 3), if_neg (sampleOf_ne_nil items hne),
    (sampleOf_ne_zero items hok).2, hmask, hcn, if_pos (by omega)]
  simp only [Option.bind_some]
  rw [if_neg (sampleOf_ne_nil items hne), cnSplitLoop_eq _ items hok, hmask,
    show cps.length - (cps.length - items.count none) = items.count none by omega]
  obtain ⟨x, y, ip, tp, ch', e⟩ := cnSplitMask_short (utf8Text cps ++ 0 :: rest) (utf8Text (cps.drop items.length) ++ 0 :: rest)
    mask (cps.take items.length) []
    (vla mem.input (items.count none * 4 + 1)) [] (vla mem.tweak ((cps.length - items.count none) * 4 + 1)) 0 hl
    (fun c hc => hr c (List.mem_of_mem_take hc))
    (by rw [length_vla]; omega) (by rw [length_vla]; omega)
    (by rw [List.drop_zero, utf8Text_take_drop cps items.length, List.append_assoc])
  simp only [List.nil_append, List.length_nil] at e
  rw [e]
  simp only [Option.bind_some]
  unfold wrByte
  rw [if_pos (by rw [List.length_append, length_duoText, hlf]; simp; omega),
    if_pos (by rw [List.length_append, length_duoText, hlt', List.length_cons, List.length_drop, length_vla]; omega)]
  simp only [Option.bind_some]
  rw [set_last _ _ _ _ (by rw [length_duoText, hlf]; omega), fpeInit_twelve, Nat.mul_comm (items.count none) 4]
  refine ⟨y, ?_⟩
  simp only [Option.bind_some]
  refine bind_congr' fun ans _ => ?_
  rw [if_neg (sampleOf_ne_nil items hne), cnMergeLoop_eq _ _ items hok, hmask]

/-- C113: with a sample for fewer characters than the text has, only that many characters are written; the visible
ones are kept.  The rest of the text is not in the result.  (What the hidden ones become depends on
uninitialised memory: `C113_cn_junk`.) -/
theorem C113_cn_short (app : FpeApp) (lg : Nat → Nat → Nat) (hlg : LgOk lg) (mem : AppMem) (cps : List Nat)
    (items : List (Option (Byte × Byte × Byte))) (rest more after : List Byte) (hr : ∀ cp ∈ cps, InCnRange cp)
    (hok : SampleOk items) (hne : items ≠ []) (hlt : items.length < cps.length) (h1 : none ∈ items)
    (h2 : app.ffx = .ff3 → items.count none + 2 ≤ cps.length) (hs : 1 ≤ mem.slack)
    (ha : 3 * items.length ≤ after.length) :
    ∃ o : List Nat, o.length = items.length ∧ (∀ cp ∈ o, InCnRange cp) ∧
      (∀ (i : Nat) (t : Byte × Byte × Byte), items[i]? = some (some t) → o[i]? = cps[i]?) ∧
      encryptCn app lg mem (utf8Text cps ++ 0 :: rest) (sampleOf items ++ 0 :: more) after =
        some (utf8Text o ++ after.drop (3 * items.length)) := by
  obtain ⟨y, e⟩ := auxCn_short app mem cps items rest more after hr hok hne (Nat.le_of_lt hlt) (encFn app lg)
  have hcn : (items.map Option.isSome).count false = items.count none := by
    clear e hok hne hlt h1 h2 ha
    induction items with
    | nil => rfl
    | cons x l ih => cases x <;> simp [ih]
  have hpos : 0 < items.count none := List.count_pos_iff.2 h1
  have hcount := count_flags (items.map Option.isSome)
  rw [List.length_map] at hcount
  have hl : (items.map Option.isSome).length = (cps.take items.length).length := by
    rw [List.length_map, List.length_take, Nat.min_eq_left (Nat.le_of_lt hlt)]
  have hlt' := length_pick true _ _ hl
  have hlf := length_pick false _ _ hl
  obtain ⟨ct, hct, hnum, hf, _⟩ := engine_fwd app lg hlg 12 (by decide) (by decide) app.E
    ((duoText (pick true (items.map Option.isSome) (cps.take items.length)) ++ y ::
          (vla mem.tweak ((cps.length - items.count none) * 4 + 1)).drop (4 * (items.map Option.isSome).count true + 1)).set
            ((cps.length - items.count none) * 4) 0)
    (duoText (pick false (items.map Option.isSome) (cps.take items.length))) (by
      unfold EngineOk
      rw [List.length_set, List.length_append, length_duoText, length_duoText, hlt', hlf, List.length_cons,
        List.length_drop, length_vla]
      revert h2
      cases app.ffx
      · intro _; simp only; omega
      · intro h2
        have := h2 rfl
        simp only; omega) (duoText_numeral _)
  rw [length_duoText, hlf] at hct
  obtain ⟨r, hrl, hrr, rfl⟩ := duoText_surj _ ct hct hnum
  have hb := hf [] (vla mem.ans (4 * items.count none + mem.slack)) (by rw [length_vla, length_duoText, hlf]; omega)
  have hr' : ∀ c ∈ cps.take items.length, InCnRange c := fun c hc => hr c (List.mem_of_mem_take hc)
  refine ⟨fill (items.map Option.isSome) (cps.take items.length) r, ?_, fill_range _ _ _ hl (by omega) hr' hrr, ?_, ?_⟩
  · rw [length_fill _ _ _ hl (by omega), ← hl, List.length_map]
  · intro i t hi
    have hi1 : i < items.length := by
      by_contra h
      rw [List.getElem?_eq_none (by omega)] at hi
      cases hi
    have hi2 : i < (items.map Option.isSome).length := by rw [List.length_map]; exact hi1
    have hm : (items.map Option.isSome)[i] = true := by
      rw [List.getElem?_eq_getElem hi1] at hi
      rw [List.getElem_map, Option.some.inj hi]; rfl
    have hlo := length_fill (items.map Option.isSome) (cps.take items.length) r hl (by omega)
    rw [List.getElem?_eq_getElem (by omega), (fill_getElem _ _ r i hi2 (by omega) (by omega)).1 hm,
      List.getElem_take, List.getElem?_eq_getElem]
  · unfold encryptCn
    rw [e, hb]
    simp only [Option.bind_some]
    obtain ⟨ap, op, h⟩ := cnMergeMask_run (utf8Text cps ++ 0 :: rest) (utf8Text (cps.drop items.length) ++ 0 :: rest)
      _ (items.map Option.isSome) (cps.take items.length) r [] after 0 _ hl hrl hrr (by rw [List.length_map]; exact ha)
      (by rw [List.length_nil, List.drop_zero, utf8Text_take_drop cps items.length, List.append_assoc]) (List.drop_zero) List.mem_cons_self
    simp only [List.nil_append, List.length_nil] at h
    rw [h]
    simp only [Option.bind_some, List.length_map]

theorem cnSplitMask_full (cn more : List Byte) : ∀ (ms : List Bool) (cps : List Nat) (pI tI pT tT : List Byte) (ch : Nat),
    ms.length = cps.length → (∀ cp ∈ cps, InCnRange cp) → tT.length ≤ 4 * ms.count true → 1 ≤ tT.length →
    cn.drop ch = utf8Text cps ++ more →
    cnSplitMask cn ms ⟨pI ++ tI, pT ++ tT, pI.length, pT.length, ch⟩ = none := by
  intro ms
  induction ms with
  | nil => intro cps pI tI pT tT ch hl _ h h' _; simp at h; subst h; simp at h'
  | cons m ms ih =>
    intro cps pI tI pT tT ch hl hr hT hT1 hd
    cases cps with
    | nil => simp at hl
    | cons cp cps =>
      have hrc := hr cp List.mem_cons_self
      have hr' : ∀ c ∈ cps, InCnRange c := fun c hc => hr c (List.mem_cons_of_mem _ hc)
      have hl' : ms.length = cps.length := by simpa using hl
      have e : utf8Text (cp :: cps) = utf8Three cp ++ utf8Text cps := rfl
      rw [e, List.append_assoc] at hd
      have hd' : cn.drop (ch + 3) = utf8Text cps ++ more := by
        rw [← List.drop_drop, hd]
        rfl
      have hv : cp - 0x4E00 ≤ 20735 := by unfold InCnRange at hrc; omega
      have h5 : (duo4 (cp - 0x4E00) ++ [0x30]).length = 5 := by rw [List.length_append, length_duo4]; rfl
      rw [cnSplitMask]
      simp only
      rw [cnInt_text cn ch cp _ hrc hd]
      simp only [Option.bind_some]
      cases m with
      | false =>
        rw [if_neg (by decide)]
        rw [List.count_cons_of_ne (by decide)] at hT
        unfold cnHide
        simp only
        rw [duoEncode_eq _ hv]
        by_cases hI : 5 ≤ tI.length
        · rw [wrBytes_prefix _ _ _ (by rw [h5]; exact hI)]
          simp only [Option.bind_some]
          rw [h5]
          have e1 : pI ++ (duo4 (cp - 0x4E00) ++ [0x30] ++ tI.drop 5) =
              (pI ++ duo4 (cp - 0x4E00)) ++ (0x30 :: tI.drop 5) := by simp
          have e2 : pI.length + 4 = (pI ++ duo4 (cp - 0x4E00)).length := by rw [List.length_append, length_duo4]
          rw [e1, e2]
          exact ih cps (pI ++ duo4 (cp - 0x4E00)) (0x30 :: tI.drop 5) pT tT (ch + 3) hl' hr' hT hT1 hd'
        · rw [wrBytes, if_neg (by rw [h5, List.length_append]; omega)]; rfl
      | true =>
        rw [if_pos rfl]
        rw [List.count_cons_self] at hT
        unfold cnShow
        simp only
        rw [duoEncode_eq _ hv]
        by_cases hI : 5 ≤ tT.length
        · rw [wrBytes_prefix _ _ _ (by rw [h5]; exact hI)]
          simp only [Option.bind_some]
          rw [h5]
          have e1 : pT ++ (duo4 (cp - 0x4E00) ++ [0x30] ++ tT.drop 5) =
              (pT ++ duo4 (cp - 0x4E00)) ++ (0x30 :: tT.drop 5) := by simp
          have e2 : pT.length + 4 = (pT ++ duo4 (cp - 0x4E00)).length := by rw [List.length_append, length_duo4]
          rw [e1, e2]
          exact ih cps pI tI (pT ++ duo4 (cp - 0x4E00)) (0x30 :: tT.drop 5) (ch + 3) hl' hr'
            (by rw [List.length_cons, List.length_drop]; omega) (by simp) hd'
        · rw [wrBytes, if_neg (by rw [h5, List.length_append]; omega)]; rfl

theorem cnSplitMask_append (cn : List Byte) : ∀ (a b : List Bool) (s : CnSplit),
    cnSplitMask cn (a ++ b) s = (cnSplitMask cn a s).bind (cnSplitMask cn b) := by
  intro a
  induction a with
  | nil => intro b s; rfl
  | cons m a ih =>
    intro b s
    rw [List.cons_append, cnSplitMask, cnSplitMask, Option.bind_assoc]
    refine bind_congr' fun uc _ => ?_
    rw [Option.bind_assoc]
    exact bind_congr' fun t _ => ih b t

/-- C113: a sample for more characters than the text has, with a star beyond the text, makes the function write
outside its tweak array (or give it a negative size). -/
theorem C113_cn_long (app : FpeApp) (lg : Nat → Nat → Nat) (mem : AppMem) (cps : List Nat)
    (items extra : List (Option (Byte × Byte × Byte))) (rest more after : List Byte) (hr : ∀ cp ∈ cps, InCnRange cp)
    (hok : SampleOk (items ++ extra)) (hlen : items.length = cps.length) (h1 : none ∈ extra) :
    encryptCn app lg mem (utf8Text cps ++ 0 :: rest) (sampleOf (items ++ extra) ++ 0 :: more) after = none ∧
    decryptCn app lg mem (utf8Text cps ++ 0 :: rest) (sampleOf (items ++ extra) ++ 0 :: more) after = none := by
  have key : ∀ block, auxCn app mem (utf8Text cps ++ 0 :: rest) (sampleOf (items ++ extra) ++ 0 :: more) after block = none := by
    intro block
    have hcn : ∀ its : List (Option (Byte × Byte × Byte)), (its.map Option.isSome).count false = its.count none := by
      intro its
      induction its with
      | nil => rfl
      | cons x l ih => cases x <;> simp [ih]
    have hpos : 0 < extra.count none := List.count_pos_iff.2 h1
    have hne : items ++ extra ≠ [] := by
      intro h
      rw [(List.append_eq_nil_iff.1 h).2] at h1
      cases h1
    have hcount := count_flags (items.map Option.isSome)
    rw [List.length_map, hcn] at hcount
    unfold auxCn
    rw [cstr_append _ rest (utf8Text_ne_zero cps hr), cstr_append _ more (sampleOf_ne_zero _ hok).1]
    simp only [Option.bind_some]
    rw [length_utf8Text, Nat.mul_div_cancel_left _ (by decide : 0 < 3), if_neg (sampleOf_ne_nil _ hne),
      (sampleOf_ne_zero _ hok).2, hcn, List.count_append]
    by_cases hst : items.count none + extra.count none ≤ cps.length
    · rw [if_pos hst]
      simp only [Option.bind_some]
      rw [if_neg (sampleOf_ne_nil _ hne), cnSplitLoop_eq _ _ hok, List.map_append, cnSplitMask_append]
      have := cnSplitMask_full (utf8Text cps ++ 0 :: rest) (0 :: rest) (items.map Option.isSome) cps []
        (vla mem.input ((cps.length - (cps.length - (items.count none + extra.count none))) * 4 + 1)) []
        (vla mem.tweak ((cps.length - (items.count none + extra.count none)) * 4 + 1)) 0 (by rw [List.length_map, hlen]) hr
        (by rw [length_vla]; omega) (by rw [length_vla]; omega) rfl
      simp only [List.nil_append, List.length_nil] at this
      rw [this]
      rfl
    · rw [if_neg hst]; rfl
  exact ⟨key _, key _⟩

/-- C113: only the first byte of a visible sample character is looked at and three bytes are skipped, but all
stars are counted.  The sample `a**` with an ASCII character `a`, for a text of three characters, therefore
encrypts uninitialised memory, and the result is the first character alone, as it was. -/
theorem C113_cn_ascii (app : FpeApp) (mem : AppMem) (x y z : Nat) (a : Byte) (rest more after : List Byte)
    (hx : InCnRange x) (hy : InCnRange y) (hz : InCnRange z) (h0 : a ≠ 0) (h1 : a ≠ 0x2a) (ha : 3 ≤ after.length)
    (block : FpeFn) :
    auxCn app mem (utf8Text [x, y, z] ++ 0 :: rest) ([a, 0x2a, 0x2a] ++ 0 :: more) after block =
      (block ⟨app.E, 12, duoText [x] ++ [0]⟩ (vla mem.input 8 ++ [0]) (vla mem.ans (8 + mem.slack))).bind fun _ =>
        some (utf8Text [x] ++ after.drop 3) := by
  have hr : ∀ cp ∈ [x, y, z], InCnRange cp := by
    intro cp h
    rcases List.mem_cons.1 h with rfl | h
    · exact hx
    · rcases List.mem_cons.1 h with rfl | h
      · exact hy
      · rw [List.mem_singleton.1 h]; exact hz
  have hs : ∀ c ∈ [a, 0x2a, 0x2a], c ≠ 0 := by
    intro c h
    rcases List.mem_cons.1 h with rfl | h
    · exact h0
    · rcases List.mem_cons.1 h with rfl | h
      · decide
      · rw [List.mem_singleton.1 h]; decide
  have hct : [a, 0x2a, 0x2a].count 0x2a = 2 := by
    rw [List.count_cons_of_ne h1]; rfl
  have hl : ∀ inp tw cn v t, cnInt cn 0 = some v → cnShow ⟨inp, tw, 0, 0, 0⟩ v = some t →
      cnSplitLoop cn [a, 0x2a, 0x2a] ⟨inp, tw, 0, 0, 0⟩ = some t := by
    intro inp tw cn v t hv ht
    rw [cnSplitLoop]
    simp only [hv, Option.bind_some, if_neg h1, ht, List.drop_succ_cons, List.drop_zero]
    rw [cnSplitLoop]
  have hm : ∀ s cn ans, cnMergeLoop cn ans [a, 0x2a, 0x2a] s = cnCopy cn s := by
    intro s cn ans
    rw [cnMergeLoop, if_neg h1]
    cases cnCopy cn s with
    | none => rfl
    | some t => rw [Option.bind_some]; show cnMergeLoop cn ans [] t = _; rw [cnMergeLoop]
  have hv : x - 0x4E00 ≤ 20735 := by unfold InCnRange at hx; omega
  have h5 : (duo4 (x - 0x4E00) ++ [0x30]).length = 5 := by rw [List.length_append, length_duo4]; rfl
  have ht : (utf8Text [x, y, z] ++ 0 :: rest).drop 0 = utf8Three x ++ (utf8Text [y, z] ++ 0 :: rest) := by
    simp [utf8Text]
  have hout : utf8Three x ++ after.drop (utf8Three x).length = utf8Text [x] ++ after.drop 3 := by
    rw [show (utf8Three x).length = 3 from rfl, utf8Text, List.flatMap_cons, List.flatMap_nil, List.append_nil]
  unfold auxCn
  rw [cstr_append _ rest (utf8Text_ne_zero _ hr), cstr_append _ more hs]
  simp only [Option.bind_some]
  rw [length_utf8Text, Nat.mul_div_cancel_left _ (by decide : 0 < 3), if_neg (List.cons_ne_nil _ _), hct,
    show [x, y, z].length = 3 from rfl, if_pos (show 2 ≤ 3 by decide)]
  simp only [Option.bind_some, Nat.reduceSub, Nat.reduceMul, Nat.reduceAdd]
  have hw := wrBytes_prefix [] (vla mem.tweak 5) (duo4 (x - 0x4E00) ++ [0x30]) (by rw [h5, length_vla])
  rw [List.nil_append, List.nil_append, h5, List.drop_of_length_le (by rw [length_vla]), List.append_nil, List.length_nil] at hw
  have hsh : ∀ inp, cnShow ⟨inp, vla mem.tweak 5, 0, 0, 0⟩ ((x - 0x4E00 : Nat) : Int) =
      some ⟨inp, duo4 (x - 0x4E00) ++ [0x30], 0, 0 + 4, 0 + 3⟩ := by
    intro inp
    rw [cnShow, duoEncode_eq _ hv]
    simp only [hw, Option.bind_some]
  rw [if_neg (List.cons_ne_nil _ _), hl _ _ _ _ _ (cnInt_text _ 0 x (utf8Text [y, z] ++ 0 :: rest) hx ht) (hsh _)]
  simp only [Option.bind_some]
  unfold wrByte
  rw [if_pos (by rw [length_vla]; simp), if_pos (by rw [h5]; simp)]
  simp only [Option.bind_some]
  rw [set_last _ _ _ 4 (length_duo4 _), fpeInit_twelve]
  simp only [Option.bind_some]
  have hin : (vla mem.input 9).set 8 0 = vla mem.input 8 ++ [0] := rfl
  have hdt : duo4 (x - 0x4E00) ++ [0] = duoText [x] ++ [0] := by simp [duoText]
  rw [hin, hdt]
  refine bind_congr' fun ans _ => ?_
  rw [if_neg (List.cons_ne_nil _ _), hm, cnCopy]
  simp only
  rw [rd3_drop (utf8Text [x, y, z] ++ 0 :: rest) 0 _ _ _ (utf8Text [y, z] ++ 0 :: rest) ht]
  simp only [Option.bind_some]
  have hw2 := wrBytes_prefix [] after (utf8Three x) (by show 3 ≤ _; exact ha)
  rw [List.nil_append, List.nil_append] at hw2
  rw [show wrBytes after 0 [BitVec.ofNat 8 (0xE0 + x / 4096), BitVec.ofNat 8 (0x80 + x / 64 % 64), BitVec.ofNat 8 (0x80 + x % 64)] = _ from hw2]
  simp only [Option.bind_some]
  rw [hout]

/-- An upper bound for the bits of a numeral string, which a machine can compute. -/
theorem lgOk_log2 : LgOk (fun r k => Nat.log2 (r ^ k) + 1) := fun _ _ _ => Nat.le_of_lt (Nat.lt_log2_self)

/-- C113: with a sample for fewer characters than the text has, the ciphertext depends on uninitialised memory: two
calls with the same arguments and different garbage on the stack give different results. -/
theorem C113_cn_junk : ∃ (app : FpeApp) (lg : Nat → Nat → Nat) (mem mem' : AppMem) (cps : List Nat)
    (items : List (Option (Byte × Byte × Byte))) (after o o' : List Byte), LgOk lg ∧ (∀ cp ∈ cps, InCnRange cp) ∧
    SampleOk items ∧ items.length < cps.length ∧ mem.slack = 1 ∧ mem'.slack = 1 ∧
    encryptCn app lg mem (utf8Text cps ++ [0]) (sampleOf items ++ [0]) after = some o ∧
    encryptCn app lg mem' (utf8Text cps ++ [0]) (sampleOf items ++ [0]) after = some o' ∧ o ≠ o' := by
  let app : FpeApp := ⟨id, .ff1⟩
  let lg := fun r k => Nat.log2 (r ^ k) + 1
  let mem : AppMem := ⟨fun _ => 0, fun _ => 0, fun _ => 0, 1⟩
  let mem' : AppMem := ⟨fun _ => 0, fun _ => 1, fun _ => 0, 1⟩
  have h : (encryptCn app lg mem (utf8Text [0x4E00, 0x4E01] ++ [0]) (sampleOf [none] ++ [0]) [0, 0, 0]).isSome = true ∧
      (encryptCn app lg mem' (utf8Text [0x4E00, 0x4E01] ++ [0]) (sampleOf [none] ++ [0]) [0, 0, 0]).isSome = true ∧
      encryptCn app lg mem (utf8Text [0x4E00, 0x4E01] ++ [0]) (sampleOf [none] ++ [0]) [0, 0, 0] ≠
      encryptCn app lg mem' (utf8Text [0x4E00, 0x4E01] ++ [0]) (sampleOf [none] ++ [0]) [0, 0, 0] := by
    decide +kernel
  obtain ⟨o, ho⟩ := Option.isSome_iff_exists.1 h.1
  obtain ⟨o', ho'⟩ := Option.isSome_iff_exists.1 h.2.1
  refine ⟨app, lg, mem, mem', [0x4E00, 0x4E01], [none], [0, 0, 0], o, o', lgOk_log2, ?_, ?_, by decide, rfl, rfl, ho, ho', ?_⟩
  · intro cp hcp
    unfold InCnRange
    rcases List.mem_cons.1 hcp with rfl | hcp
    · decide
    · rw [List.mem_singleton.1 hcp]; decide
  · intro a b c hm; simp at hm
  · rintro rfl
    exact h.2.2 (ho.trans ho'.symm)

/-- A text of three characters, the sample `*` and one visible character: the third character is not in the result. -/
example (E : Block → Block) (mem : AppMem) (h : 1 ≤ mem.slack) :=
  C113_cn_short ⟨E, .ff1⟩ _ lgOk_clog mem [0x4E00, 0x4E8C, 0x4E09] [none, some (0xE4, 0xB8, 0x80)] [] []
    (List.replicate 12 0) (by unfold InCnRange; decide) (by intro a b c hm; simp at hm; simp [hm]) (by decide) (by decide)
    (by decide) (fun hf => by cases hf) h (by decide)

example (E : Block → Block) (mem : AppMem) :=
  C113_cn_long ⟨E, .ff1⟩ (fun r k => Nat.clog 2 (r ^ k)) mem [0x4E00, 0x4E8C] [some (0xE4, 0xB8, 0x80), none] [none] [] []
    (List.replicate 12 0) (by unfold InCnRange; decide) (by intro a b c hm; simp at hm; simp [hm]) rfl (by decide)

example (E : Block → Block) (mem : AppMem) := C113_cn_ascii ⟨E, .ff1⟩ mem 0x4E00 0x4E8C 0x4E09 0x31 [] []
  (List.replicate 12 0) (by unfold InCnRange; decide) (by unfold InCnRange; decide) (by unfold InCnRange; decide)
  (by decide) (by decide) (by decide) (encFn ⟨E, .ff1⟩ fun r k => Nat.clog 2 (r ^ k))

end Verif.Props
