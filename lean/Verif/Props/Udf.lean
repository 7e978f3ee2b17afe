import Verif.Model.Udf
import Verif.Props.FpeAppInit
import Verif.Props.FpeCn

/-! Property C79: the MySQL functions. -/
set_option autoImplicit false

namespace Verif.Props
open Verif Spec Model

/-- The application context of the MySQL functions: SM4 under a key in the source, and FF1. -/
def udfApp : FpeApp := ⟨Spec.sm4Encrypt udfKey, .ff1⟩

theorem udf_app (imem : AppInitMem) : fpeAppInit imem udfKey.toList 16 "sm4" "ff1" = some udfApp := by
  have := (C67_app_cipher imem udfKey.toList 16 "ff1" udfKey (by decide) (by simp)).2.2.1
  rw [this]
  rfl

theorem strEq_self (l rest : List Byte) (h : ∀ c ∈ l, c ≠ 0) : strEq (l ++ 0 :: rest) (l ++ [0]) = some true := by
  induction l with
  | nil => simp [strEq]
  | cons a l ih =>
    have ha := h a List.mem_cons_self
    simp only [List.cons_append, strEq]
    rw [if_neg (by simp), if_neg ha, ih fun c hc => h c (List.mem_cons_of_mem _ hc)]

theorem buf_length (p ptr : List Byte) (n : Nat) (h1 : n ≤ p.length) (h2 : n < ptr.length) :
    (p.take n ++ 0 :: ptr.drop (n + 1)).length = ptr.length := by
  simp; omega

/-- How the sample argument is given: absent, or as long as the text. -/
def SampleArg (sample : Option UdfArg) (smp : List Byte) (len : Nat) : Prop :=
  (smp = [] ∧ sample = none) ∨ ∃ more, smp ≠ [] ∧ sample = some ⟨some (smp ++ 0 :: more), len⟩

theorem udfCall_sample (v8 : Bool) (imem : AppInitMem) (lg : Nat → Nat → Nat) (amem : AppMem) (resCap errCap : Nat)
    (ptr p m : List Byte) (len ml : Nat) (sample : Option UdfArg) (smp : List Byte) (hs : SampleArg sample smp len)
    (h1 : len ≤ p.length) (h2 : len < ptr.length) :
    ∃ more, udfCall v8 imem lg amem resCap errCap ptr ⟨some p, len⟩ ⟨some m, ml⟩ sample =
      udfModes udfApp lg amem resCap errCap p m (smp ++ 0 :: more) (p.take len ++ 0 :: ptr.drop (len + 1)) len := by
  rcases hs with ⟨rfl, rfl⟩ | ⟨more, -, rfl⟩
  · refine ⟨[], ?_⟩
    simp only [udfCall, Option.bind_some, udf_app, Bool.false_eq_true, if_false]
    rw [if_pos ⟨h1, h2⟩]
    rfl
  · refine ⟨more, ?_⟩
    simp only [udfCall, Option.bind_some, udf_app, ne_eq, not_true_eq_false, and_false, if_false, Bool.false_eq_true]
    rw [if_pos ⟨h1, h2⟩]

/-- C79: a phone number of eleven digits. The result has eleven bytes, keeps what the sample shows, and the decryption function under
the key of the source gives the number back. -/
theorem C79_phone (v8 : Bool) (imem : AppInitMem) (lg : Nat → Nat → Nat) (hlg : LgOk lg) (amem : AppMem) (resCap errCap ml : Nat)
    (ptr phone smp rest r : List Byte) (sample : Option UdfArg) (hsa : SampleArg sample smp 11) (hl : phone.length = 11)
    (hd : ∀ c ∈ phone, IsNumeral 10 c) (h0 : ∀ c ∈ smp, c ≠ 0) (hs : smp = [] ∨ smp.length = 11)
    (hk : 2 ≤ hiddenCount smp 11) (hsl : 1 ≤ amem.slack) (hptr : 12 ≤ ptr.length) (hres : 11 ≤ resCap) :
    ∃ o : List Byte, o.length = 11 ∧ (∀ i, ¬ Hidden smp i → o[i]? = phone[i]?) ∧
      (∀ i (hi : i < o.length), Hidden smp i → IsNumeral 10 o[i]) ∧
      udfCall v8 imem lg amem resCap errCap ptr ⟨some (phone ++ 0 :: rest), 11⟩ ⟨some (lit "phone" ++ r), ml⟩ sample =
        some (.value o) ∧
      ∀ (mem : AppMem) (rest more after : List Byte), 1 ≤ mem.slack → 11 ≤ after.length →
        decryptPhone udfApp lg mem (o ++ 0 :: rest) (smp ++ 0 :: more) after = some (phone ++ after.drop 11) := by
  have hp : ∀ c ∈ phone, c ≠ 0 := by
    rintro c hc rfl
    exact absurd (hd 0 hc) (by unfold IsNumeral; decide)
  have hs' : smp = [] ∨ phone.length ≤ smp.length := by rcases hs with h | h <;> [exact .inl h; exact .inr (by omega)]
  have hd' : ∀ i (hi : i < phone.length), Hidden smp i → IsNumeral 10 phone[i] := fun i hi _ => hd _ (List.getElem_mem hi)
  have hk' : HiddenOk udfApp.ffx smp phone.length := by rw [hl]; exact hk
  obtain ⟨o, ho, hv, hn, he⟩ := (C53_phone_mask udfApp lg hlg phone smp hp h0 hs' hd' hk').1
  obtain ⟨o', -, he', hdec⟩ := C54_phone_roundtrip udfApp lg hlg phone smp hp h0 hs' hd' hk'
  have hoo : o' = o := by
    have a := he amem [] [] phone hsl (Nat.le_refl _)
    have b := he' amem [] [] phone hsl (Nat.le_refl _)
    rw [a] at b
    simpa using (Option.some.inj b).symm
  subst hoo
  rw [hl] at ho hdec
  refine ⟨o', ho, hv, hn, ?_, hdec⟩
  obtain ⟨more, hcall⟩ := udfCall_sample v8 imem lg amem resCap errCap ptr (phone ++ 0 :: rest) (lit "phone" ++ r) 11 ml sample smp
    hsa (by simp; omega) (by omega)
  have hb := buf_length (phone ++ 0 :: rest) ptr 11 (by simp; omega) (by omega)
  have hm : strEq (lit "phone" ++ r) (lit "phone") = some true := by
    have := strEq_self (lit "phone").dropLast r (by decide)
    exact this
  rw [hcall]
  unfold udfModes
  rw [hm]
  simp only [Option.bind_some, if_true, ne_eq, not_true_eq_false, if_false]
  rw [he amem rest more _ hsl (by rw [hb]; omega), Option.bind_some, udfReturn, if_pos hres, List.take_left' (by omega)]

/-- C79: an identity card number of 18 characters, with or without the final `X`. -/
theorem C79_idcard (v8 : Bool) (imem : AppInitMem) (lg : Nat → Nat → Nat) (hlg : LgOk lg) (amem : AppMem) (resCap errCap ml : Nat)
    (ptr body tail smp rest r : List Byte) (sample : Option UdfArg) (hsa : SampleArg sample smp 18)
    (hform : CardForm body tail) (hl : (body ++ tail).length = 18)
    (hd : ∀ c ∈ body, IsNumeral 10 c) (h0 : ∀ c ∈ smp, c ≠ 0) (hs : smp = [] ∨ smp.length = 18)
    (hk : 2 ≤ hiddenCount smp body.length) (hsl : 1 ≤ amem.slack) (hptr : 19 ≤ ptr.length) (hres : 18 ≤ resCap) :
    ∃ o : List Byte, o.length = body.length ∧ (∀ i, ¬ Hidden smp i → o[i]? = body[i]?) ∧
      (∀ i (hi : i < o.length), Hidden smp i → IsNumeral 10 o[i]) ∧
      udfCall v8 imem lg amem resCap errCap ptr ⟨some (body ++ tail ++ 0 :: rest), 18⟩ ⟨some (lit "idcard" ++ r), ml⟩ sample =
        some (.value (o ++ tail)) ∧
      ∀ (mem : AppMem) (rest more after : List Byte), 1 ≤ mem.slack → 18 ≤ after.length →
        decryptIdcard udfApp lg mem (o ++ tail ++ 0 :: rest) (smp ++ 0 :: more) after = some (body ++ tail ++ after.drop 18) := by
  have hp : ∀ c ∈ body, c ≠ 0 := by
    rintro c hc rfl
    exact absurd (hd 0 hc) (by unfold IsNumeral; decide)
  have hlb : body.length ≤ 18 := by rw [List.length_append] at hl; omega
  have hs' : smp = [] ∨ body.length ≤ smp.length := by rcases hs with h | h <;> [exact .inl h; exact .inr (by omega)]
  obtain ⟨o, ho, hv, hn, he, hdec⟩ := C55_idcard udfApp lg hlg body tail smp hform hp h0 hs'
    (fun i hi _ => hd _ (List.getElem_mem hi)) hk
  rw [hl] at he hdec
  refine ⟨o, ho, hv, hn, ?_, hdec⟩
  obtain ⟨more, hcall⟩ := udfCall_sample v8 imem lg amem resCap errCap ptr (body ++ tail ++ 0 :: rest) (lit "idcard" ++ r) 18 ml
    sample smp hsa (by rw [List.length_append, hl]; simp) (by omega)
  have hb := buf_length (body ++ tail ++ 0 :: rest) ptr 18 (by rw [List.length_append, hl]; simp) (by omega)
  have hm1 : strEq (lit "idcard" ++ r) (lit "phone") = some false := rfl
  have hm : strEq (lit "idcard" ++ r) (lit "idcard") = some true := by
    have := strEq_self (lit "idcard").dropLast r (by decide)
    exact this
  have hot : (o ++ tail).length = 18 := by rw [← hl, List.length_append, List.length_append, ho]
  rw [hcall]
  unfold udfModes
  rw [hm1, hm]
  simp only [Option.bind_some, if_true, ne_eq, not_true_eq_false, if_false, Bool.false_eq_true]
  rw [he amem rest more _ hsl (by rw [hb]; omega), Option.bind_some, udfReturn, if_pos hres, List.take_left' hot]

/-- C79: names and addresses. -/
theorem C79_text (v8 : Bool) (imem : AppInitMem) (lg : Nat → Nat → Nat) (hlg : LgOk lg) (amem : AppMem) (resCap errCap ml : Nat)
    (ptr : List Byte) (cps : List Nat) (smp rest r : List Byte) (mask : List Bool) (sample : Option UdfArg) (mode : String)
    (hmode : mode = "name" ∨ mode = "address") (hsa : SampleArg sample smp (3 * cps.length))
    (hr : ∀ cp ∈ cps, InCnRange cp) (hm : CnSample smp mask cps.length) (hk : 1 ≤ mask.count false)
    (hsl : 1 ≤ amem.slack) (hptr : 3 * cps.length < ptr.length) (hres : 3 * cps.length ≤ resCap) :
    ∃ o : List Nat, o.length = cps.length ∧ (∀ cp ∈ o, InCnRange cp) ∧ (∀ i : Nat, mask[i]? = some true → o[i]? = cps[i]?) ∧
      udfCall v8 imem lg amem resCap errCap ptr ⟨some (utf8Text cps ++ 0 :: rest), 3 * cps.length⟩ ⟨some (lit mode ++ r), ml⟩
        sample = some (.value (utf8Text o)) ∧
      ∀ (mem : AppMem) (rest more after : List Byte), 1 ≤ mem.slack → 3 * cps.length ≤ after.length →
        decryptCn udfApp lg mem (utf8Text o ++ 0 :: rest) (smp ++ 0 :: more) after =
          some (utf8Text cps ++ after.drop (3 * cps.length)) := by
  obtain ⟨o, ho, hin, hv, he, hdec⟩ := C56_cn_roundtrip udfApp lg hlg cps smp mask hr hm hk
  have hlen : ∀ l : List Nat, (utf8Text l).length = 3 * l.length := by
    intro l
    induction l with
    | nil => rfl
    | cons a l ih => rw [utf8Text, List.flatMap_cons, ← utf8Text, List.length_append, ih]; simp [utf8Three]; omega
  refine ⟨o, ho, hin, hv, ?_, hdec⟩
  obtain ⟨more, hcall⟩ := udfCall_sample v8 imem lg amem resCap errCap ptr (utf8Text cps ++ 0 :: rest) (lit mode ++ r)
    (3 * cps.length) ml sample smp hsa (by rw [List.length_append, hlen]; omega) hptr
  have hb := buf_length (utf8Text cps ++ 0 :: rest) ptr (3 * cps.length) (by rw [List.length_append, hlen]; omega) hptr
  have hfin : (encryptCn udfApp lg amem (utf8Text cps ++ 0 :: rest) (smp ++ 0 :: more)
      ((utf8Text cps ++ 0 :: rest).take (3 * cps.length) ++ 0 :: ptr.drop (3 * cps.length + 1))).bind
      (udfReturn resCap (3 * cps.length)) = some (.value (utf8Text o)) := by
    rw [he amem rest more _ hsl (by rw [hb]; omega), Option.bind_some, udfReturn, if_pos hres,
      List.take_left' (by rw [hlen, ho])]
  rw [hcall]
  unfold udfModes
  rcases hmode with rfl | rfl
  · have h1 : strEq (lit "name" ++ r) (lit "phone") = some false := rfl
    have h2 : strEq (lit "name" ++ r) (lit "idcard") = some false := rfl
    have h3 : strEq (lit "name" ++ r) (lit "name") = some true := by
      have := strEq_self (lit "name").dropLast r (by decide)
      exact this
    rw [h1, h2, h3]
    simpa only [Option.bind_some, if_true, Bool.false_eq_true, if_false] using hfin
  · have h1 : strEq (lit "address" ++ r) (lit "phone") = some false := rfl
    have h2 : strEq (lit "address" ++ r) (lit "idcard") = some false := rfl
    have h3 : strEq (lit "address" ++ r) (lit "name") = some false := rfl
    have h4 : strEq (lit "address" ++ r) (lit "address") = some true := by
      have := strEq_self (lit "address").dropLast r (by decide)
      exact this
    rw [h1, h2, h3, h4]
    simpa only [Option.bind_some, if_true, Bool.false_eq_true, if_false] using hfin

/-- What `udfModes` can return. -/
theorem udfModes_cases (app : FpeApp) (lg : Nat → Nat → Nat) (amem : AppMem) (resCap errCap : Nat) (plain mode sample buf : List Byte)
    (len : Nat) (o : UdfOut) (h : udfModes app lg amem resCap errCap plain mode sample buf len = some o) :
    (o = .null ∧ 2 ≤ errCap) ∨ (len ≤ resCap ∧ ∃ b, o = .value b) := by
  have hfail : ∀ n, 0 < n → udfFail errCap n = some o → (o = .null ∧ 2 ≤ errCap) ∨ (len ≤ resCap ∧ ∃ b, o = .value b) := by
    intro n hn hf
    unfold udfFail at hf
    split at hf
    · cases hf; exact .inl ⟨rfl, by omega⟩
    · cases hf
  have hret : ∀ x : Option (List Byte), x.bind (udfReturn resCap len) = some o →
      (o = .null ∧ 2 ≤ errCap) ∨ (len ≤ resCap ∧ ∃ b, o = .value b) := by
    intro x hx
    obtain ⟨b, -, hb⟩ := Option.bind_eq_some_iff.1 hx
    unfold udfReturn at hb
    split at hb
    · cases hb; exact .inr ⟨by assumption, _, rfl⟩
    · cases hb
  unfold udfModes at h
  obtain ⟨b1, -, h⟩ := Option.bind_eq_some_iff.1 h
  cases b1
  · simp only [Bool.false_eq_true, if_false] at h
    obtain ⟨b2, -, h⟩ := Option.bind_eq_some_iff.1 h
    cases b2
    · simp only [Bool.false_eq_true, if_false] at h
      obtain ⟨b3, -, h⟩ := Option.bind_eq_some_iff.1 h
      obtain ⟨b4, -, h⟩ := Option.bind_eq_some_iff.1 h
      cases b4
      · exact hfail _ (by decide) h
      · exact hret _ h
    · simp only [if_true] at h
      split at h
      · exact hfail _ (by decide) h
      · exact hret _ h
  · simp only [if_true] at h
    split at h
    · exact hfail _ (by decide) h
    · exact hret _ h

theorem udfCall_cases (v8 : Bool) (imem : AppInitMem) (lg : Nat → Nat → Nat) (amem : AppMem) (resCap errCap : Nat) (ptr : List Byte)
    (plain mode : UdfArg) (sample : Option UdfArg) (o : UdfOut)
    (h : udfCall v8 imem lg amem resCap errCap ptr plain mode sample = some o) :
    (o = .null ∧ 2 ≤ errCap) ∨ (plain.len ≤ resCap ∧ ∃ b, o = .value b) := by
  unfold udfCall at h
  obtain ⟨m, -, h⟩ := Option.bind_eq_some_iff.1 h
  obtain ⟨p, -, h⟩ := Option.bind_eq_some_iff.1 h
  obtain ⟨smp, -, h⟩ := Option.bind_eq_some_iff.1 h
  obtain ⟨bad, -, h⟩ := Option.bind_eq_some_iff.1 h
  cases bad
  · simp only [Bool.false_eq_true, if_false] at h
    split at h
    · rw [udf_app, Option.bind_some] at h
      exact udfModes_cases _ _ _ _ _ _ _ _ _ _ _ h
    · cases h
  · simp only [if_true] at h
    unfold udfSampleFail at h
    obtain ⟨_, -, h⟩ := Option.bind_eq_some_iff.1 h
    obtain ⟨_, -, h⟩ := Option.bind_eq_some_iff.1 h
    simp only at h
    split at h
    · unfold udfFail at h
      split at h
      · cases h
        have : 0 < "sample should be as long as plain, plain: ".length := by decide
        exact .inl ⟨rfl, by omega⟩
      · cases h
    · cases h

/-- C79: MySQL gives one byte for the error flag. Then no call reports an error: every refused call writes past it. -/
theorem C79_errors_undefined (v8 : Bool) (imem : AppInitMem) (lg : Nat → Nat → Nat) (amem : AppMem) (resCap : Nat) (ptr : List Byte)
    (plain mode : UdfArg) (sample : Option UdfArg) :
    udfCall v8 imem lg amem resCap 1 ptr plain mode sample ≠ some .null := by
  intro h
  rcases udfCall_cases _ _ _ _ _ _ _ _ _ _ _ h with ⟨-, h⟩ | ⟨-, _, h⟩
  · omega
  · cases h

/-- C79: MySQL gives 255 bytes for the result. For longer texts the call is undefined, whatever the mode. -/
theorem C79_long_undefined (v8 : Bool) (imem : AppInitMem) (lg : Nat → Nat → Nat) (amem : AppMem) (ptr : List Byte)
    (plain mode : UdfArg) (sample : Option UdfArg) (hl : 255 < plain.len) :
    udfCall v8 imem lg amem 255 1 ptr plain mode sample = none := by
  cases h : udfCall v8 imem lg amem 255 1 ptr plain mode sample with
  | none => rfl
  | some o =>
    rcases udfCall_cases _ _ _ _ _ _ _ _ _ _ _ h with ⟨-, h⟩ | ⟨h, -⟩ <;> omega

/-- C79: MySQL does not terminate strings. If a further digit follows the eleven of a phone number, the result is a part of the
encryption of a longer number. -/
theorem C79_unterminated (v8 : Bool) (imem : AppInitMem) (lg : Nat → Nat → Nat) (hlg : LgOk lg) (amem : AppMem) (resCap errCap ml : Nat)
    (ptr phone rest r : List Byte) (d : Byte) (hl : phone.length = 11) (hd : ∀ c ∈ phone ++ [d], IsNumeral 10 c)
    (hsl : 1 ≤ amem.slack) (hptr : ptr.length = 12) (hres : 11 ≤ resCap) :
    ∃ o : List Byte, o.length = 12 ∧
      udfCall v8 imem lg amem resCap errCap ptr ⟨some (phone ++ d :: 0 :: rest), 11⟩ ⟨some (lit "phone" ++ r), ml⟩ none =
        some (.value (o.take 11)) ∧
      ∀ (mem : AppMem) (rest more after : List Byte), 1 ≤ mem.slack → 12 ≤ after.length →
        decryptPhone udfApp lg mem (o ++ 0 :: rest) (0 :: more) after = some (phone ++ [d] ++ after.drop 12) := by
  have hp : ∀ c ∈ phone ++ [d], c ≠ 0 := by
    rintro c hc rfl
    exact absurd (hd 0 hc) (by unfold IsNumeral; decide)
  have hl12 : (phone ++ [d]).length = 12 := by simp [hl]
  have hd' : ∀ i (hi : i < (phone ++ [d]).length), Hidden [] i → IsNumeral 10 (phone ++ [d])[i] :=
    fun i hi _ => hd _ (List.getElem_mem hi)
  have hk' : HiddenOk udfApp.ffx [] (phone ++ [d]).length := by rw [hl12]; show 2 ≤ hiddenCount [] 12; decide
  obtain ⟨o, ho, -, -, he⟩ := (C53_phone_mask udfApp lg hlg (phone ++ [d]) [] hp (by simp) (.inl rfl) hd' hk').1
  obtain ⟨o', -, he', hdec⟩ := C54_phone_roundtrip udfApp lg hlg (phone ++ [d]) [] hp (by simp) (.inl rfl) hd' hk'
  have hoo : o' = o := by
    have a := he amem [] [] (phone ++ [d]) hsl (Nat.le_refl _)
    have b := he' amem [] [] (phone ++ [d]) hsl (Nat.le_refl _)
    rw [a] at b
    simpa using (Option.some.inj b).symm
  subst hoo
  rw [hl12] at ho hdec
  refine ⟨o', ho, ?_, hdec⟩
  have hcat : phone ++ d :: 0 :: rest = phone ++ [d] ++ 0 :: rest := by simp
  obtain ⟨more, hcall⟩ := udfCall_sample v8 imem lg amem resCap errCap ptr (phone ++ d :: 0 :: rest) (lit "phone" ++ r) 11 ml none []
    (.inl ⟨rfl, rfl⟩) (by simp; omega) (by omega)
  have hb := buf_length (phone ++ d :: 0 :: rest) ptr 11 (by simp; omega) (by omega)
  have hm : strEq (lit "phone" ++ r) (lit "phone") = some true := by
    have := strEq_self (lit "phone").dropLast r (by decide)
    exact this
  rw [hcall]
  unfold udfModes
  rw [hm]
  simp only [Option.bind_some, if_true, ne_eq, not_true_eq_false, if_false]
  revert hb
  generalize (phone ++ d :: 0 :: rest).take 11 ++ 0 :: ptr.drop (11 + 1) = buf
  intro hb
  rw [hcat, he amem rest more buf hsl (by rw [hl12]; omega), Option.bind_some, udfReturn, if_pos hres,
    List.take_append_of_le_length (by omega)]

/-- C79: `fpe_init` accepts exactly two or three string arguments, and then allocates one byte more than the length of the
first. -/
theorem C79_init (types : List Bool) (len0 n : Nat) :
    udfInit types len0 = some n ↔ (types = [true, true] ∨ types = [true, true, true]) ∧ n = len0 + 1 := by
  unfold udfInit
  match types with
  | [] => simp
  | [a] => simp
  | [a, b] => cases a <;> cases b <;> simp [eq_comm]
  | [a, b, c] => cases a <;> cases b <;> cases c <;> simp [eq_comm]
  | a :: b :: c :: d :: l => simp

theorem udfCall_value (v8 : Bool) (imem : AppInitMem) (lg : Nat → Nat → Nat) (amem : AppMem) (resCap errCap : Nat) (ptr : List Byte)
    (plain mode : UdfArg) (sample : Option UdfArg) (b : List Byte)
    (h : udfCall v8 imem lg amem resCap errCap ptr plain mode sample = some (.value b)) : plain.len < ptr.length := by
  unfold udfCall at h
  obtain ⟨m, -, h⟩ := Option.bind_eq_some_iff.1 h
  obtain ⟨p, -, h⟩ := Option.bind_eq_some_iff.1 h
  obtain ⟨smp, -, h⟩ := Option.bind_eq_some_iff.1 h
  obtain ⟨bad, -, h⟩ := Option.bind_eq_some_iff.1 h
  cases bad
  · simp only [Bool.false_eq_true, if_false] at h
    split at h
    · rename_i hl; exact hl.2
    · cases h
  · simp only [if_true] at h
    unfold udfSampleFail at h
    obtain ⟨_, -, h⟩ := Option.bind_eq_some_iff.1 h
    obtain ⟨_, -, h⟩ := Option.bind_eq_some_iff.1 h
    simp only at h
    split at h
    · unfold udfFail at h
      split at h <;> cases h
    · cases h

/-- C79: the buffer is made once, for the length known at the start of the query. A row that is longer than that is
undefined, whatever the other arguments. -/
theorem C79_longer_row (types : List Bool) (len0 n : Nat) (hi : udfInit types len0 = some n) (ptr : List Byte) (hp : ptr.length = n)
    (v8 : Bool) (imem : AppInitMem) (lg : Nat → Nat → Nat) (amem : AppMem) (resCap : Nat) (plain mode : UdfArg)
    (sample : Option UdfArg) (hl : len0 < plain.len) :
    udfCall v8 imem lg amem resCap 1 ptr plain mode sample = none := by
  have hn := ((C79_init types len0 n).1 hi).2
  cases h : udfCall v8 imem lg amem resCap 1 ptr plain mode sample with
  | none => rfl
  | some o =>
    cases o with
    | null => exact absurd h (C79_errors_undefined _ _ _ _ _ _ _ _ _)
    | value b =>
      have := udfCall_value _ _ _ _ _ _ _ _ _ _ _ h
      omega

/-- C79: with the buffer of `fpe_init` for eleven characters the phone numbers of a column are encrypted. -/
theorem C79_row_fits (types : List Bool) (len0 n : Nat) (hi : udfInit types len0 = some n) (ptr : List Byte) (hp : ptr.length = n)
    (h11 : 11 ≤ len0) (v8 : Bool) (imem : AppInitMem) (lg : Nat → Nat → Nat) (hlg : LgOk lg) (amem : AppMem) (errCap ml : Nat)
    (phone smp rest r : List Byte) (sample : Option UdfArg) (hsa : SampleArg sample smp 11) (hl : phone.length = 11)
    (hd : ∀ c ∈ phone, IsNumeral 10 c) (h0 : ∀ c ∈ smp, c ≠ 0) (hs : smp = [] ∨ smp.length = 11)
    (hk : 2 ≤ hiddenCount smp 11) (hsl : 1 ≤ amem.slack) :
    ∃ o : List Byte, o.length = 11 ∧
      udfCall v8 imem lg amem 255 errCap ptr ⟨some (phone ++ 0 :: rest), 11⟩ ⟨some (lit "phone" ++ r), ml⟩ sample =
        some (.value o) := by
  have hn := ((C79_init types len0 n).1 hi).2
  obtain ⟨o, h1, -, -, h2, -⟩ := C79_phone v8 imem lg hlg amem 255 errCap ml ptr phone smp rest r sample hsa hl hd h0 hs hk hsl
    (by omega) (by decide)
  exact ⟨o, h1, h2⟩

/-- C79: the length of the sample. `mysql5.cpp` does not look at it; `mysql8.cpp` does so for every mode but `address`: for
`phone`, `idcard` and `name` a sample of another length than the text gives no value. -/
theorem C79_sample_length (imem : AppInitMem) (lg : Nat → Nat → Nat) (amem : AppMem) (resCap errCap : Nat) (ptr : List Byte)
    (plain : UdfArg) (smp : Option (List Byte)) (l : Nat) :
    (∀ mode l', udfCall false imem lg amem resCap errCap ptr plain mode (some ⟨smp, l⟩) =
      udfCall false imem lg amem resCap errCap ptr plain mode (some ⟨smp, l'⟩)) ∧
    (∀ r ml l', udfCall true imem lg amem resCap errCap ptr plain ⟨some (lit "address" ++ r), ml⟩ (some ⟨smp, l⟩) =
      udfCall true imem lg amem resCap errCap ptr plain ⟨some (lit "address" ++ r), ml⟩ (some ⟨smp, l'⟩)) ∧
    (l ≠ plain.len → ∀ mode ∈ ["phone", "idcard", "name"], ∀ r ml b,
      udfCall true imem lg amem resCap errCap ptr plain ⟨some (lit mode ++ r), ml⟩ (some ⟨smp, l⟩) ≠ some (.value b)) := by
  refine ⟨fun mode l' => ?_, fun r ml l' => ?_, fun hne mode hm r ml b h => ?_⟩
  · simp only [udfCall, Bool.false_eq_true, false_and, if_false]
  · have h4 : strEq (lit "address" ++ r) (lit "address") = some true := by
      have := strEq_self (lit "address").dropLast r (by decide)
      exact this
    simp only [udfCall, Option.bind_some, h4, Option.map_some, Bool.not_true, ite_self]
  · have h4 : strEq (lit mode ++ r) (lit "address") = some false := by
      simp only [List.mem_cons, List.not_mem_nil, or_false] at hm
      rcases hm with rfl | rfl | rfl <;> rfl
    unfold udfCall at h
    simp only [Option.bind_some, h4, Option.map_some, Bool.not_false] at h
    rw [if_pos ⟨trivial, fun e => hne e.symm⟩] at h
    obtain ⟨p, -, h⟩ := Option.bind_eq_some_iff.1 h
    obtain ⟨s, -, h⟩ := Option.bind_eq_some_iff.1 h
    simp only [Option.bind_some, if_true] at h
    unfold udfSampleFail at h
    obtain ⟨_, -, h⟩ := Option.bind_eq_some_iff.1 h
    obtain ⟨_, -, h⟩ := Option.bind_eq_some_iff.1 h
    simp only at h
    split at h
    · unfold udfFail at h
      split at h <;> cases h
    · cases h

/- The hypotheses of `C79_phone` are met by a number and a sample that hides four digits. -/
example : ∃ phone smp : List Byte, phone.length = 11 ∧ (∀ c ∈ phone, IsNumeral 10 c) ∧ (∀ c ∈ smp, c ≠ 0) ∧ smp.length = 11 ∧
    2 ≤ hiddenCount smp 11 :=
  ⟨[0x31, 0x33, 0x38, 0x30, 0x31, 0x32, 0x33, 0x34, 0x35, 0x36, 0x37],
   [0x31, 0x33, 0x38, 0x2a, 0x2a, 0x2a, 0x2a, 0x34, 0x35, 0x36, 0x37], rfl, by unfold IsNumeral; decide, by decide, rfl, by decide⟩

example : udfInit [true, true] 11 = some 12 ∧ udfInit [true, false] 11 = none ∧ udfInit [true] 11 = none := by decide

end Verif.Props
