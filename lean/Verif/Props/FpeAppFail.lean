import Verif.Model.FpeAppFail
import Verif.Props.FpeFail
import Verif.Props.FpeApp
import Verif.Props.FpeCn
import Verif.Props.FpeAppNist

/-! Property C140: the FPE applications with a block cipher that reports failure. -/
set_option autoImplicit false

namespace Verif.Props
open Verif Spec Model

/-- C140: with a cipher that never fails the functions are those of the other properties, whatever the stack held. -/
theorem C140_works (app : FpeApp) (lg : Nat → Nat → Nat) (w : Faults) (hw : ∀ k x old, w k x old = none) (ss : Nat → Block)
    (R0 : Block) (mem : AppMem) (text sample after : List Byte) :
    (encryptPhoneF app lg w ss R0 mem text sample after = encryptPhone app lg mem text sample after ∧
      decryptPhoneF app lg w ss mem text sample after = decryptPhone app lg mem text sample after) ∧
    (encryptIdcardF app lg w ss R0 mem text sample after = encryptIdcard app lg mem text sample after ∧
      decryptIdcardF app lg w ss mem text sample after = decryptIdcard app lg mem text sample after) ∧
    (encryptCnF app lg w ss R0 mem text sample after = encryptCn app lg mem text sample after ∧
      decryptCnF app lg w ss mem text sample after = decryptCn app lg mem text sample after) := by
  have he : encFnF app lg w ss R0 = encFn app lg := by
    funext ctx input output
    obtain ⟨h1, _, h3, _⟩ := C135_works ctx lg w hw ss R0 input output
    unfold encFnF encFn
    cases app.ffx
    · simp only [h1, Option.map_map]; exact Option.map_id'
    · simp only [h3, Option.map_map]; exact Option.map_id'
  have hd : decFnF app lg w ss = decFn app lg := by
    funext ctx input output
    obtain ⟨_, h2, _, h4⟩ := C135_works ctx lg w hw ss R0 input output
    unfold decFnF decFn
    cases app.ffx
    · simp only [h2, Option.map_map]; exact Option.map_id'
    · simp only [h4, Option.map_map]; exact Option.map_id'
  unfold encryptPhoneF decryptPhoneF encryptIdcardF decryptIdcardF encryptCnF decryptCnF
  rw [he, hd]
  exact ⟨⟨rfl, rfl⟩, ⟨rfl, rfl⟩, rfl, rfl⟩

/-! ### a cipher that always fails and leaves its buffer alone -/

/-- FF1 uses the key stream block `SS` for long halves only: it is zero, or the halves are short. FF3 has no such block. -/
def StackOk (f : Ffx) (lg : Nat → Nat → Nat) (radix n : Nat) (ss : Nat → Block) : Prop :=
  match f with
  | .ff1 => (∀ i, ss i = zeroBlock) ∨ lg radix (n - n / 2) ≤ 96
  | .ff3 => True

theorem fpeInit_small (E : Block → Block) (radix : Nat) (hr : 2 ≤ radix) (hr' : radix ≤ 36) (t : List Byte) :
    fpeInit t radix E = some ⟨E, radix, t⟩ := by
  unfold fpeInit
  rw [if_neg (by omega)]

theorem dead_dec (app : FpeApp) (lg : Nat → Nat → Nat) (hlg : LgOk lg) (w : Faults) (hw : ∀ k x old, w k x old = some old)
    (ss : Nat → Block) (radix : Nat) (hr : 2 ≤ radix) (hr' : radix ≤ 36) (E : Block → Block) (tweak s : List Byte)
    (hk : EngineOk app.ffx tweak.length s.length) (hs : ∀ c ∈ s, IsNumeral radix c) (hz : StackOk app.ffx lg radix s.length ss)
    (rest out : List Byte) (ho : s.length < out.length) :
    decFnF app lg w ss ⟨E, radix, tweak⟩ (s ++ 0 :: rest) out = some (s ++ 0 :: out.drop (s.length + 1)) := by
  have hc := fpeInit_small E radix hr hr' tweak
  unfold EngineOk at hk
  unfold StackOk at hz
  unfold decFnF
  revert hk hz
  cases app.ffx
  · intro hk hz
    simp only
    rw [C135_ff1_decrypt _ tweak radix E hc lg hlg w hw ss s rest out hs hk.1
      (Or.inl (fun h => by rw [h] at hk; simp at hk)) ho hz]
    rfl
  · intro hk _
    simp only
    rw [C135_ff3_decrypt _ tweak radix E hc hk.2 lg hlg w hw s rest out hs hk.1 ho]
    rfl

/-- What the engines make of a text if the cipher does nothing: the halves with numbers added that come from the stack. -/
def deadText (f : Ffx) (lg : Nat → Nat → Nat) (radix : Nat) (ss : Nat → Block) (R0 : Block) (s : List Byte) : List Byte :=
  let n := s.length
  let u := n / 2
  let v := (n + 1) / 2
  let X := s.map numeralVal
  match f with
  | .ff1 =>
    (strRadix radix u ((numRadix radix (X.take u) + ((List.range 5).map fun j => deadY lg radix n R0 (ss (2 * j))).sum) % radix ^ u) ++
      strRadix radix (n - u) ((numRadix radix (X.drop u) + ((List.range 5).map fun j => deadY lg radix n R0 (ss (2 * j + 1))).sum) %
        radix ^ (n - u))).map numeralChar
  | .ff3 =>
    ((strRadix radix v ((numRadix radix (X.take v).reverse + 4 * numBytes R0.toList.reverse) % radix ^ v)).reverse ++
      (strRadix radix (n - v) ((numRadix radix (X.drop v).reverse + 4 * numBytes R0.toList) % radix ^ (n - v))).reverse).map numeralChar

theorem deadText_length (f : Ffx) (lg : Nat → Nat → Nat) (radix : Nat) (ss : Nat → Block) (R0 : Block) (s : List Byte) :
    (deadText f lg radix ss R0 s).length = s.length := by
  unfold deadText
  cases f <;> simp only [List.length_map, List.length_append, List.length_reverse, length_strRadix] <;> omega

theorem deadText_numeral (f : Ffx) (lg : Nat → Nat → Nat) (radix : Nat) (hr : 2 ≤ radix) (hr' : radix ≤ 36) (ss : Nat → Block)
    (R0 : Block) (s : List Byte) : ∀ c ∈ deadText f lg radix ss R0 s, IsNumeral radix c := by
  intro c hc
  unfold deadText at hc
  cases f <;>
    · simp only at hc
      obtain ⟨d, hd, rfl⟩ := List.mem_map.mp hc
      refine numeralChar_isNumeral radix d hr' ?_
      rcases List.mem_append.mp hd with h | h <;>
        exact strRadix_lt _ _ _ (by omega) d (by first | exact h | exact List.mem_reverse.mp h)

theorem dead_enc (app : FpeApp) (lg : Nat → Nat → Nat) (hlg : LgOk lg) (w : Faults) (hw : ∀ k x old, w k x old = some old)
    (ss : Nat → Block) (R0 : Block) (radix : Nat) (hr : 2 ≤ radix) (hr' : radix ≤ 36) (E : Block → Block) (tweak s : List Byte)
    (hk : EngineOk app.ffx tweak.length s.length) (hs : ∀ c ∈ s, IsNumeral radix c) (rest out : List Byte) (ho : s.length < out.length) :
    encFnF app lg w ss R0 ⟨E, radix, tweak⟩ (s ++ 0 :: rest) out =
      some (deadText app.ffx lg radix ss R0 s ++ 0 :: out.drop (s.length + 1)) := by
  have hc := fpeInit_small E radix hr hr' tweak
  unfold EngineOk at hk
  unfold encFnF
  revert hk
  cases app.ffx
  · intro hk
    simp only
    rw [C135_ff1_encrypt _ tweak radix E hc lg hlg w hw ss R0 s rest out hs hk.1
      (Or.inl (fun h => by rw [h] at hk; simp at hk)) ho]
    rfl
  · intro hk
    simp only
    rw [C135_ff3_encrypt _ tweak radix E hc hk.2 lg hlg w hw R0 s rest out hs hk.1 ho]
    rfl

/-- With a zero stack nothing is added. -/
theorem deadText_zero (f : Ffx) (lg : Nat → Nat → Nat) (hlg : LgOk lg) (radix : Nat) (hr : 2 ≤ radix) (hr' : radix ≤ 36) (ss : Nat → Block)
    (s : List Byte) (hn : 2 ≤ s.length ∨ (f = .ff3 ∧ 1 ≤ s.length)) (hs : ∀ c ∈ s, IsNumeral radix c) (hz : StackOk f lg radix s.length ss) :
    deadText f lg radix ss zeroBlock s = s := by
  have hc := fpeInit_small id radix hr hr' (List.replicate 8 0)
  have hlen : s.length < (List.replicate (s.length + 1) (0 : Byte)).length := by simp
  have out : ∀ a b : List Byte, some (1, a ++ 0 :: (List.replicate (s.length + 1) (0 : Byte)).drop (s.length + 1)) =
      (some (1, b ++ 0 :: (List.replicate (s.length + 1) (0 : Byte)).drop (s.length + 1)) : Option (Nat × List Byte)) → a = b := by
    intro a b h
    exact List.append_cancel_right (Prod.mk.inj (Option.some.inj h)).2
  have hD := deadText_numeral f lg radix hr hr' ss zeroBlock s
  have hL := deadText_length f lg radix ss zeroBlock s
  unfold StackOk at hz
  cases f
  · have hn2 : 2 ≤ s.length := hn.elim id (fun h => by cases h.1)
    have hq : QOk lg (List.replicate 8 0) radix s.length := Or.inl (by simp)
    exact out _ _ ((C135_ff1_encrypt _ _ radix id hc lg hlg (fun _ _ old => some old) (fun _ _ _ => rfl) ss zeroBlock s [] _ hs hn2 hq hlen).symm.trans
      (C135_ff1_plain _ _ radix id hc lg hlg (fun _ _ old => some old) (fun _ _ _ => rfl) ss s [] _ hs hn2 hq hlen hz))
  · have hn1 : 1 ≤ s.length := by rcases hn with h | h <;> omega
    have h8 : 8 ≤ (List.replicate 8 (0 : Byte)).length := by simp
    obtain ⟨ct, p, e1, e2, e3⟩ := C135_ff3_both _ _ radix id hc h8 lg hlg (fun _ _ old => some old) (fun _ _ _ => rfl) zeroBlock s [] []
      _ _ hs hn1 hlen hlen
    have hct : deadText .ff3 lg radix ss zeroBlock s = ct := out _ _
      ((C135_ff3_encrypt _ _ radix id hc h8 lg hlg (fun _ _ old => some old) (fun _ _ _ => rfl) zeroBlock s [] _ hs hn1 hlen).symm.trans e1)
    rw [← hct] at e2
    have e4 := C135_ff3_decrypt _ _ radix id hc h8 lg hlg (fun _ _ old => some old) (fun _ _ _ => rfl) (deadText .ff3 lg radix ss zeroBlock s) []
      (List.replicate (s.length + 1) 0) hD (by omega) (by rw [hL]; exact hlen)
    rw [hL] at e4
    have hp : deadText .ff3 lg radix ss zeroBlock s = p := out _ _ (e4.symm.trans e2)
    have hzero : numBytes (zeroBlock : Block).toList = 0 := numBytes_zeros 16
    have hzero' : numBytes (zeroBlock : Block).toList.reverse = 0 := numBytes_zeros 16
    rw [hp]
    exact e3.mpr ⟨by rw [hzero']; exact Nat.dvd_zero _, by rw [hzero]; exact Nat.dvd_zero _⟩

theorem fill_same {α : Type} : ∀ (ms : List Bool) (xs : List α), ms.length = xs.length → fill ms xs (pick false ms xs) = xs := by
  intro ms
  induction ms with
  | nil => intro xs h; cases xs with
    | nil => rfl
    | cons => simp at h
  | cons m ms ih =>
    intro xs h
    cases xs with
    | nil => simp at h
    | cons x xs => cases m <;> simp [fill, pick, ih xs (by simpa using h)]

/-! ### phone numbers -/

/-- The hidden characters of a text, in order. -/
def hiddenPart (smp text : List Byte) : List Byte := pick false (maskOf smp text.length) text

/-- The text with other hidden characters. -/
def withHidden (smp text r : List Byte) : List Byte := fill (maskOf smp text.length) text r

/-- C140: with a cipher that always fails and leaves its buffer alone, phone number encryption still returns 1 and writes the visible
characters and the hidden ones with numbers from the stack added: neither cipher nor key nor visible characters matter. -/
theorem C140_phone_encrypt (app : FpeApp) (lg : Nat → Nat → Nat) (hlg : LgOk lg) (w : Faults) (hw : ∀ k x old, w k x old = some old)
    (ss : Nat → Block) (R0 : Block) (phone smp : List Byte)
    (hp : ∀ c ∈ phone, c ≠ 0) (h0 : ∀ c ∈ smp, c ≠ 0) (hs : smp = [] ∨ phone.length ≤ smp.length)
    (hd : ∀ i (hi : i < phone.length), Hidden smp i → IsNumeral 10 phone[i]) (hk : HiddenOk app.ffx smp phone.length)
    (mem : AppMem) (rest more after : List Byte) (hm : 1 ≤ mem.slack) (ha : phone.length ≤ after.length) :
    encryptPhoneF app lg w ss R0 mem (phone ++ 0 :: rest) (smp ++ 0 :: more) after =
      some (withHidden smp phone (deadText app.ffx lg 10 ss R0 (hiddenPart smp phone)) ++ after.drop phone.length) := by
  have hl := maskOf_length smp phone.length hs
  have hcf := length_pick false _ phone hl
  refine auxPhone_some app mem phone rest smp more after hp h0 hs ha _ _ _ ?_
    (dead_enc app lg hlg w hw ss R0 10 (by decide) (by decide) app.E _ _ (engineOk_of app.ffx _ phone hl (maskOk_of _ _ _ hs hk))
      (pick_hidden smp phone hs _ hd) [] _ (by rw [length_vla, hcf]; omega))
  rw [deadText_length]
  exact hcf

/-- C140: with a zero stack the encrypted number is the number. -/
theorem C140_phone_plain (app : FpeApp) (lg : Nat → Nat → Nat) (hlg : LgOk lg) (w : Faults) (hw : ∀ k x old, w k x old = some old)
    (ss : Nat → Block) (phone smp : List Byte)
    (hp : ∀ c ∈ phone, c ≠ 0) (h0 : ∀ c ∈ smp, c ≠ 0) (hs : smp = [] ∨ phone.length ≤ smp.length)
    (hd : ∀ i (hi : i < phone.length), Hidden smp i → IsNumeral 10 phone[i]) (hk : HiddenOk app.ffx smp phone.length)
    (hz : StackOk app.ffx lg 10 (hiddenCount smp phone.length) ss)
    (mem : AppMem) (rest more after : List Byte) (hm : 1 ≤ mem.slack) (ha : phone.length ≤ after.length) :
    encryptPhoneF app lg w ss zeroBlock mem (phone ++ 0 :: rest) (smp ++ 0 :: more) after = some (phone ++ after.drop phone.length) := by
  have hl := maskOf_length smp phone.length hs
  have hcf := length_pick false _ phone hl
  rw [C140_phone_encrypt app lg hlg w hw ss zeroBlock phone smp hp h0 hs hd hk mem rest more after hm ha]
  have hln : (hiddenPart smp phone).length = hiddenCount smp phone.length := hcf.trans (maskOf_count _ _)
  rw [deadText_zero app.ffx lg hlg 10 (by decide) (by decide) ss (hiddenPart smp phone)
    (by rw [hln]; revert hk; unfold HiddenOk; cases app.ffx
        · intro h; exact Or.inl h
        · intro h; exact Or.inr ⟨rfl, h.1⟩)
    (pick_hidden smp phone hs _ hd) (by rw [hln]; exact hz)]
  rw [withHidden, hiddenPart, fill_same _ _ hl]

/-- C140: decryption with such a cipher returns 1 and writes what it was given, whatever the stack held. -/
theorem C140_phone_decrypt (app : FpeApp) (lg : Nat → Nat → Nat) (hlg : LgOk lg) (w : Faults) (hw : ∀ k x old, w k x old = some old)
    (ss : Nat → Block) (phone smp : List Byte)
    (hp : ∀ c ∈ phone, c ≠ 0) (h0 : ∀ c ∈ smp, c ≠ 0) (hs : smp = [] ∨ phone.length ≤ smp.length)
    (hd : ∀ i (hi : i < phone.length), Hidden smp i → IsNumeral 10 phone[i]) (hk : HiddenOk app.ffx smp phone.length)
    (hz : StackOk app.ffx lg 10 (hiddenCount smp phone.length) ss)
    (mem : AppMem) (rest more after : List Byte) (hm : 1 ≤ mem.slack) (ha : phone.length ≤ after.length) :
    decryptPhoneF app lg w ss mem (phone ++ 0 :: rest) (smp ++ 0 :: more) after = some (phone ++ after.drop phone.length) := by
  have hl := maskOf_length smp phone.length hs
  have hcf := length_pick false _ phone hl
  have := auxPhone_some app mem phone rest smp more after hp h0 hs ha _ _ _ hcf
    (dead_dec app lg hlg w hw ss 10 (by decide) (by decide) app.E _ _ (engineOk_of app.ffx _ phone hl (maskOk_of _ _ _ hs hk))
      (pick_hidden smp phone hs _ hd) (by rw [hcf, maskOf_count]; exact hz) [] _ (by rw [length_vla, hcf]; omega))
  rw [fill_same _ _ hl] at this
  exact this

/-! ### identity cards -/

/-- C140: the same for identity cards, a final `X` being kept. -/
theorem C140_idcard_encrypt (app : FpeApp) (lg : Nat → Nat → Nat) (hlg : LgOk lg) (w : Faults) (hw : ∀ k x old, w k x old = some old)
    (ss : Nat → Block) (R0 : Block) (body tail smp : List Byte) (hform : CardForm body tail)
    (hp : ∀ c ∈ body, c ≠ 0) (h0 : ∀ c ∈ smp, c ≠ 0) (hs : smp = [] ∨ body.length ≤ smp.length)
    (hd : ∀ i (hi : i < body.length), Hidden smp i → IsNumeral 10 body[i]) (hk : HiddenOk app.ffx smp body.length)
    (mem : AppMem) (rest more after : List Byte) (hm : 1 ≤ mem.slack) (ha : (body ++ tail).length ≤ after.length) :
    encryptIdcardF app lg w ss R0 mem (body ++ tail ++ 0 :: rest) (smp ++ 0 :: more) after =
      some (withHidden smp body (deadText app.ffx lg 10 ss R0 (hiddenPart smp body)) ++ tail ++ after.drop (body ++ tail).length) := by
  have hl := maskOf_length smp body.length hs
  have hcf := length_pick false _ body hl
  refine auxIdcard_some app mem body tail rest smp more after hform hp h0 hs ha _ _ _ ?_
    (dead_enc app lg hlg w hw ss R0 10 (by decide) (by decide) app.E _ _ (engineOk_of app.ffx _ body hl (maskOk_of _ _ _ hs hk))
      (pick_hidden smp body hs _ hd) [] _ (by rw [length_vla, hcf]; omega))
  rw [deadText_length]
  exact hcf

theorem C140_idcard_plain (app : FpeApp) (lg : Nat → Nat → Nat) (hlg : LgOk lg) (w : Faults) (hw : ∀ k x old, w k x old = some old)
    (ss : Nat → Block) (body tail smp : List Byte) (hform : CardForm body tail)
    (hp : ∀ c ∈ body, c ≠ 0) (h0 : ∀ c ∈ smp, c ≠ 0) (hs : smp = [] ∨ body.length ≤ smp.length)
    (hd : ∀ i (hi : i < body.length), Hidden smp i → IsNumeral 10 body[i]) (hk : HiddenOk app.ffx smp body.length)
    (hz : StackOk app.ffx lg 10 (hiddenCount smp body.length) ss)
    (mem : AppMem) (rest more after : List Byte) (hm : 1 ≤ mem.slack) (ha : (body ++ tail).length ≤ after.length) :
    encryptIdcardF app lg w ss zeroBlock mem (body ++ tail ++ 0 :: rest) (smp ++ 0 :: more) after =
      some (body ++ tail ++ after.drop (body ++ tail).length) := by
  have hl := maskOf_length smp body.length hs
  have hcf := length_pick false _ body hl
  rw [C140_idcard_encrypt app lg hlg w hw ss zeroBlock body tail smp hform hp h0 hs hd hk mem rest more after hm ha]
  have hln : (hiddenPart smp body).length = hiddenCount smp body.length := hcf.trans (maskOf_count _ _)
  rw [deadText_zero app.ffx lg hlg 10 (by decide) (by decide) ss (hiddenPart smp body)
    (by rw [hln]; revert hk; unfold HiddenOk; cases app.ffx
        · intro h; exact Or.inl h
        · intro h; exact Or.inr ⟨rfl, h.1⟩)
    (pick_hidden smp body hs _ hd) (by rw [hln]; exact hz)]
  rw [withHidden, hiddenPart, fill_same _ _ hl]

theorem C140_idcard_decrypt (app : FpeApp) (lg : Nat → Nat → Nat) (hlg : LgOk lg) (w : Faults) (hw : ∀ k x old, w k x old = some old)
    (ss : Nat → Block) (body tail smp : List Byte) (hform : CardForm body tail)
    (hp : ∀ c ∈ body, c ≠ 0) (h0 : ∀ c ∈ smp, c ≠ 0) (hs : smp = [] ∨ body.length ≤ smp.length)
    (hd : ∀ i (hi : i < body.length), Hidden smp i → IsNumeral 10 body[i]) (hk : HiddenOk app.ffx smp body.length)
    (hz : StackOk app.ffx lg 10 (hiddenCount smp body.length) ss)
    (mem : AppMem) (rest more after : List Byte) (hm : 1 ≤ mem.slack) (ha : (body ++ tail).length ≤ after.length) :
    decryptIdcardF app lg w ss mem (body ++ tail ++ 0 :: rest) (smp ++ 0 :: more) after =
      some (body ++ tail ++ after.drop (body ++ tail).length) := by
  have hl := maskOf_length smp body.length hs
  have hcf := length_pick false _ body hl
  have := auxIdcard_some app mem body tail rest smp more after hform hp h0 hs ha _ _ _ hcf
    (dead_dec app lg hlg w hw ss 10 (by decide) (by decide) app.E _ _ (engineOk_of app.ffx _ body hl (maskOk_of _ _ _ hs hk))
      (pick_hidden smp body hs _ hd) (by rw [hcf, maskOf_count]; exact hz) [] _ (by rw [length_vla, hcf]; omega))
  rw [fill_same _ _ hl] at this
  exact this

/-! ### Chinese text -/

theorem cn_engineOk (f : Ffx) (mask : List Bool) (cps : List Nat) (hl : mask.length = cps.length) (hk : CnOk f mask) :
    EngineOk f (duoText (pick true mask cps) ++ [0]).length (duoText (pick false mask cps)).length := by
  unfold CnOk at hk
  unfold EngineOk
  rw [List.length_append, length_duoText, length_duoText, length_pick true mask cps hl, length_pick false mask cps hl]
  revert hk
  cases f
  · intro hk; simp only [List.length_cons, List.length_nil] at hk ⊢; omega
  · intro hk; simp only [List.length_cons, List.length_nil] at hk ⊢; omega

/-- C140: Chinese text: encryption with such a cipher and any stack gives characters of the same range, the visible ones unchanged and
the hidden ones a function of the hidden ones and the stack alone. -/
theorem C140_cn_encrypt (f : Ffx) (lg : Nat → Nat → Nat) (hlg : LgOk lg) (w : Faults) (hw : ∀ k x old, w k x old = some old)
    (ss : Nat → Block) (R0 : Block) : ∃ g : List Nat → List Nat, ∀ (E : Block → Block) (cps : List Nat) (smp : List Byte)
    (mask : List Bool), (∀ cp ∈ cps, InCnRange cp) → CnSample smp mask cps.length → CnOk f mask →
    ∀ (mem : AppMem) (rest more after : List Byte), 1 ≤ mem.slack → 3 * cps.length ≤ after.length →
      encryptCnF ⟨E, f⟩ lg w ss R0 mem (utf8Text cps ++ 0 :: rest) (smp ++ 0 :: more) after =
        some (utf8Text (fill mask cps (g (pick false mask cps))) ++ after.drop (3 * cps.length)) ∧
      (g (pick false mask cps)).length = mask.count false ∧ ∀ cp ∈ g (pick false mask cps), InCnRange cp := by
  have hex : ∀ t : List Nat, ∃ r : List Nat, r.length = t.length ∧ (∀ cp ∈ r, InCnRange cp) ∧
      deadText f lg 12 ss R0 (duoText t) = duoText r := by
    intro t
    obtain ⟨r, h1, h2, h3⟩ := duoText_surj t.length (deadText f lg 12 ss R0 (duoText t))
      (by rw [deadText_length, length_duoText]) (deadText_numeral f lg 12 (by decide) (by decide) ss R0 _)
    exact ⟨r, h1, h2, h3.symm⟩
  refine ⟨fun t => (hex t).choose, ?_⟩
  intro E cps smp mask hr hm hk mem rest more after hsl ha
  have hl := hm.length
  have hlf := length_pick false mask cps hl
  obtain ⟨h1, h2, h3⟩ := (hex (pick false mask cps)).choose_spec
  refine ⟨?_, h1.trans hlf, h2⟩
  have hb := dead_enc ⟨E, f⟩ lg hlg w hw ss R0 12 (by decide) (by decide) E (duoText (pick true mask cps) ++ [0]) (duoText (pick false mask cps))
    (cn_engineOk f mask cps hl hk) (duoText_numeral _) [] (vla mem.ans (4 * mask.count false + mem.slack))
    (by rw [length_vla, length_duoText, hlf]; omega)
  rw [show deadText (⟨E, f⟩ : FpeApp).ffx lg 12 ss R0 (duoText (pick false mask cps)) = _ from h3] at hb
  exact cn_some ⟨E, f⟩ mem cps _ smp rest more after mask hr hm ha _ _ (h1.trans hlf) h2 hb

/-- C140: with a zero stack encryption, and with any stack decryption, writes the text as it was. -/
theorem C140_cn_plain (app : FpeApp) (lg : Nat → Nat → Nat) (hlg : LgOk lg) (w : Faults) (hw : ∀ k x old, w k x old = some old)
    (ss : Nat → Block) (cps : List Nat) (smp : List Byte)
    (mask : List Bool) (hr : ∀ cp ∈ cps, InCnRange cp) (hm : CnSample smp mask cps.length) (hk : CnOk app.ffx mask)
    (hz : StackOk app.ffx lg 12 (4 * mask.count false) ss)
    (mem : AppMem) (rest more after : List Byte) (hsl : 1 ≤ mem.slack) (ha : 3 * cps.length ≤ after.length) :
    encryptCnF app lg w ss zeroBlock mem (utf8Text cps ++ 0 :: rest) (smp ++ 0 :: more) after =
      some (utf8Text cps ++ after.drop (3 * cps.length)) ∧
    decryptCnF app lg w ss mem (utf8Text cps ++ 0 :: rest) (smp ++ 0 :: more) after =
      some (utf8Text cps ++ after.drop (3 * cps.length)) := by
  have hl := hm.length
  have hlf := length_pick false mask cps hl
  have hdl : (duoText (pick false mask cps)).length = 4 * mask.count false := by rw [length_duoText, hlf]
  have hrp : ∀ cp ∈ pick false mask cps, InCnRange cp := fun c hc => hr c (mem_pick _ _ _ c hc)
  have hok := cn_engineOk app.ffx mask cps hl hk
  have hout : (duoText (pick false mask cps)).length < (vla mem.ans (4 * mask.count false + mem.slack)).length := by
    rw [length_vla, hdl]; omega
  have he := dead_enc app lg hlg w hw ss zeroBlock 12 (by decide) (by decide) app.E _ _ hok (duoText_numeral _) [] _ hout
  have hdz := deadText_zero app.ffx lg hlg 12 (by decide) (by decide) ss (duoText (pick false mask cps))
    (by rw [hdl]; revert hk; unfold CnOk; cases app.ffx
        · intro h; simp only at h; exact Or.inl (by omega)
        · intro h; simp only at h; exact Or.inl (by omega)) (duoText_numeral _) (by rw [hdl]; exact hz)
  rw [hdz] at he
  have hd := dead_dec app lg hlg w hw ss 12 (by decide) (by decide) app.E _ _ hok (duoText_numeral _) (by rw [hdl]; exact hz) [] _ hout
  have h1 := cn_some app mem cps _ smp rest more after mask hr hm ha _ _ hlf hrp he
  have h2 := cn_some app mem cps _ smp rest more after mask hr hm ha _ _ hlf hrp hd
  rw [fill_same _ _ hl] at h1 h2
  exact ⟨h1, h2⟩

/-! ### the hypotheses can be met -/

/-- Three hidden digits and FF1. -/
example : HiddenOk .ff1 [0x2a, 0x2a, 0x2a] 3 ∧ StackOk .ff1 (fun r k => Nat.clog 2 (r ^ k)) 10 3 (fun _ => zeroBlock) ∧
    deadText .ff1 (fun _ _ => 7) 10 (fun _ => zeroBlock) (Vector.replicate 16 1) [0x31, 0x32, 0x33] ≠ [0x31, 0x32, 0x33] := by
  refine ⟨by unfold HiddenOk hiddenCount; decide, Or.inl fun _ => rfl, by decide +kernel⟩

end Verif.Props
