import Verif.Model.FpeAppRelease
import Verif.Props.FpeRelease
import Verif.Props.FpeCn

/-!
# The FPE applications compiled without assertions

Phone numbers, identity cards and Chinese text (`/repo/src/fpe_app`) in a build with `NDEBUG` (Model/FpeAppRelease) compared with a
build that has the assertions (Model/FpeApp).
-/
set_option autoImplicit false

namespace Verif.Props
open Verif Spec Model

theorem cstr_split (input s : List Byte) (h : cstr input = some s) : (∀ c ∈ s, c ≠ 0) ∧ ∃ rest, input = s ++ 0 :: rest := by
  unfold cstr at h
  split at h
  · rename_i hm
    have e := Option.some.inj h
    subst e
    clear h
    induction input with
    | nil => simp at hm
    | cons x xs ih =>
      by_cases hx : x = 0
      · subst hx
        exact ⟨by simp, xs, by simp⟩
      · have hm' : (0 : Byte) ∈ xs := by
          rcases List.mem_cons.mp hm with h | h
          · exact absurd h.symm hx
          · exact h
        obtain ⟨h1, rest, h2⟩ := ih hm'
        have hb : (x != 0) = true := bne_iff_ne.mpr hx
        rw [List.takeWhile_cons, if_pos hb]
        refine ⟨fun c hc => ?_, rest, ?_⟩
        · rcases List.mem_cons.mp hc with rfl | hc
          · exact hx
          · exact h1 c hc
        · rw [List.cons_append, ← h2]
  · cases h

/-- The engines with assertions are undefined or equal to those without, for every string. -/
theorem engine_debug (app : FpeApp) (lg : Nat → Nat → Nat) (ctx : FpeCtx) (input out r : List Byte) :
    (encFn app lg ctx input out = some r → encFnRel app lg ctx input out = some r) ∧
    (decFn app lg ctx input out = some r → decFnRel app lg ctx input out = some r) := by
  have hn : cstr input = none → encFn app lg ctx input out = none ∧ decFn app lg ctx input out = none := by
    intro h
    unfold encFn decFn ff1Encrypt ff1Decrypt ff3Encrypt ff3Decrypt
    rw [h]
    cases app.ffx <;> exact ⟨rfl, rfl⟩
  cases hc : cstr input with
  | none =>
    obtain ⟨h1, h2⟩ := hn hc
    rw [h1, h2]
    exact ⟨fun h => (nomatch h), fun h => (nomatch h)⟩
  | some s =>
    obtain ⟨h0, rest, rfl⟩ := cstr_split input s hc
    unfold encFn decFn encFnRel decFnRel
    cases app.ffx with
    | ff1 =>
      obtain ⟨a, b, -, -⟩ := C124_ff1_debug ctx lg (fun _ => zeroBlock) s rest out r zeroBlock h0
      exact ⟨a, b⟩
    | ff3 =>
      obtain ⟨a, b, -, -⟩ := C124_ff3_same ctx lg s rest out h0
      simp only
      rw [a, b]
      exact ⟨id, id⟩

theorem bind_mono {α β : Type} (x : Option α) (f g : α → Option β) (r : β) (h : ∀ a, f a = some r → g a = some r) :
    x.bind f = some r → x.bind g = some r := by
  cases x with
  | none => exact fun h => h
  | some a => exact h a

theorem bind_mono_left {α β : Type} (x y : Option α) (f : α → Option β) (r : β) (h : ∀ a, x = some a → y = some a) :
    x.bind f = some r → y.bind f = some r := by
  cases x with
  | none => exact fun h => (nomatch h)
  | some a => rw [h a rfl]; exact id

section
variable (app : FpeApp) (mem : AppMem) (text sample after r : List Byte) (f g : FpeFn)
  (h : ∀ ctx i o r, f ctx i o = some r → g ctx i o = some r)
include h

theorem auxPhone_mono : auxPhone app mem text sample after f = some r → auxPhone app mem text sample after g = some r := by
  unfold auxPhone
  refine bind_mono _ _ _ _ fun _ => bind_mono _ _ _ _ fun _ => bind_mono _ _ _ _ fun _ => bind_mono _ _ _ _ fun _ =>
    bind_mono _ _ _ _ fun _ => bind_mono _ _ _ _ fun _ => bind_mono_left _ _ _ _ fun _ => h _ _ _ _

theorem auxIdcard_mono : auxIdcard app mem text sample after f = some r → auxIdcard app mem text sample after g = some r := by
  unfold auxIdcard
  refine bind_mono _ _ _ _ fun _ => bind_mono _ _ _ _ fun _ => bind_mono _ _ _ _ fun _ => bind_mono _ _ _ _ fun _ =>
    bind_mono _ _ _ _ fun _ => bind_mono _ _ _ _ fun _ => bind_mono _ _ _ _ fun _ => bind_mono_left _ _ _ _ fun _ => h _ _ _ _

theorem auxCn_mono : auxCn app mem text sample after f = some r → auxCn app mem text sample after g = some r := by
  unfold auxCn
  refine bind_mono _ _ _ _ fun _ => bind_mono _ _ _ _ fun _ => bind_mono _ _ _ _ fun _ => bind_mono _ _ _ _ fun _ =>
    bind_mono _ _ _ _ fun _ => bind_mono _ _ _ _ fun _ => bind_mono _ _ _ _ fun _ => bind_mono_left _ _ _ _ fun _ => h _ _ _ _

end

/-- C130: whatever a build with assertions returns, a build without returns too: for every phone number, card or text (well formed or
not), sample, memory and engine. -/
theorem C130_debug (app : FpeApp) (lg : Nat → Nat → Nat) (mem : AppMem) (text sample after r : List Byte) :
    (encryptPhone app lg mem text sample after = some r → encryptPhoneRel app lg mem text sample after = some r) ∧
    (decryptPhone app lg mem text sample after = some r → decryptPhoneRel app lg mem text sample after = some r) ∧
    (encryptIdcard app lg mem text sample after = some r → encryptIdcardRel app lg mem text sample after = some r) ∧
    (decryptIdcard app lg mem text sample after = some r → decryptIdcardRel app lg mem text sample after = some r) ∧
    (encryptCn app lg mem text sample after = some r → encryptCnRel app lg mem text sample after = some r) ∧
    (decryptCn app lg mem text sample after = some r → decryptCnRel app lg mem text sample after = some r) := by
  have he : ∀ ctx i o r, encFn app lg ctx i o = some r → encFnRel app lg ctx i o = some r := fun ctx i o r =>
    (engine_debug app lg ctx i o r).1
  have hd : ∀ ctx i o r, decFn app lg ctx i o = some r → decFnRel app lg ctx i o = some r := fun ctx i o r =>
    (engine_debug app lg ctx i o r).2
  exact ⟨auxPhone_mono app mem text sample after r _ _ he, auxPhone_mono app mem text sample after r _ _ hd,
    auxIdcard_mono app mem text sample after r _ _ he, auxIdcard_mono app mem text sample after r _ _ hd,
    auxCn_mono app mem text sample after r _ _ he, auxCn_mono app mem text sample after r _ _ hd⟩

/-- The engines agree on a string with a tweak that is not empty, except that FF1 needs two characters. -/
theorem engine_same (app : FpeApp) (lg : Nat → Nat → Nat) (ctx : FpeCtx) (hT : ctx.tweak ≠ []) (s rest out : List Byte)
    (h0 : ∀ c ∈ s, c ≠ 0) (hn : app.ffx = .ff1 → s.length ≠ 1) :
    encFnRel app lg ctx (s ++ 0 :: rest) out = encFn app lg ctx (s ++ 0 :: rest) out ∧
    decFnRel app lg ctx (s ++ 0 :: rest) out = decFn app lg ctx (s ++ 0 :: rest) out := by
  unfold encFn decFn encFnRel decFnRel
  cases hf : app.ffx with
  | ff1 =>
    have h1 := hn hf
    by_cases h2 : s = []
    · subst h2
      obtain ⟨a, b, -, -⟩ := C124_empty ctx lg (fun _ => zeroBlock) rest out
      obtain ⟨c, d, -, -⟩ := C98_ff1_short ctx lg (fun _ => zeroBlock) [] rest out h0 (by simp)
      simp only [List.nil_append] at c d ⊢
      rw [a, b, c, d]
      exact ⟨rfl, rfl⟩
    · have := List.length_pos_iff.mpr h2
      obtain ⟨a, b, -, -⟩ := C124_ff1_same ctx lg (fun _ => zeroBlock) s rest out h0 (by omega) (Or.inl hT)
      exact ⟨a, b⟩
  | ff3 =>
    obtain ⟨a, b, -, -⟩ := C124_ff3_same ctx lg s rest out h0
    exact ⟨a, b⟩

/-- C130, phone numbers: the two builds do the same (with the same result or both undefined) unless FF1 is left with exactly one hidden
character. The hidden characters need not be digits. -/
theorem C130_phone_same (app : FpeApp) (lg : Nat → Nat → Nat) (mem : AppMem) (phone smp rest more after : List Byte)
    (hp : ∀ c ∈ phone, c ≠ 0) (h0 : ∀ c ∈ smp, c ≠ 0) (hs : smp = [] ∨ phone.length ≤ smp.length)
    (hk : app.ffx = .ff1 → hiddenCount smp phone.length ≠ 1) :
    encryptPhoneRel app lg mem (phone ++ 0 :: rest) (smp ++ 0 :: more) after =
      encryptPhone app lg mem (phone ++ 0 :: rest) (smp ++ 0 :: more) after ∧
    decryptPhoneRel app lg mem (phone ++ 0 :: rest) (smp ++ 0 :: more) after =
      decryptPhone app lg mem (phone ++ 0 :: rest) (smp ++ 0 :: more) after := by
  have hl := maskOf_length smp phone.length hs
  have hcf := length_pick false _ phone hl
  have hco := maskOf_count smp phone.length
  have hz : ∀ c ∈ pick false (maskOf smp phone.length) phone, c ≠ 0 := fun c hc => hp c (mem_pick _ _ _ c hc)
  have key := fun out => engine_same app lg ⟨app.E, 10, pick true (maskOf smp phone.length) phone ++ [0]⟩ (by simp) _ [] out hz
    (fun hf => by rw [hcf, hco]; exact hk hf)
  unfold encryptPhone decryptPhone encryptPhoneRel decryptPhoneRel
  simp only [auxPhone_eq app mem phone rest smp more after hp h0 hs]
  rw [(key _).1, (key _).2]
  exact ⟨rfl, rfl⟩

/-- C130, identity cards: the same. -/
theorem C130_idcard_same (app : FpeApp) (lg : Nat → Nat → Nat) (mem : AppMem) (body tail smp rest more after : List Byte)
    (hform : CardForm body tail)
    (hp : ∀ c ∈ body, c ≠ 0) (h0 : ∀ c ∈ smp, c ≠ 0) (hs : smp = [] ∨ body.length ≤ smp.length)
    (hk : app.ffx = .ff1 → hiddenCount smp body.length ≠ 1) :
    encryptIdcardRel app lg mem (body ++ tail ++ 0 :: rest) (smp ++ 0 :: more) after =
      encryptIdcard app lg mem (body ++ tail ++ 0 :: rest) (smp ++ 0 :: more) after ∧
    decryptIdcardRel app lg mem (body ++ tail ++ 0 :: rest) (smp ++ 0 :: more) after =
      decryptIdcard app lg mem (body ++ tail ++ 0 :: rest) (smp ++ 0 :: more) after := by
  have hl := maskOf_length smp body.length hs
  have hcf := length_pick false _ body hl
  have hco := maskOf_count smp body.length
  have hz : ∀ c ∈ pick false (maskOf smp body.length) body, c ≠ 0 := fun c hc => hp c (mem_pick _ _ _ c hc)
  have key := fun out => engine_same app lg ⟨app.E, 10, pick true (maskOf smp body.length) body ++ [0]⟩ (by simp) _ [] out hz
    (fun hf => by rw [hcf, hco]; exact hk hf)
  unfold encryptIdcard decryptIdcard encryptIdcardRel decryptIdcardRel
  simp only [auxIdcard_eq app mem body tail rest smp more after hform hp h0 hs]
  rw [(key _).1, (key _).2]
  exact ⟨rfl, rfl⟩

/-- C130, Chinese text: the two builds do the same for every text and sample (each hidden character gives four digits). -/
theorem C130_cn_same (app : FpeApp) (lg : Nat → Nat → Nat) (mem : AppMem) (cps : List Nat) (smp rest more after : List Byte)
    (mask : List Bool) (hr : ∀ cp ∈ cps, InCnRange cp) (hm : CnSample smp mask cps.length) :
    encryptCnRel app lg mem (utf8Text cps ++ 0 :: rest) (smp ++ 0 :: more) after =
      encryptCn app lg mem (utf8Text cps ++ 0 :: rest) (smp ++ 0 :: more) after ∧
    decryptCnRel app lg mem (utf8Text cps ++ 0 :: rest) (smp ++ 0 :: more) after =
      decryptCn app lg mem (utf8Text cps ++ 0 :: rest) (smp ++ 0 :: more) after := by
  have key := fun out => engine_same app lg ⟨app.E, 12, duoText (pick true mask cps) ++ [0]⟩ (by simp)
    (duoText (pick false mask cps)) [] out (fun c hc => numeral_ne_zero c (duoText_numeral _ c hc)) (fun _ => by rw [length_duoText]; omega)
  unfold encryptCn decryptCn encryptCnRel decryptCnRel
  simp only [auxCn_eq app mem cps smp rest more after mask hr hm]
  rw [(key _).1, (key _).2]
  exact ⟨rfl, rfl⟩

/-- One hidden digit under FF1 without assertions. -/
theorem one_mask (smp xs : List Byte) (hs : smp = [] ∨ xs.length ≤ smp.length) (hc : hiddenCount smp xs.length = 1) (i : Nat)
    (hi : i < xs.length) (hh : Hidden smp i) :
    pick true (maskOf smp xs.length) xs = xs.eraseIdx i ∧ pick false (maskOf smp xs.length) xs = [xs[i]] ∧
    ∀ d, fill (maskOf smp xs.length) xs [d] = xs.set i d := by
  have hl := maskOf_length smp xs.length hs
  have hco := maskOf_count smp xs.length
  have him : i < (maskOf smp xs.length).length := by omega
  have hmi := (maskOf_getElem smp xs.length i hs him).mpr hh
  have o := one_hidden _ _ hl (by omega) i him hi hmi
  exact ⟨one_hidden_shown _ _ hl (by omega) i him hi hmi, (o 0).1, fun d => (o d).2⟩

/-- C130, phone numbers, FF1 with exactly one hidden digit: a build with assertions stops; without them the digit is moved `k` places in
the alphabet, `k` a function of the key and the shown characters, and decryption moves it back. -/
theorem C130_phone_one (app : FpeApp) (hf : app.ffx = .ff1) (lg : Nat → Nat → Nat) (hlg : LgOk lg) : ∃ k : List Byte → Nat,
    ∀ (phone smp : List Byte), (∀ c ∈ phone, c ≠ 0) → (∀ c ∈ smp, c ≠ 0) →
    smp = [] ∨ phone.length ≤ smp.length → hiddenCount smp phone.length = 1 →
    ∀ (i : Nat) (hi : i < phone.length), Hidden smp i → IsNumeral 10 phone[i] →
    ∀ (mem : AppMem) (rest more after : List Byte), 1 ≤ mem.slack → phone.length ≤ after.length →
      encryptPhone app lg mem (phone ++ 0 :: rest) (smp ++ 0 :: more) after = none ∧
      encryptPhoneRel app lg mem (phone ++ 0 :: rest) (smp ++ 0 :: more) after =
        some (phone.set i (shiftNumeral 10 (k (phone.eraseIdx i)) phone[i]) ++ after.drop phone.length) ∧
      decryptPhoneRel app lg mem (phone.set i (shiftNumeral 10 (k (phone.eraseIdx i)) phone[i]) ++ 0 :: rest)
        (smp ++ 0 :: more) after = some (phone ++ after.drop phone.length) := by
  obtain ⟨k, hk⟩ := C124_ff1_one app.E 10 lg hlg
  refine ⟨fun t => k (t ++ [0]), fun phone smp hp h0 hs hc i hi hh hn mem rest more after hm ha => ?_⟩
  have hco := maskOf_count smp phone.length
  obtain ⟨m1, m2, m3⟩ := one_mask smp phone hs hc i hi hh
  have e := fun out => hk (phone.eraseIdx i ++ [0]) _ rfl phone[i] hn [] out
  refine ⟨(C98_phone_short app lg mem phone smp rest more after hp h0 hs (Or.inl ⟨hf, by omega⟩)).1, ?_, ?_⟩
  · unfold encryptPhoneRel
    rw [auxPhone_some app mem phone rest smp more after hp h0 hs ha _ [shiftNumeral 10 (k (phone.eraseIdx i ++ [0])) phone[i]]
      (0 :: (vla mem.ans ((maskOf smp phone.length).count false + mem.slack)).drop 2) (by simp; omega) (by
        rw [m1, m2]
        unfold encFnRel
        rw [hf]
        exact (e _ (by rw [length_vla]; omega)).2.1), m3]
  · have hlen : ∀ d, (phone.set i d).length = phone.length := fun d => List.length_set
    have hsn : IsNumeral 10 (shiftNumeral 10 (k (phone.eraseIdx i ++ [0])) phone[i]) :=
      numeralChar_isNumeral 10 _ (by omega) (Nat.mod_lt _ (by omega))
    generalize hd : shiftNumeral 10 (k (phone.eraseIdx i ++ [0])) phone[i] = d at hsn e
    obtain ⟨n1, n2, n3⟩ := one_mask smp (phone.set i d) (by rw [hlen]; exact hs) (by rw [hlen]; exact hc) i (by rw [hlen]; exact hi) hh
    have hz : ∀ c ∈ phone.set i d, c ≠ 0 := fun c hcm => by
      rcases List.mem_or_eq_of_mem_set hcm with h | h
      · exact hp c h
      · rw [h]; exact numeral_ne_zero _ hsn
    unfold decryptPhoneRel
    rw [auxPhone_some app mem (phone.set i d) rest smp more after hz h0 (by rw [hlen]; exact hs) (by rw [hlen]; exact ha) _ [phone[i]]
      (0 :: (vla mem.ans ((maskOf smp phone.length).count false + mem.slack)).drop 2) (by rw [hlen]; simp; omega) (by
        rw [n1, n2]
        simp only [List.getElem_set_self, List.eraseIdx_set_eq, hlen]
        unfold decFnRel
        rw [hf]
        exact (e _ (by rw [length_vla]; omega)).2.2), n3, hlen]
    rw [List.set_set, List.set_getElem_self]

/-- C130, identity cards, FF1 with exactly one hidden digit: the same. -/
theorem C130_idcard_one (app : FpeApp) (hf : app.ffx = .ff1) (lg : Nat → Nat → Nat) (hlg : LgOk lg) : ∃ k : List Byte → Nat,
    ∀ (body tail smp : List Byte), CardForm body tail → (∀ c ∈ body, c ≠ 0) → (∀ c ∈ smp, c ≠ 0) →
    smp = [] ∨ body.length ≤ smp.length → hiddenCount smp body.length = 1 →
    ∀ (i : Nat) (hi : i < body.length), Hidden smp i → IsNumeral 10 body[i] →
    ∀ (mem : AppMem) (rest more after : List Byte), 1 ≤ mem.slack → (body ++ tail).length ≤ after.length →
      encryptIdcard app lg mem (body ++ tail ++ 0 :: rest) (smp ++ 0 :: more) after = none ∧
      encryptIdcardRel app lg mem (body ++ tail ++ 0 :: rest) (smp ++ 0 :: more) after =
        some (body.set i (shiftNumeral 10 (k (body.eraseIdx i)) body[i]) ++ tail ++ after.drop (body ++ tail).length) ∧
      decryptIdcardRel app lg mem (body.set i (shiftNumeral 10 (k (body.eraseIdx i)) body[i]) ++ tail ++ 0 :: rest)
        (smp ++ 0 :: more) after = some (body ++ tail ++ after.drop (body ++ tail).length) := by
  obtain ⟨k, hk⟩ := C124_ff1_one app.E 10 lg hlg
  refine ⟨fun t => k (t ++ [0]), fun body tail smp hform hp h0 hs hc i hi hh hn mem rest more after hm ha => ?_⟩
  have hco := maskOf_count smp body.length
  obtain ⟨m1, m2, m3⟩ := one_mask smp body hs hc i hi hh
  have e := fun out => hk (body.eraseIdx i ++ [0]) _ rfl body[i] hn [] out
  have henc : encryptIdcardRel app lg mem (body ++ tail ++ 0 :: rest) (smp ++ 0 :: more) after =
      some (body.set i (shiftNumeral 10 (k (body.eraseIdx i ++ [0])) body[i]) ++ tail ++ after.drop (body ++ tail).length) := by
    unfold encryptIdcardRel
    rw [auxIdcard_some app mem body tail rest smp more after hform hp h0 hs ha _ [shiftNumeral 10 (k (body.eraseIdx i ++ [0])) body[i]]
      (0 :: (vla mem.ans ((maskOf smp body.length).count false + mem.slack)).drop 2) (by simp; omega) (by
        rw [m1, m2]
        unfold encFnRel
        rw [hf]
        exact (e _ (by rw [length_vla]; omega)).2.1), m3]
  refine ⟨(C98_idcard_short app lg mem body tail smp rest more after hform hp h0 hs (Or.inl ⟨hf, by omega⟩)).1, henc, ?_⟩
  obtain ⟨o, -, -, -, o1, o2⟩ := card_core app body tail smp hform hp h0 hs (encFnRel app lg) (decFnRel app lg)
    ⟨[shiftNumeral 10 (k (body.eraseIdx i ++ [0])) body[i]], by
      rw [m1, m2]
      have e' := fun rest out => hk (body.eraseIdx i ++ [0]) _ rfl body[i] hn rest out
      unfold encFnRel decFnRel
      rw [hf]
      refine ⟨rfl, fun c hcm => ?_, fun rest out ho => (e' rest out (by simpa using ho)).2.1,
        fun rest out ho => (e' rest out (by simpa using ho)).2.2⟩
      rw [List.mem_singleton.mp hcm]
      exact numeralChar_isNumeral 10 _ (by omega) (Nat.mod_lt _ (by omega))⟩
  have h1 := o1 mem rest more after hm ha
  unfold encryptIdcardRel at henc
  rw [h1] at henc
  have ho := List.append_cancel_right (List.append_cancel_right (Option.some.inj henc))
  have h2 := o2 mem rest more after hm ha
  rw [ho] at h2
  exact h2

/-- C130: so in such a build one phone number and its encryption give the hidden digit of every other number that has the same shown
characters and whose encryption is seen. -/
theorem C130_phone_reveal (app : FpeApp) (hf : app.ffx = .ff1) (lg : Nat → Nat → Nat) (hlg : LgOk lg) (phone smp : List Byte)
    (hp : ∀ c ∈ phone, c ≠ 0) (h0 : ∀ c ∈ smp, c ≠ 0) (hs : smp = [] ∨ phone.length ≤ smp.length)
    (hc : hiddenCount smp phone.length = 1) (i : Nat) (hi : i < phone.length) (hh : Hidden smp i) (hn : IsNumeral 10 phone[i])
    (x : Byte) (hx : IsNumeral 10 x) (d e : Byte) (mem mem' : AppMem) (rest rest' more after after' : List Byte) (hm : 1 ≤ mem.slack)
    (hm' : 1 ≤ mem'.slack) (ha : phone.length ≤ after.length) (ha' : phone.length ≤ after'.length)
    (he : encryptPhoneRel app lg mem (phone ++ 0 :: rest) (smp ++ 0 :: more) after =
      some (phone.set i d ++ after.drop phone.length))
    (he' : encryptPhoneRel app lg mem' (phone.set i x ++ 0 :: rest') (smp ++ 0 :: more) after' =
      some (phone.set i e ++ after'.drop phone.length)) :
    (numeralVal x + numeralVal d) % 10 = (numeralVal e + numeralVal phone[i]) % 10 := by
  obtain ⟨k, hk⟩ := C130_phone_one app hf lg hlg
  have hlen : ∀ d, (phone.set i d).length = phone.length := fun d => List.length_set
  have hz : ∀ c ∈ phone.set i x, c ≠ 0 := fun c hcm => by
    rcases List.mem_or_eq_of_mem_set hcm with h | h
    · exact hp c h
    · rw [h]; exact numeral_ne_zero _ hx
  have a := (hk phone smp hp h0 hs hc i hi hh hn mem rest more after hm ha).2.1
  have b := (hk (phone.set i x) smp hz h0 (by rw [hlen]; exact hs) (by rw [hlen]; exact hc) i (by rw [hlen]; exact hi) hh
    (by rw [List.getElem_set_self]; exact hx) mem' rest' more after' hm' (by rw [hlen]; exact ha')).2.1
  rw [he] at a
  rw [he', List.getElem_set_self, List.eraseIdx_set_eq, hlen, List.set_set] at b
  have get : ∀ (u v : Byte) (t : List Byte), phone.set i u ++ t = phone.set i v ++ t → u = v := by
    intro u v t h
    have h1 := congrArg (·[i]?) (List.append_cancel_right h)
    simpa [hi] using h1
  have ed := get _ _ _ (Option.some.inj a)
  have ee := get _ _ _ (Option.some.inj b)
  have hv : ∀ x : Nat, numeralVal (numeralChar (x % 10)) = x % 10 := fun x =>
    numeralVal_char _ (Nat.lt_of_lt_of_le (Nat.mod_lt x (by omega)) (by omega))
  rw [ed, ee, shiftNumeral, shiftNumeral, hv, hv, Nat.mod_add_mod, Nat.add_mod_mod]
  congr 1
  omega

/- The phone number 13888888888 with the sample "shown but for the last digit", and an application that uses FF1. -/
example (E : Block → Block) : (∀ c ∈ ([49, 51, 56, 56, 56, 56, 56, 56, 56, 56, 56] : List Byte), c ≠ 0) ∧
    hiddenCount [45, 45, 45, 45, 45, 45, 45, 45, 45, 45, 42] 11 = 1 ∧ Hidden [45, 45, 45, 45, 45, 45, 45, 45, 45, 45, 42] 10 ∧
    IsNumeral 10 (56 : Byte) ∧ (⟨E, .ff1⟩ : FpeApp).ffx = .ff1 ∧ LgOk (fun r k => Nat.clog 2 (r ^ k)) :=
  ⟨by decide, by decide, Or.inr rfl, Or.inl (by decide), rfl, lgOk_clog⟩

/- Four hidden digits: both builds agree, and the result is defined (C53). -/
example : hiddenCount [45, 45, 45, 45, 45, 45, 45, 42, 42, 42, 42] 11 = 4 ∧ HiddenOk .ff1 [45, 45, 45, 45, 45, 45, 45, 42, 42, 42, 42] 11 :=
  ⟨by decide, by unfold HiddenOk; decide⟩

end Verif.Props
