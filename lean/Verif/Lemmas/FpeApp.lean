import Verif.Model.FpeApp
import Verif.Spec.FpeApp
import Verif.Props.Fpe3

/-! Engines and mask loops of the FPE applications. -/
set_option autoImplicit false

namespace Verif
open Spec Model Props

/-! ### Engines -/

/-- When an engine is defined: FF1 needs two characters and a tweak, FF3 one character and eight tweak bytes. -/
def EngineOk (f : Ffx) (tweakLen n : Nat) : Prop :=
  match f with
  | .ff1 => 2 ≤ n ∧ 1 ≤ tweakLen
  | .ff3 => 1 ≤ n ∧ 8 ≤ tweakLen

theorem engine_fwd (app : FpeApp) (lg : Nat → Nat → Nat) (hlg : LgOk lg) (radix : Nat) (h2 : 2 ≤ radix)
    (h36 : radix ≤ 36) (E : Block → Block) (tweak s : List Byte) (hok : EngineOk app.ffx tweak.length s.length)
    (hs : ∀ c ∈ s, IsNumeral radix c) :
    ∃ ct : List Byte, ct.length = s.length ∧ (∀ c ∈ ct, IsNumeral radix c) ∧
      (∀ rest out, s.length < out.length →
        encFn app lg ⟨E, radix, tweak⟩ (s ++ 0 :: rest) out = some (ct ++ 0 :: out.drop (s.length + 1))) ∧
      (∀ rest out, s.length < out.length →
        decFn app lg ⟨E, radix, tweak⟩ (ct ++ 0 :: rest) out = some (s ++ 0 :: out.drop (s.length + 1))) := by
  unfold encFn decFn
  unfold EngineOk at hok
  cases hf : app.ffx with
  | ff1 =>
    rw [hf] at hok
    simp only at hok ⊢
    have hq : ∀ n, QOk lg tweak radix n := fun n => Or.inl (List.length_pos_iff.mp hok.2)
    obtain ⟨h1, h3, h4⟩ := ff1Out_ok ⟨E, radix, tweak⟩ lg hlg h2 (vals s) (vals_lt s hs)
      (by rw [length_vals]; exact hok.1)
    rw [length_vals] at h1
    refine ⟨(ff1Out ⟨E, radix, tweak⟩ lg (vals s)).map numeralChar, by rw [List.length_map, h1],
      chars_numeral h36 _ h3, fun rest out ho => ff1Encrypt_eq _ lg hlg h2 s rest out hs hok.1 ho (hq _), fun rest out ho => ?_⟩
    rw [ff1Decrypt_eq _ lg hlg h2 _ rest out (chars_numeral h36 _ h3)
      (by rw [List.length_map, h1]; exact hok.1) (by rw [List.length_map, h1]; exact ho) (hq _)]
    rw [vals_chars _ (fun d hd => by have := h3 d hd; simp only at this; omega), h4, chars_vals s hs,
      List.length_map, h1]
  | ff3 =>
    rw [hf] at hok
    simp only at hok ⊢
    obtain ⟨h1, h3, h4⟩ := ff3Out_ok ⟨E, radix, tweak⟩ lg hlg h2 hok.2 (vals s) (vals_lt s hs)
      (by rw [length_vals]; exact hok.1)
    rw [length_vals] at h1
    refine ⟨(ff3Out ⟨E, radix, tweak⟩ lg (vals s)).map numeralChar, by rw [List.length_map, h1],
      chars_numeral h36 _ h3, fun rest out ho => ff3Encrypt_eq _ lg hlg h2 hok.2 s rest out hs hok.1 ho,
      fun rest out ho => ?_⟩
    rw [ff3Decrypt_eq _ lg hlg h2 hok.2 _ rest out (chars_numeral h36 _ h3)
      (by rw [List.length_map, h1]; exact hok.1) (by rw [List.length_map, h1]; exact ho)]
    rw [vals_chars _ (fun d hd => by have := h3 d hd; simp only at this; omega), h4, chars_vals s hs,
      List.length_map, h1]

theorem engine_bwd (app : FpeApp) (lg : Nat → Nat → Nat) (hlg : LgOk lg) (radix : Nat) (h2 : 2 ≤ radix)
    (h36 : radix ≤ 36) (E : Block → Block) (tweak s : List Byte) (hok : EngineOk app.ffx tweak.length s.length)
    (hs : ∀ c ∈ s, IsNumeral radix c) :
    ∃ ct : List Byte, ct.length = s.length ∧ (∀ c ∈ ct, IsNumeral radix c) ∧
      (∀ rest out, s.length < out.length →
        decFn app lg ⟨E, radix, tweak⟩ (s ++ 0 :: rest) out = some (ct ++ 0 :: out.drop (s.length + 1))) ∧
      (∀ rest out, s.length < out.length →
        encFn app lg ⟨E, radix, tweak⟩ (ct ++ 0 :: rest) out = some (s ++ 0 :: out.drop (s.length + 1))) := by
  unfold encFn decFn
  unfold EngineOk at hok
  cases hf : app.ffx with
  | ff1 =>
    rw [hf] at hok
    simp only at hok ⊢
    have hq : ∀ n, QOk lg tweak radix n := fun n => Or.inl (List.length_pos_iff.mp hok.2)
    obtain ⟨h1, h3, h4⟩ := ff1Undo_ok ⟨E, radix, tweak⟩ lg hlg h2 (vals s) (vals_lt s hs)
      (by rw [length_vals]; exact hok.1)
    rw [length_vals] at h1
    refine ⟨(ff1Undo ⟨E, radix, tweak⟩ lg (vals s)).map numeralChar, by rw [List.length_map, h1],
      chars_numeral h36 _ h3, fun rest out ho => ff1Decrypt_eq _ lg hlg h2 s rest out hs hok.1 ho (hq _), fun rest out ho => ?_⟩
    rw [ff1Encrypt_eq _ lg hlg h2 _ rest out (chars_numeral h36 _ h3)
      (by rw [List.length_map, h1]; exact hok.1) (by rw [List.length_map, h1]; exact ho) (hq _)]
    rw [vals_chars _ (fun d hd => by have := h3 d hd; simp only at this; omega), h4, chars_vals s hs,
      List.length_map, h1]
  | ff3 =>
    rw [hf] at hok
    simp only at hok ⊢
    obtain ⟨h1, h3, h4⟩ := ff3Undo_ok ⟨E, radix, tweak⟩ lg hlg h2 hok.2 (vals s) (vals_lt s hs)
      (by rw [length_vals]; exact hok.1)
    rw [length_vals] at h1
    refine ⟨(ff3Undo ⟨E, radix, tweak⟩ lg (vals s)).map numeralChar, by rw [List.length_map, h1],
      chars_numeral h36 _ h3, fun rest out ho => ff3Decrypt_eq _ lg hlg h2 hok.2 s rest out hs hok.1 ho,
      fun rest out ho => ?_⟩
    rw [ff3Encrypt_eq _ lg hlg h2 hok.2 _ rest out (chars_numeral h36 _ h3)
      (by rw [List.length_map, h1]; exact hok.1) (by rw [List.length_map, h1]; exact ho)]
    rw [vals_chars _ (fun d hd => by have := h3 d hd; simp only at this; omega), h4, chars_vals s hs,
      List.length_map, h1]

/-! ### The terminator behind the output -/

theorem length_wrDigits {out : List Nat} {off : Nat} {ds o : List Nat} (h : wrDigits out off ds = some o) :
    o.length = out.length := by
  unfold wrDigits at h
  split at h
  · injection h with h
    subst h
    simp only [List.length_append, List.length_take, List.length_drop]
    omega
  · cases h

theorem foldlM_inv {S : Type} (P : S → Prop) (g : S → Nat → Option S) (hg : ∀ s i s', g s i = some s' → P s → P s') :
    ∀ (l : List Nat) (s s' : S), l.foldlM g s = some s' → P s → P s' := by
  intro l
  induction l with
  | nil => intro s s' h hp; injection h with h; subst h; exact hp
  | cons a l ih =>
    intro s s' h hp
    rw [List.foldlM_cons] at h
    cases e : g s a with
    | none => rw [e] at h; cases h
    | some t => rw [e] at h; exact ih t s' h (hg s a t e hp)

theorem swapPtrs_out {s t : FpeSt} (h : swapPtrs s = some t) : t.out = s.out := by
  unfold swapPtrs at h
  split at h
  · cases h
  · injection h with h; subst h; rfl

theorem rounds_length {g : FpeSt → Nat → Option FpeSt} (hg : ∀ s i s', g s i = some s' → s'.out.length = s.out.length)
    (l : List Nat) (s s' : FpeSt) (h : l.foldlM g s = some s') : s'.out.length = s.out.length :=
  foldlM_inv (fun t => t.out.length = s.out.length) g (fun a i b hb ha => (hg a i b hb).trans ha) l s s' h rfl

theorem tail_none {g : FpeSt → Nat → Option FpeSt} (hg : ∀ s i s', g s i = some s' → s'.out.length = s.out.length)
    (l : List Nat) (s : FpeSt) (out : List Byte) (ho : out.length ≤ s.out.length) :
    (l.foldlM g s).bind (fun s => invMapChars s.out out) = none := by
  cases h : l.foldlM g s with
  | none => rfl
  | some t =>
    have := rounds_length hg l s t h
    simp only [Option.bind_some, invMapChars]
    rw [if_neg (by omega)]

theorem ff1EncryptRound_length (ctx : FpeCtx) (lg : Nat → Nat → Nat) (n : Nat) (s : FpeSt) (i : Nat) (s' : FpeSt)
    (h : ff1EncryptRound ctx lg n s i = some s') : s'.out.length = s.out.length := by
  unfold ff1EncryptRound at h
  simp only [Option.bind_eq_some_iff, Option.some.injEq] at h
  obtain ⟨_, _, _, _, _, _, t, ht, o, ho, rfl⟩ := h
  rw [length_wrDigits ho, swapPtrs_out ht]

theorem ff1DecryptRound_length (ctx : FpeCtx) (lg : Nat → Nat → Nat) (n : Nat) (s : FpeSt) (i : Nat) (s' : FpeSt)
    (h : ff1DecryptRound ctx lg n s i = some s') : s'.out.length = s.out.length := by
  unfold ff1DecryptRound at h
  simp only [Option.bind_eq_some_iff, Option.some.injEq] at h
  obtain ⟨_, _, _, _, _, _, t, ht, o, ho, rfl⟩ := h
  rw [length_wrDigits ho, swapPtrs_out ht]

theorem ff3EncryptRound_length (ctx : FpeCtx) (lg : Nat → Nat → Nat) (n : Nat) (s : FpeSt) (i : Nat) (s' : FpeSt)
    (h : ff3EncryptRound ctx lg n s i = some s') : s'.out.length = s.out.length := by
  unfold ff3EncryptRound at h
  simp only [Option.bind_eq_some_iff, Option.some.injEq] at h
  obtain ⟨_, _, _, _, _, _, t, ht, o, ho, rfl⟩ := h
  rw [length_wrDigits ho, swapPtrs_out ht]

theorem ff3DecryptRound_length (ctx : FpeCtx) (lg : Nat → Nat → Nat) (n : Nat) (s : FpeSt) (i : Nat) (s' : FpeSt)
    (h : ff3DecryptRound ctx lg n s i = some s') : s'.out.length = s.out.length := by
  unfold ff3DecryptRound at h
  simp only [Option.bind_eq_some_iff, Option.some.injEq] at h
  obtain ⟨_, _, _, _, _, _, t, ht, o, ho, rfl⟩ := h
  rw [length_wrDigits ho, swapPtrs_out ht]

/-- An output buffer without room for the terminator is written out of bounds, by all four functions. -/
theorem no_room (ctx : FpeCtx) (lg : Nat → Nat → Nat) (s rest out : List Byte) (h0 : ∀ c ∈ s, c ≠ 0)
    (ho : out.length ≤ s.length) :
    ff1Encrypt ctx lg (s ++ 0 :: rest) out = none ∧ ff1Decrypt ctx lg (s ++ 0 :: rest) out = none ∧
    ff3Encrypt ctx lg (s ++ 0 :: rest) out = none ∧ ff3Decrypt ctx lg (s ++ 0 :: rest) out = none := by
  have hl : ∀ u, out.length ≤ (fpeStart (s.map mapChar) u).out.length := fun u => by
    simp only [fpeStart, List.length_map]; exact ho
  unfold ff1Encrypt ff1Decrypt ff3Encrypt ff3Decrypt
  rw [cstr_append s rest h0]
  simp only [Option.bind_some]
  have hb : ∀ {α : Type} (x : Option Unit) (f : Option α), f = none → (x.bind fun _ => f) = none :=
    fun x f hf => by cases x <;> simp [hf]
  exact ⟨hb _ _ (tail_none (ff1EncryptRound_length ctx lg s.length) _ _ _ (hl _)),
    hb _ _ (tail_none (ff1DecryptRound_length ctx lg s.length) _ _ _ (hl _)),
    tail_none (ff3EncryptRound_length ctx lg s.length) _ _ _ (hl _),
    tail_none (ff3DecryptRound_length ctx lg s.length) _ _ _ (hl _)⟩

theorem engine_no_room (app : FpeApp) (ctx : FpeCtx) (lg : Nat → Nat → Nat) (s rest out : List Byte)
    (h0 : ∀ c ∈ s, c ≠ 0) (ho : out.length ≤ s.length) :
    encFn app lg ctx (s ++ 0 :: rest) out = none ∧ decFn app lg ctx (s ++ 0 :: rest) out = none := by
  obtain ⟨h1, h2, h3, h4⟩ := no_room ctx lg s rest out h0 ho
  unfold encFn decFn
  cases app.ffx
  · exact ⟨h1, h2⟩
  · exact ⟨h3, h4⟩

/-! ### Masks -/

section Mask
variable {α : Type}

theorem pick_append (b : Bool) : ∀ (ms : List Bool) (xs : List α) (ms' : List Bool) (xs' : List α),
    ms.length = xs.length → pick b (ms ++ ms') (xs ++ xs') = pick b ms xs ++ pick b ms' xs' := by
  intro ms
  induction ms with
  | nil => intro xs ms' xs' h; cases xs with
    | nil => rfl
    | cons x xs => simp at h
  | cons m ms ih =>
    intro xs ms' xs' h
    cases xs with
    | nil => simp at h
    | cons x xs =>
      simp only [List.cons_append, pick]
      rw [ih xs ms' xs' (by simpa using h)]
      split <;> rfl

theorem length_pick (b : Bool) : ∀ (ms : List Bool) (xs : List α), ms.length = xs.length →
    (pick b ms xs).length = ms.count b := by
  intro ms
  induction ms with
  | nil => intro xs _; rfl
  | cons m ms ih =>
    intro xs h
    cases xs with
    | nil => simp at h
    | cons x xs =>
      have := ih xs (by simpa using h)
      simp only [pick]
      by_cases hm : m = b
      · rw [if_pos hm, List.length_cons, this, hm, List.count_cons_self]
      · rw [if_neg hm, this, List.count_cons_of_ne (fun e => hm e)]

theorem mem_pick (b : Bool) : ∀ (ms : List Bool) (xs : List α) (x : α), x ∈ pick b ms xs → x ∈ xs := by
  intro ms
  induction ms with
  | nil => intro xs x h; simp [pick] at h
  | cons m ms ih =>
    intro xs x h
    cases xs with
    | nil => simp [pick] at h
    | cons y xs =>
      simp only [pick] at h
      split at h
      · rcases List.mem_cons.mp h with rfl | h
        · exact List.mem_cons_self
        · exact List.mem_cons_of_mem _ (ih xs x h)
      · exact List.mem_cons_of_mem _ (ih xs x h)

theorem mem_pick_getElem (b : Bool) : ∀ (ms : List Bool) (xs : List α) (i : Nat) (h1 : i < ms.length) (h2 : i < xs.length),
    ms[i] = b → xs[i] ∈ pick b ms xs := by
  intro ms
  induction ms with
  | nil => intro xs i h1; simp at h1
  | cons m ms ih =>
    intro xs i h1 h2 e
    cases xs with
    | nil => simp at h2
    | cons y xs =>
      cases i with
      | zero =>
        simp only [List.getElem_cons_zero] at e ⊢
        simp only [pick, if_pos e]
        exact List.mem_cons_self
      | succ i =>
        simp only [List.getElem_cons_succ] at e ⊢
        have := ih xs i (by simpa using h1) (by simpa using h2) e
        simp only [pick]
        split
        · exact List.mem_cons_of_mem _ this
        · exact this

theorem count_flags (ms : List Bool) : ms.count true + ms.count false = ms.length := by
  induction ms with
  | nil => rfl
  | cons m ms ih => cases m <;> simp <;> omega

theorem length_fill : ∀ (ms : List Bool) (xs r : List α), ms.length = xs.length → ms.count false ≤ r.length →
    (fill ms xs r).length = xs.length := by
  intro ms
  induction ms with
  | nil => intro xs r h _; cases xs with
    | nil => rfl
    | cons x xs => simp at h
  | cons m ms ih =>
    intro xs r h hr
    cases xs with
    | nil => simp at h
    | cons x xs =>
      have h' : ms.length = xs.length := by simpa using h
      cases m with
      | true => simp only [fill, List.length_cons]; rw [ih xs r h' (by simpa using hr)]
      | false =>
        cases r with
        | nil => simp at hr
        | cons y r => simp only [fill, List.length_cons]; rw [ih xs r h' (by simpa using hr)]

theorem fill_snoc : ∀ (ms : List Bool) (xs r : List α) (m : Bool) (x : α), ms.length = xs.length →
    (hr : ms.count false < r.length) →
    fill (ms ++ [m]) (xs ++ [x]) r = fill ms xs r ++ [if m then x else r[ms.count false]] := by
  intro ms
  induction ms with
  | nil =>
    intro xs r m x h hr
    cases xs with
    | nil =>
      cases r with
      | nil => simp at hr
      | cons y r => cases m <;> rfl
    | cons x xs => simp at h
  | cons m' ms ih =>
    intro xs r m x h hr
    cases xs with
    | nil => simp at h
    | cons y xs =>
      have h' : ms.length = xs.length := by simpa using h
      cases m' with
      | true =>
        simp only [List.cons_append, fill]
        rw [ih xs r m x h' (by simpa using hr)]
        simp
      | false =>
        cases r with
        | nil => simp at hr
        | cons z r =>
          simp only [List.cons_append, fill]
          rw [ih xs r m x h' (by simpa using hr)]
          simp

theorem fill_snoc_true (ms : List Bool) (xs r : List α) (x : α) (h : ms.length = xs.length)
    (hr : ms.count false ≤ r.length) : fill (ms ++ [true]) (xs ++ [x]) r = fill ms xs r ++ [x] := by
  revert xs r
  induction ms with
  | nil =>
    intro xs r h _
    cases xs with
    | nil => rfl
    | cons x xs => simp at h
  | cons m' ms ih =>
    intro xs r h hr
    cases xs with
    | nil => simp at h
    | cons y xs =>
      have h' : ms.length = xs.length := by simpa using h
      cases m' with
      | true => simp only [List.cons_append, fill]; rw [ih xs r h' (by simpa using hr)]
      | false =>
        cases r with
        | nil => simp at hr
        | cons z r => simp only [List.cons_append, fill]; rw [ih xs r h' (by simpa using hr)]

theorem pick_true_fill : ∀ (ms : List Bool) (xs r : List α), ms.length = xs.length → ms.count false ≤ r.length →
    pick true ms (fill ms xs r) = pick true ms xs := by
  intro ms
  induction ms with
  | nil => intro xs r _ _; rfl
  | cons m ms ih =>
    intro xs r h hr
    cases xs with
    | nil => simp at h
    | cons x xs =>
      have h' : ms.length = xs.length := by simpa using h
      cases m with
      | true => simp only [fill, pick, if_true]; rw [ih xs r h' (by simpa using hr)]
      | false =>
        cases r with
        | nil => simp at hr
        | cons y r => simp only [fill, pick]; exact ih xs r h' (by simpa using hr)

theorem pick_false_fill : ∀ (ms : List Bool) (xs r : List α), ms.length = xs.length → ms.count false = r.length →
    pick false ms (fill ms xs r) = r := by
  intro ms
  induction ms with
  | nil => intro xs r _ hr; cases r with
    | nil => rfl
    | cons y r => simp at hr
  | cons m ms ih =>
    intro xs r h hr
    cases xs with
    | nil => simp at h
    | cons x xs =>
      have h' : ms.length = xs.length := by simpa using h
      cases m with
      | true => simp only [fill, pick]; exact ih xs r h' (by simpa using hr)
      | false =>
        cases r with
        | nil => simp at hr
        | cons y r => simp only [fill, pick, if_true]; rw [ih xs r h' (by simpa using hr)]

theorem fill_fill : ∀ (ms : List Bool) (xs r : List α), ms.length = xs.length → ms.count false ≤ r.length →
    fill ms (fill ms xs r) (pick false ms xs) = xs := by
  intro ms
  induction ms with
  | nil => intro xs r h _; cases xs with
    | nil => rfl
    | cons x xs => simp at h
  | cons m ms ih =>
    intro xs r h hr
    cases xs with
    | nil => simp at h
    | cons x xs =>
      have h' : ms.length = xs.length := by simpa using h
      cases m with
      | true =>
        have := ih xs r h' (by simpa using hr)
        simp only [fill, pick]
        rw [if_neg (by decide), this]
      | false =>
        cases r with
        | nil => simp at hr
        | cons y r => simp only [fill, pick, if_true]; rw [ih xs r h' (by simpa using hr)]

theorem fill_getElem (ms : List Bool) : ∀ (xs r : List α) (i : Nat) (h1 : i < ms.length) (h2 : i < xs.length)
    (h3 : i < (fill ms xs r).length),
    (ms[i] = true → (fill ms xs r)[i] = xs[i]) ∧ (ms[i] = false → (fill ms xs r)[i] ∈ r) := by
  induction ms with
  | nil => intro xs r i h1; simp at h1
  | cons m ms ih =>
    intro xs r i h1 h2 h3
    cases xs with
    | nil => simp at h2
    | cons x xs =>
      cases m with
      | true =>
        cases i with
        | zero => simp [fill]
        | succ i =>
          simp only [fill, List.getElem_cons_succ]
          exact ih xs r i (by simpa using h1) (by simpa using h2) (by simpa [fill] using h3)
      | false =>
        cases r with
        | nil => simp [fill] at h3
        | cons y r =>
          cases i with
          | zero => simp [fill]
          | succ i =>
            simp only [fill, List.getElem_cons_succ]
            have := ih xs r i (by simpa using h1) (by simpa using h2) (by simpa [fill] using h3)
            exact ⟨this.1, fun e => List.mem_cons_of_mem _ (this.2 e)⟩

end Mask

/-! ### Loops -/

theorem foldlM_range {S : Type} (g : S → Nat → Option S) (st : Nat → S) (n : Nat)
    (h : ∀ i, i < n → g (st i) i = some (st (i + 1))) : (List.range n).foldlM g (st 0) = some (st n) := by
  induction n with
  | zero => rfl
  | succ n ih =>
    rw [List.range_succ, List.foldlM_append, ih (fun i hi => h i (by omega))]
    simp only [Option.bind_eq_bind, Option.bind_some, List.foldlM_cons, List.foldlM_nil]
    rw [h n (by omega)]
    rfl

/-- The first bytes of a buffer replaced. -/
def over (xs base : List Byte) : List Byte := xs ++ base.drop xs.length

theorem wrByte_over (xs base : List Byte) (c : Byte) (h : xs.length < base.length) :
    wrByte (over xs base) xs.length c = some (over (xs ++ [c]) base) := by
  unfold wrByte over
  rw [if_pos (by simp; omega)]
  rw [List.set_append_right _ _ (Nat.le_refl _), Nat.sub_self, List.drop_eq_getElem_cons h, List.set_cons_zero]
  simp only [List.length_append, List.length_cons, List.length_nil, List.append_assoc, List.cons_append,
    List.nil_append, Nat.zero_add]

theorem over_nil (base : List Byte) : over [] base = base := rfl

theorem length_vla (f : Nat → Byte) (n : Nat) : (vla f n).length = n := by simp [vla]

theorem take_snoc {α : Type} (xs : List α) (i : Nat) (h : i < xs.length) : xs.take (i + 1) = xs.take i ++ [xs[i]] :=
  (List.take_append_getElem h).symm

/-- The flags that `maskShown` computes for a text of `mask.length` characters. -/
def MaskIs (sample : List Byte) (mask : List Bool) : Prop :=
  ∀ i (h : i < mask.length), maskShown sample i = some mask[i]

theorem rdByte_append (xs ys : List Byte) (i : Nat) (h : i < xs.length) : rdByte (xs ++ ys) i = some xs[i] := by
  unfold rdByte
  rw [List.getElem?_append_left h, List.getElem?_eq_getElem h]

/-- The state of the splitting loop after `i` steps. -/
def splitAt' (mask : List Bool) (text tw inp : List Byte) (i : Nat) : SplitSt :=
  ⟨over (pick true (mask.take i) (text.take i)) tw, over (pick false (mask.take i) (text.take i)) inp,
    (pick true (mask.take i) (text.take i)).length, (pick false (mask.take i) (text.take i)).length⟩

theorem count_take_le (b : Bool) (mask : List Bool) (i : Nat) : (mask.take i).count b ≤ mask.count b :=
  (List.take_sublist i mask).count_le b

theorem count_take_lt (mask : List Bool) (i : Nat) (h : i < mask.length) :
    (mask.take i).count mask[i] < mask.count mask[i] := by
  have h1 := count_take_le mask[i] mask (i + 1)
  rw [take_snoc mask i h, List.count_append, List.count_singleton_self] at h1
  omega

theorem split_loop (text more sample : List Byte) (mask : List Bool) (hl : mask.length = text.length)
    (hm : MaskIs sample mask) (tw inp : List Byte) (ht : mask.count true ≤ tw.length) (hi : mask.count false ≤ inp.length) :
    (List.range text.length).foldlM (splitStep (text ++ more) sample) ⟨tw, inp, 0, 0⟩ =
      some ⟨over (pick true mask text) tw, over (pick false mask text) inp, mask.count true, mask.count false⟩ := by
  have key := foldlM_range (splitStep (text ++ more) sample) (splitAt' mask text tw inp) text.length ?_
  · have e0 : splitAt' mask text tw inp 0 = ⟨tw, inp, 0, 0⟩ := by simp [splitAt', pick, over]
    have e1 : splitAt' mask text tw inp text.length =
        ⟨over (pick true mask text) tw, over (pick false mask text) inp, mask.count true, mask.count false⟩ := by
      unfold splitAt'
      rw [List.take_of_length_le (Nat.le_of_eq hl), List.take_of_length_le (Nat.le_refl _), length_pick _ _ _ hl,
        length_pick _ _ _ hl]
    rw [e0, e1] at key
    exact key
  · intro i hi'
    have hi2 : i < mask.length := by omega
    have hlt : (mask.take i).length = (text.take i).length := by simp; omega
    have hlt' : (mask.take (i + 1)).length = (text.take (i + 1)).length := by simp; omega
    unfold splitStep
    rw [hm i hi2, rdByte_append text more i hi']
    simp only [Option.bind_some]
    have ep : ∀ b, pick b (mask.take (i + 1)) (text.take (i + 1)) =
        pick b (mask.take i) (text.take i) ++ if mask[i] = b then [text[i]] else [] := by
      intro b
      rw [take_snoc mask i hi2, take_snoc text i hi', pick_append b _ _ _ _ hlt]
      congr 1
    have hc := count_take_lt mask i hi2
    cases hmi : mask[i] with
    | true =>
      rw [hmi] at hc
      rw [if_pos rfl]
      have e1 := ep true
      have e2 := ep false
      rw [hmi, if_pos rfl] at e1
      rw [hmi, if_neg (by decide), List.append_nil] at e2
      have hlen : (pick true (mask.take i) (text.take i)).length < tw.length := by
        rw [length_pick _ _ _ hlt]; omega
      simp only [splitAt']
      rw [wrByte_over _ _ _ hlen, e1, e2]
      simp
    | false =>
      rw [hmi] at hc
      rw [if_neg (by decide)]
      have e1 := ep true
      have e2 := ep false
      rw [hmi, if_pos rfl] at e2
      rw [hmi, if_neg (by decide), List.append_nil] at e1
      have hlen : (pick false (mask.take i) (text.take i)).length < inp.length := by
        rw [length_pick _ _ _ hlt]; omega
      simp only [splitAt']
      rw [wrByte_over _ _ _ hlen, e1, e2]
      simp

theorem merge_loop (text more sample : List Byte) (mask : List Bool) (hl : mask.length = text.length)
    (hm : MaskIs sample mask) (r more' after : List Byte) (hr : r.length = mask.count false)
    (ha : text.length ≤ after.length) :
    (List.range text.length).foldlM (mergeStep (text ++ more) sample (r ++ more')) (after, 0) =
      some (over (fill mask text r) after, mask.count false) := by
  have key := foldlM_range (mergeStep (text ++ more) sample (r ++ more'))
    (fun i => (over (fill (mask.take i) (text.take i) r) after, (mask.take i).count false)) text.length ?_
  · have e1 : mask.take text.length = mask := List.take_of_length_le (Nat.le_of_eq hl)
    have e2 : text.take text.length = text := List.take_of_length_le (Nat.le_refl _)
    simp only [e1, e2] at key
    rw [← key]
    simp [fill, over]
  · intro i hi
    have hi2 : i < mask.length := by omega
    have hlt : (mask.take i).length = (text.take i).length := by simp; omega
    have hle := count_take_le false mask i
    have hlf : (fill (mask.take i) (text.take i) r).length = i := by
      rw [length_fill _ _ _ hlt (by omega), List.length_take]; omega
    unfold mergeStep
    rw [hm i hi2]
    simp only [Option.bind_some]
    have hc := count_take_lt mask i hi2
    have hw := fun c => wrByte_over (fill (mask.take i) (text.take i) r) after c (by omega)
    rw [hlf] at hw
    cases hmi : mask[i] with
    | true =>
      rw [if_pos rfl, rdByte_append text more i hi]
      simp only [Option.bind_some]
      rw [hw, take_snoc mask i hi2, take_snoc text i hi, hmi, fill_snoc_true _ _ _ _ hlt (by omega)]
      simp
    | false =>
      rw [hmi] at hc
      have hj : (mask.take i).count false < r.length := by omega
      rw [if_neg (by decide), rdByte_append r more' _ hj]
      simp only [Option.bind_some]
      rw [hw, take_snoc mask i hi2, take_snoc text i hi, hmi, fill_snoc _ _ _ _ _ hlt hj]
      simp

/-! ### Samples -/

theorem maskOf_length (smp : List Byte) (len : Nat) (h : smp = [] ∨ len ≤ smp.length) : (maskOf smp len).length = len := by
  unfold maskOf
  split
  · simp
  · rcases h with h | h
    · contradiction
    · simp; omega

theorem rdByte_zero_cons (c : Byte) (xs : List Byte) : rdByte (c :: xs) 0 = some c := rfl

theorem maskIs_maskOf (smp more : List Byte) (h0 : ∀ c ∈ smp, c ≠ 0) (len : Nat) (h : smp = [] ∨ len ≤ smp.length) :
    MaskIs (smp ++ 0 :: more) (maskOf smp len) := by
  intro i hi
  have hi' := hi
  rw [maskOf_length smp len h] at hi'
  unfold maskShown
  cases smp with
  | nil =>
    rw [List.nil_append, rdByte_zero_cons]
    simp [maskOf]
  | cons c smp =>
    have hl : len ≤ (c :: smp).length := by rcases h with h | h; cases h; exact h
    have hil : i < (c :: smp).length := by omega
    rw [show rdByte (c :: smp ++ 0 :: more) 0 = some c from rfl, rdByte_append (c :: smp) _ i hil]
    simp only [Option.bind_some]
    rw [if_neg (h0 c List.mem_cons_self)]
    have e : maskOf (c :: smp) len = ((c :: smp).take len).map fun c => c != 0x2a := if_neg (by simp)
    simp only [e, List.getElem_map, List.getElem_take]

theorem maskCount_eq (smp more : List Byte) (h0 : ∀ c ∈ smp, c ≠ 0) (len : Nat) (h : smp = [] ∨ len ≤ smp.length) :
    maskCount (smp ++ 0 :: more) len = some ((maskOf smp len).count true) := by
  unfold maskCount
  cases smp with
  | nil =>
    rw [List.nil_append, rdByte_zero_cons]
    simp [maskOf, List.count_replicate]
  | cons c smp =>
    have hl : len ≤ (c :: smp).length := by rcases h with h | h; cases h; exact h
    rw [show rdByte (c :: smp ++ 0 :: more) 0 = some c from rfl]
    simp only [Option.bind_some]
    rw [if_neg (h0 c List.mem_cons_self)]
    have key := foldlM_range (fun t i => (rdByte (c :: smp ++ 0 :: more) i).bind fun c =>
      some (if c != 0x2a then t + 1 else t)) (fun i => (maskOf (c :: smp) i).count true) len ?_
    · have e0 : (maskOf (c :: smp) 0).count true = 0 := by simp [maskOf]
      rw [e0] at key
      exact key
    · intro i hi
      have hil : i < (c :: smp).length := by omega
      rw [rdByte_append (c :: smp) _ i hil]
      have e : ∀ k, maskOf (c :: smp) k = ((c :: smp).take k).map fun c => c != 0x2a := fun k => if_neg (by simp)
      simp only [Option.bind_some, e]
      rw [take_snoc _ i hil, List.map_append, List.count_append]
      congr 1
      simp only [List.map_cons, List.map_nil]
      cases ((c :: smp)[i] != 0x2a) <;> simp

end Verif
