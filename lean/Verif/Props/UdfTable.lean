import Mathlib.Data.List.Nodup
import Mathlib.Data.List.Perm.Subperm
import Verif.Props.Udf

/-! Property C147: what a column encrypted by the MySQL function keeps, and that whoever may call the function can undo it. -/
set_option autoImplicit false

namespace Verif.Props
open Verif Spec Model

/-! ### Repeated calls -/

/-- `n` calls, each on the result of the one before. -/
def repeated {α : Type} (call : Nat → α → Option α) : Nat → α → Option α
  | 0, x => some x
  | n + 1, x => (repeated call n x).bind (call n)

theorem walk {α : Type} (F : α → α) (S : List α) (hc : ∀ x ∈ S, F x ∈ S) (hi : ∀ x ∈ S, ∀ y ∈ S, F x = F y → x = y)
    (x : α) (hx : x ∈ S) : ∃ n, n + 1 ≤ S.length ∧ F^[n + 1] x = x := by
  have hin : ∀ n, F^[n] x ∈ S := by
    intro n
    induction n with
    | zero => exact hx
    | succ n ih => rw [Function.iterate_succ_apply']; exact hc _ ih
  have hback : ∀ i d, F^[i] x = F^[i + d] x → F^[d] x = x := by
    intro i
    induction i with
    | zero => intro d h; rw [Nat.zero_add] at h; exact h.symm
    | succ i ih =>
      intro d h
      rw [Nat.add_right_comm, Function.iterate_succ_apply', Function.iterate_succ_apply'] at h
      exact ih d (hi _ (hin _) _ (hin _) h)
  by_contra hno
  have hnd : ((List.range (S.length + 1)).map fun n => F^[n] x).Nodup := by
    have key : ∀ a b, a < b → b < S.length + 1 → F^[a] x = F^[b] x → False := by
      intro a b hab hb e
      refine hno ⟨b - a - 1, by omega, ?_⟩
      have hd := hback a (b - a) (by rw [show a + (b - a) = b by omega]; exact e)
      rw [show b - a - 1 + 1 = b - a by omega]
      exact hd
    refine List.Nodup.map_on ?_ List.nodup_range
    intro a ha b hb e
    rw [List.mem_range] at ha hb
    rcases Nat.lt_trichotomy a b with h | h | h
    · exact (key a b h hb e).elim
    · exact h
    · exact (key b a h ha e.symm).elim
  have hle := (hnd.subperm (l₂ := S) (by
    intro y hy
    obtain ⟨n, -, rfl⟩ := List.mem_map.1 hy
    exact hin n)).length_le
  rw [List.length_map, List.length_range] at hle
  omega

/-- A function on a finite set with a left inverse, called in any memory, leads back to its argument. -/
theorem walk_calls {ε α : Type} (fit : ε → Prop) (call : ε → α → Option α) (D : α → Option α) (S : List α)
    (h : ∀ x ∈ S, ∃ y ∈ S, (∀ e, fit e → call e x = some y) ∧ D y = some x) (x : α) (hx : x ∈ S) :
    ∃ n, n + 1 ≤ S.length ∧ ∀ env : Nat → ε, (∀ i, fit (env i)) → repeated (fun i => call (env i)) (n + 1) x = some x := by
  classical
  let F : α → α := fun x => if hx : x ∈ S then (h x hx).choose else x
  have hF : ∀ x (hx : x ∈ S), F x = (h x hx).choose := fun x hx => dif_pos hx
  have hs : ∀ x ∈ S, F x ∈ S ∧ (∀ e, fit e → call e x = some (F x)) ∧ D (F x) = some x := by
    intro x hx
    rw [hF x hx]
    exact (h x hx).choose_spec
  obtain ⟨n, hn, he⟩ := walk F S (fun x hx => (hs x hx).1) (fun x hx y hy e => by
    have a := (hs x hx).2.2
    rw [e, (hs y hy).2.2] at a
    exact (Option.some.inj a).symm) x hx
  refine ⟨n, hn, fun env hfit => ?_⟩
  have hr : ∀ m, F^[m] x ∈ S ∧ repeated (fun i => call (env i)) m x = some (F^[m] x) := by
    intro m
    induction m with
    | zero => exact ⟨hx, rfl⟩
    | succ m ih =>
      rw [Function.iterate_succ_apply']
      refine ⟨(hs _ ih.1).1, ?_⟩
      rw [repeated, ih.2, Option.bind_some, (hs _ ih.1).2.1 _ (hfit m)]
  rw [(hr (n + 1)).2, he]

/-! ### The texts that agree with a given one where the mask shows it -/

/-- The variants of a text: any of `choices` where the mask is `false`. -/
def variants {β : Type} (choices : List β) : List Bool → List β → List (List β)
  | m :: mask, c :: l =>
    if m then (variants choices mask l).map (c :: ·) else choices.flatMap fun d => (variants choices mask l).map (d :: ·)
  | _, _ => [[]]

theorem length_variants {β : Type} (choices : List β) (mask : List Bool) (l : List β) (h : mask.length = l.length) :
    (variants choices mask l).length = choices.length ^ mask.count false := by
  induction mask generalizing l with
  | nil => simp [variants]
  | cons m mask ih =>
    cases l with
    | nil => simp at h
    | cons c l =>
      have h' : mask.length = l.length := by simpa using h
      unfold variants
      cases m
      · have hsum : ∀ cs : List β, (cs.flatMap fun d => (variants choices mask l).map (d :: ·)).length =
            cs.length * choices.length ^ mask.count false := by
          intro cs
          induction cs with
          | nil => simp
          | cons a cs ihc => rw [List.flatMap_cons, List.length_append, ihc, List.length_map, ih l h', List.length_cons]; ring
        rw [if_neg (by simp), hsum, List.count_cons_self, pow_succ, Nat.mul_comm]
      · rw [if_pos rfl, List.length_map, ih l h', List.count_cons_of_ne (by decide)]

theorem mem_variants {β : Type} (choices : List β) (mask : List Bool) (l o : List β) (h : mask.length = l.length) :
    o ∈ variants choices mask l ↔ o.length = l.length ∧ (∀ i : Nat, mask[i]? = some true → o[i]? = l[i]?) ∧
      ∀ (i : Nat) (c : β), mask[i]? = some false → o[i]? = some c → c ∈ choices := by
  induction mask generalizing l o with
  | nil =>
    have hl : l = [] := by
      cases l with
      | nil => rfl
      | cons c l => simp at h
    subst hl
    simp [variants]
  | cons m mask ih =>
    cases l with
    | nil => simp at h
    | cons c l =>
      have h' : mask.length = l.length := by simpa using h
      have step : ∀ d t, (d :: t).length = (c :: l).length ∧ (∀ i : Nat, (m :: mask)[i]? = some true → (d :: t)[i]? = (c :: l)[i]?) ∧
          (∀ (i : Nat) (a : β), (m :: mask)[i]? = some false → (d :: t)[i]? = some a → a ∈ choices) ↔
          ((m = true → d = c) ∧ (m = false → d ∈ choices)) ∧ t ∈ variants choices mask l := by
        intro d t
        rw [ih l t h']
        constructor
        · rintro ⟨a, b, e⟩
          refine ⟨⟨fun hm => ?_, fun hm => ?_⟩, by simpa using a, fun i hi => ?_, fun i a hi ha => ?_⟩
          · simpa using b 0 (by simp [hm])
          · exact e 0 d (by simp [hm]) (by simp)
          · simpa using b (i + 1) (by simpa using hi)
          · exact e (i + 1) a (by simpa using hi) (by simpa using ha)
        · rintro ⟨⟨p, q⟩, a, b, e⟩
          refine ⟨by simpa using a, fun i hi => ?_, fun i x hi hx => ?_⟩
          · cases i with
            | zero => simp at hi; simp [p hi]
            | succ i => simpa using b i (by simpa using hi)
          · cases i with
            | zero => simp at hi hx; subst hx; exact q hi
            | succ i => exact e i x (by simpa using hi) (by simpa using hx)
      cases o with
      | nil =>
        constructor
        · intro ho
          unfold variants at ho
          split at ho <;> simp at ho
        · rintro ⟨a, -⟩
          simp at a
      | cons d t =>
        rw [step d t]
        conv_lhs => unfold variants
        cases m
        · simp [List.mem_flatMap]
        · simp [List.mem_map, eq_comm, and_comm]

/-- The ten digits. -/
def digitChars : List Byte := (List.range 10).map fun n => BitVec.ofNat 8 (48 + n)

theorem mem_digitChars (c : Byte) : c ∈ digitChars ↔ IsNumeral 10 c := by
  unfold digitChars IsNumeral
  rw [List.mem_map]
  constructor
  · rintro ⟨n, hn, rfl⟩
    rw [List.mem_range] at hn
    rw [BitVec.toNat_ofNat]
    omega
  · intro h
    refine ⟨c.toNat - 48, by rw [List.mem_range]; omega, ?_⟩
    apply BitVec.eq_of_toNat_eq
    rw [BitVec.toNat_ofNat]
    omega

/-- The characters of names and addresses. -/
def hanChars : List Nat := (List.range 20736).map (0x4E00 + ·)

theorem mem_hanChars (cp : Nat) : cp ∈ hanChars ↔ InCnRange cp := by
  unfold hanChars InCnRange
  rw [List.mem_map]
  constructor
  · rintro ⟨n, hn, rfl⟩
    rw [List.mem_range] at hn
    omega
  · intro h
    exact ⟨cp - 0x4E00, by rw [List.mem_range]; omega, by omega⟩

theorem maskOf_shown (smp : List Byte) (len i : Nat) (hi : i < len) (hs : smp = [] ∨ len ≤ smp.length) :
    ((maskOf smp len)[i]? = some true ↔ ¬ Hidden smp i) ∧ ((maskOf smp len)[i]? = some false ↔ Hidden smp i) := by
  unfold maskOf Hidden
  by_cases h : smp = []
  · subst h
    simp [hi]
  · have hl : len ≤ smp.length := by rcases hs with h' | h' <;> [exact absurd h' h; exact h']
    rw [if_neg h, List.getElem?_map, List.getElem?_take_of_lt hi, List.getElem?_eq_getElem (by omega : i < smp.length)]
    simp [h]

theorem mem_digits (smp l o : List Byte) (hs : smp = [] ∨ l.length ≤ smp.length) :
    o ∈ variants digitChars (maskOf smp l.length) l ↔ o.length = l.length ∧ (∀ i, ¬ Hidden smp i → o[i]? = l[i]?) ∧
      ∀ i (hi : i < o.length), Hidden smp i → IsNumeral 10 o[i] := by
  have hm := maskOf_length smp l.length hs
  rw [mem_variants _ _ _ _ hm]
  constructor
  · rintro ⟨a, b, c⟩
    refine ⟨a, fun i hi => ?_, fun i hi hh => ?_⟩
    · by_cases hil : i < l.length
      · exact b i ((maskOf_shown smp _ i hil hs).1.2 hi)
      · rw [List.getElem?_eq_none (by omega), List.getElem?_eq_none (by omega)]
    · exact (mem_digitChars _).1 (c i o[i] ((maskOf_shown smp _ i (by omega) hs).2.2 hh) (List.getElem?_eq_getElem hi))
  · rintro ⟨a, b, c⟩
    refine ⟨a, fun i hi => ?_, fun i x hi hx => ?_⟩
    · have hil : i < l.length := by
        obtain ⟨h', -⟩ := List.getElem?_eq_some_iff.1 hi
        omega
      exact b i ((maskOf_shown smp _ i hil hs).1.1 hi)
    · obtain ⟨h', rfl⟩ := List.getElem?_eq_some_iff.1 hx
      exact (mem_digitChars _).2 (c i h' ((maskOf_shown smp _ i (by omega) hs).2.1 hi))

/-- A variant of digits has only digits. -/
theorem digits_all (smp l o : List Byte) (hd : ∀ c ∈ l, IsNumeral 10 c) (ho : o.length = l.length)
    (hv : ∀ i, ¬ Hidden smp i → o[i]? = l[i]?) (hn : ∀ i (hi : i < o.length), Hidden smp i → IsNumeral 10 o[i]) :
    ∀ c ∈ o, IsNumeral 10 c := by
  intro c hc
  obtain ⟨i, hi, rfl⟩ := List.getElem_of_mem hc
  by_cases h : Hidden smp i
  · exact hn i hi h
  · have e := hv i h
    rw [List.getElem?_eq_getElem hi, List.getElem?_eq_getElem (by omega)] at e
    rw [Option.some.inj e]
    exact hd _ (List.getElem_mem _)

/-! ### One call of the function -/

/-- Everything a call of `fpe` finds besides its text, its mode and its sample: the version, the memory behind the arguments, the
buffers and their sizes. -/
structure FpeEnv where
  v8 : Bool
  imem : AppInitMem
  amem : AppMem
  resCap : Nat
  errCap : Nat
  modeLen : Nat
  ptr : List Byte
  rest : List Byte
  modeRest : List Byte
  more : List Byte

/-- The buffers suffice for a text of `n` bytes. -/
def FpeEnv.Fits (n : Nat) (e : FpeEnv) : Prop := 1 ≤ e.amem.slack ∧ n < e.ptr.length ∧ n ≤ e.resCap

/-- `fpe(x, mode)` or `fpe(x, mode, smp)` in SQL: the value of the column, or `none` if the call is undefined or gives `NULL`. -/
def FpeEnv.call (lg : Nat → Nat → Nat) (mode : String) (smp : List Byte) (e : FpeEnv) (x : List Byte) : Option (List Byte) :=
  match udfCall e.v8 e.imem lg e.amem e.resCap e.errCap e.ptr ⟨some (x ++ 0 :: e.rest), x.length⟩
    ⟨some (lit mode ++ e.modeRest), e.modeLen⟩ (if smp = [] then none else some ⟨some (smp ++ 0 :: e.more), x.length⟩) with
  | some (.value b) => some b
  | _ => none

theorem sampleArg_call (smp more : List Byte) (n : Nat) :
    SampleArg (if smp = [] then none else some ⟨some (smp ++ 0 :: more), n⟩) smp n := by
  by_cases h : smp = []
  · rw [if_pos h]; exact .inl ⟨h, rfl⟩
  · rw [if_neg h]; exact .inr ⟨more, h, rfl⟩

theorem call_value (lg : Nat → Nat → Nat) (mode : String) (smp : List Byte) (e : FpeEnv) (x o : List Byte)
    (h : udfCall e.v8 e.imem lg e.amem e.resCap e.errCap e.ptr ⟨some (x ++ 0 :: e.rest), x.length⟩
      ⟨some (lit mode ++ e.modeRest), e.modeLen⟩ (if smp = [] then none else some ⟨some (smp ++ 0 :: e.more), x.length⟩) =
        some (.value o)) : e.call lg mode smp x = some o := by
  unfold FpeEnv.call
  rw [h]

/-- A memory in which the decryption functions are defined. -/
def anyMem : AppMem := ⟨fun _ => 0, fun _ => 0, fun _ => 0, 1⟩

/-- The bytes of a column are the values of the calls on its rows; each row has its own memory. -/
def column (call : FpeEnv → List Byte → Option (List Byte)) (env : Nat → FpeEnv) (rows : List (List Byte)) :
    List (Option (List Byte)) := rows.mapIdx fun i x => call (env i) x

/-- A function with a left inverse on the rows keeps which rows are equal, and how often each value occurs. -/
theorem column_count {n : Nat} (call : FpeEnv → List Byte → Option (List Byte)) (D : List Byte → Option (List Byte))
    (P : List Byte → Prop) (h : ∀ x, P x → ∃ y, (∀ e, FpeEnv.Fits n e → call e x = some y) ∧ D y = some x)
    (rows : List (List Byte)) (hr : ∀ x ∈ rows, P x) (x : List Byte) (hx : P x) (e : FpeEnv) (he : e.Fits n) (env : Nat → FpeEnv)
    (henv : ∀ i, (env i).Fits n) : (column call env rows).count (call e x) = rows.count x := by
  unfold column
  induction rows generalizing env with
  | nil => rfl
  | cons a rows ih =>
    rw [List.mapIdx_cons, List.count_cons, List.count_cons, ih (fun y hy => hr y (List.mem_cons_of_mem _ hy)) (fun i => env (i + 1))
      (fun i => henv (i + 1))]
    obtain ⟨y, hy, dy⟩ := h x hx
    obtain ⟨z, hz, dz⟩ := h a (hr a List.mem_cons_self)
    rw [hy e he, hz _ (henv 0)]
    have : ((some z : Option (List Byte)) == some y) = (a == x) := by
      rw [Bool.eq_iff_iff, beq_iff_eq, beq_iff_eq]
      constructor
      · intro e'
        rw [Option.some.inj e', dy] at dz
        exact (Option.some.inj dz).symm
      · rintro rfl
        exact ((hy _ (henv 0)).symm.trans (hz _ (henv 0))).symm
    rw [this]

/-! ### Phone numbers -/

/-- A phone number of eleven digits. -/
def IsPhone (x : List Byte) : Prop := x.length = 11 ∧ ∀ c ∈ x, IsNumeral 10 c

/-- A sample for texts of `len` bytes that hides at least two of the first `k`. -/
def SampleFor (smp : List Byte) (len k : Nat) : Prop :=
  (∀ c ∈ smp, c ≠ 0) ∧ (smp = [] ∨ smp.length = len) ∧ 2 ≤ hiddenCount smp k

theorem phone_call (lg : Nat → Nat → Nat) (hlg : LgOk lg) (x smp : List Byte) (hx : IsPhone x) (hs : SampleFor smp 11 11) :
    ∃ o : List Byte, o.length = 11 ∧ (∀ i, ¬ Hidden smp i → o[i]? = x[i]?) ∧
      (∀ i (hi : i < o.length), Hidden smp i → IsNumeral 10 o[i]) ∧
      (∀ e : FpeEnv, e.Fits 11 → e.call lg "phone" smp x = some o) ∧
      decryptPhone udfApp lg anyMem (o ++ [0]) (smp ++ [0]) (List.replicate 11 0) = some x := by
  obtain ⟨hl, hd⟩ := hx
  obtain ⟨h0, hsl, hk⟩ := hs
  have hp : ∀ c ∈ x, c ≠ 0 := by
    rintro c hc rfl
    exact absurd (hd 0 hc) (by unfold IsNumeral; decide)
  have hs' : smp = [] ∨ x.length ≤ smp.length := by rcases hsl with h | h <;> [exact .inl h; exact .inr (by omega)]
  have hd' : ∀ i (hi : i < x.length), Hidden smp i → IsNumeral 10 x[i] := fun i hi _ => hd _ (List.getElem_mem hi)
  have hk' : HiddenOk udfApp.ffx smp x.length := by rw [hl]; exact hk
  obtain ⟨o, ho, hv, hn, he⟩ := (C53_phone_mask udfApp lg hlg x smp hp h0 hs' hd' hk').1
  obtain ⟨o', -, he', hdec⟩ := C54_phone_roundtrip udfApp lg hlg x smp hp h0 hs' hd' hk'
  have hoo : o' = o := by
    have a := he anyMem [] [] x (Nat.le_refl _) (Nat.le_refl _)
    have b := he' anyMem [] [] x (Nat.le_refl _) (Nat.le_refl _)
    rw [a] at b
    simpa using (Option.some.inj b).symm
  subst hoo
  have hd0 := hdec anyMem [] [] (List.replicate 11 0) (Nat.le_refl _) (by rw [hl]; simp)
  rw [hl, List.drop_of_length_le (l := List.replicate 11 (0 : Byte)) (by simp), List.append_nil] at hd0
  refine ⟨o', by omega, hv, hn, fun e hf => ?_, hd0⟩
  obtain ⟨more, hcall⟩ := udfCall_sample e.v8 e.imem lg e.amem e.resCap e.errCap e.ptr (x ++ 0 :: e.rest) (lit "phone" ++ e.modeRest)
    x.length e.modeLen _ smp (sampleArg_call smp e.more x.length) (by simp) (by rw [hl]; exact hf.2.1)
  have hm : strEq (lit "phone" ++ e.modeRest) (lit "phone") = some true := by
    have := strEq_self (lit "phone").dropLast e.modeRest (by decide)
    exact this
  have hbl := buf_length (x ++ 0 :: e.rest) e.ptr x.length (by simp) (by rw [hl]; exact hf.2.1)
  refine call_value lg "phone" smp e x o' ?_
  rw [hcall]
  unfold udfModes
  rw [hm]
  simp only [Option.bind_some, if_true, ne_eq, hl, not_true_eq_false, if_false]
  rw [hl] at hbl
  rw [he e.amem e.rest more _ hf.1 (by rw [hbl, hl]; exact Nat.le_of_lt hf.2.1), Option.bind_some, udfReturn, if_pos hf.2.2,
    List.take_left' (by omega)]

/-- C147: whoever may call the function can undo it. The value of a phone number, given to the function again and again with the same
sample, becomes the number within as many calls as there are ways to fill the hidden positions; no key and no decryption function is
needed, and the calls may find any memory. -/
theorem C147_phone_undone (lg : Nat → Nat → Nat) (hlg : LgOk lg) (x smp : List Byte) (hx : IsPhone x) (hs : SampleFor smp 11 11) :
    ∃ n, n + 1 ≤ 10 ^ hiddenCount smp 11 ∧ ∀ env : Nat → FpeEnv, (∀ i, (env i).Fits 11) →
      repeated (fun i => (env i).call lg "phone" smp) (n + 1) x = some x := by
  obtain ⟨hl, hd⟩ := hx
  have hs' : smp = [] ∨ x.length ≤ smp.length := by rcases hs.2.1 with h | h <;> [exact .inl h; exact .inr (by omega)]
  obtain ⟨n, hn, h⟩ := walk_calls (FpeEnv.Fits 11) (FpeEnv.call lg "phone" smp)
    (fun o => decryptPhone udfApp lg anyMem (o ++ [0]) (smp ++ [0]) (List.replicate 11 0))
    (variants digitChars (maskOf smp x.length) x) (by
      intro y hy
      obtain ⟨a, b, c⟩ := (mem_digits smp x y hs').1 hy
      have hy' : IsPhone y := ⟨by omega, digits_all smp x y hd a b c⟩
      obtain ⟨o, ho, hv, hno, hc, hdec⟩ := phone_call lg hlg y smp hy' hs
      exact ⟨o, (mem_digits smp x o hs').2 ⟨by omega, fun i hi => (hv i hi).trans (b i hi), hno⟩, hc, hdec⟩) x
    ((mem_digits smp x x hs').2 ⟨rfl, fun _ _ => rfl, fun i hi _ => hd _ (List.getElem_mem hi)⟩)
  refine ⟨n, ?_, h⟩
  rw [length_variants _ _ _ (maskOf_length smp x.length hs'), maskOf_count, hl] at hn
  exact hn

/-- C147: in an encrypted column of phone numbers each number occurs as often as in the plain one: equal rows stay equal, different
rows stay different, whatever memory each call finds. -/
theorem C147_phone_counts (lg : Nat → Nat → Nat) (hlg : LgOk lg) (smp : List Byte) (hs : SampleFor smp 11 11) (rows : List (List Byte))
    (hr : ∀ x ∈ rows, IsPhone x) (x : List Byte) (hx : IsPhone x) (e : FpeEnv) (he : e.Fits 11) (env : Nat → FpeEnv)
    (henv : ∀ i, (env i).Fits 11) :
    (column (FpeEnv.call lg "phone" smp) env rows).count (e.call lg "phone" smp x) = rows.count x :=
  column_count _ (fun o => decryptPhone udfApp lg anyMem (o ++ [0]) (smp ++ [0]) (List.replicate 11 0)) IsPhone
    (fun y hy => by
      obtain ⟨o, -, -, -, h, hd⟩ := phone_call lg hlg y smp hy hs
      exact ⟨o, h, hd⟩) rows hr x hx e he env henv

/-- One call of `encryptPhone` of the library: the bytes of the text in the output buffer. -/
def appPhone (app : FpeApp) (lg : Nat → Nat → Nat) (smp : List Byte) (e : AppMem × List Byte × List Byte × List Byte) (x : List Byte) :
    Option (List Byte) :=
  (encryptPhone app lg e.1 (x ++ 0 :: e.2.1) (smp ++ 0 :: e.2.2.1) e.2.2.2).map (·.take x.length)

/-- C147: so it is in the library for numbers of every length, for FF1 and FF3 and every key: repeated encryption is decryption. -/
theorem C147_app_undone (app : FpeApp) (lg : Nat → Nat → Nat) (hlg : LgOk lg) (x smp : List Byte) (hd : ∀ c ∈ x, IsNumeral 10 c)
    (h0 : ∀ c ∈ smp, c ≠ 0) (hs : smp = [] ∨ x.length ≤ smp.length) (hk : HiddenOk app.ffx smp x.length) :
    ∃ n, n + 1 ≤ 10 ^ hiddenCount smp x.length ∧ ∀ env : Nat → AppMem × List Byte × List Byte × List Byte,
      (∀ i, 1 ≤ (env i).1.slack ∧ x.length ≤ (env i).2.2.2.length) →
      repeated (fun i => appPhone app lg smp (env i)) (n + 1) x = some x := by
  obtain ⟨n, hn, h⟩ := walk_calls (fun e : AppMem × List Byte × List Byte × List Byte => 1 ≤ e.1.slack ∧ x.length ≤ e.2.2.2.length)
    (appPhone app lg smp) (fun o => decryptPhone app lg anyMem (o ++ [0]) (smp ++ [0]) (List.replicate x.length 0))
    (variants digitChars (maskOf smp x.length) x) (by
      intro y hy
      obtain ⟨a, b, c⟩ := (mem_digits smp x y hs).1 hy
      have hyd := digits_all smp x y hd a b c
      have hp : ∀ c ∈ y, c ≠ 0 := by
        rintro c hc rfl
        exact absurd (hyd 0 hc) (by unfold IsNumeral; decide)
      have hd' : ∀ i (hi : i < y.length), Hidden smp i → IsNumeral 10 y[i] := fun i hi _ => hyd _ (List.getElem_mem hi)
      obtain ⟨o, ho, hv, hno, he⟩ := (C53_phone_mask app lg hlg y smp hp h0 (by rw [a]; exact hs) hd' (by rw [a]; exact hk)).1
      obtain ⟨o', -, he', hdec⟩ := C54_phone_roundtrip app lg hlg y smp hp h0 (by rw [a]; exact hs) hd' (by rw [a]; exact hk)
      have hoo : o' = o := by
        have p := he anyMem [] [] y (Nat.le_refl _) (Nat.le_refl _)
        have q := he' anyMem [] [] y (Nat.le_refl _) (Nat.le_refl _)
        rw [p] at q
        simpa using (Option.some.inj q).symm
      subst hoo
      refine ⟨o', (mem_digits smp x o' hs).2 ⟨by omega, fun i hi => (hv i hi).trans (b i hi), hno⟩, fun e hf => ?_, ?_⟩
      · unfold appPhone
        rw [he e.1 e.2.1 e.2.2.1 e.2.2.2 hf.1 (by rw [a]; exact hf.2), Option.map_some, List.take_left' ho]
      · have q := hdec anyMem [] [] (List.replicate x.length 0) (Nat.le_refl _) (by rw [a]; simp)
        rw [a, List.drop_of_length_le (l := List.replicate x.length (0 : Byte)) (by simp), List.append_nil] at q
        exact q) x
    ((mem_digits smp x x hs).2 ⟨rfl, fun _ _ => rfl, fun i hi _ => hd _ (List.getElem_mem hi)⟩)
  refine ⟨n, ?_, h⟩
  rw [length_variants _ _ _ (maskOf_length smp x.length hs), maskOf_count] at hn
  exact hn

/-- FF3, "1**00138000": at most a hundred encryptions. -/
example (E : Block → Block) := C147_app_undone ⟨E, .ff3⟩ _ lgOk_clog
  [0x31, 0x33, 0x38, 0x30, 0x30, 0x31, 0x33, 0x38, 0x30, 0x30, 0x30]
  [0x31, 0x2a, 0x2a, 0x30, 0x30, 0x31, 0x33, 0x38, 0x30, 0x30, 0x30] (by decide) (by decide) (by decide)
  (by show _ ∧ _; decide)

/-- One call of an engine: the characters of the text in the output buffer, without the terminator. -/
def engineCall (enc : List Byte → List Byte → Option (List Byte)) (e : List Byte × List Byte) (x : List Byte) : Option (List Byte) :=
  (enc (x ++ 0 :: e.1) e.2).map (·.take x.length)

theorem engine_undone (app : FpeApp) (lg : Nat → Nat → Nat) (hlg : LgOk lg) (radix : Nat) (h2 : 2 ≤ radix) (h36 : radix ≤ 36)
    (tweak x : List Byte) (hok : EngineOk app.ffx tweak.length x.length) (hd : ∀ c ∈ x, IsNumeral radix c) :
    ∃ n, n + 1 ≤ radix ^ x.length ∧ ∀ env : Nat → List Byte × List Byte, (∀ i, x.length < (env i).2.length) →
      repeated (fun i => engineCall (encFn app lg ⟨app.E, radix, tweak⟩) (env i)) (n + 1) x = some x := by
  have hm : (List.replicate x.length false).length = x.length := List.length_replicate
  have hch : ∀ c, c ∈ (List.range radix).map numeralChar ↔ IsNumeral radix c := by
    intro c
    constructor
    · intro h
      exact chars_numeral h36 (List.range radix) (fun d hd => List.mem_range.1 hd) c h
    · intro h
      have h1 := vals_lt [c] (by simpa using h)
      have h3 := chars_vals [c] (by simpa using h)
      simp only [vals, List.map_cons, List.map_nil, List.mem_cons, List.not_mem_nil, or_false, forall_eq, List.cons.injEq, and_true] at h1 h3
      exact List.mem_map.2 ⟨_, List.mem_range.2 h1, h3⟩
  have hmem : ∀ o : List Byte, o ∈ variants ((List.range radix).map numeralChar) (List.replicate x.length false) x ↔
      o.length = x.length ∧ ∀ c ∈ o, IsNumeral radix c := by
    intro o
    rw [mem_variants _ _ _ _ hm]
    constructor
    · rintro ⟨a, -, c⟩
      refine ⟨a, fun y hy => ?_⟩
      obtain ⟨i, hi, rfl⟩ := List.getElem_of_mem hy
      exact (hch _).1 (c i o[i] (by rw [List.getElem?_replicate, if_pos (by omega)]) (List.getElem?_eq_getElem hi))
    · rintro ⟨a, b⟩
      refine ⟨a, fun i hi => ?_, fun i y _ hy => (hch y).2 (b y (List.mem_of_getElem? hy))⟩
      rw [List.getElem?_replicate] at hi
      split at hi <;> simp at hi
  obtain ⟨n, hn, h⟩ := walk_calls (fun e : List Byte × List Byte => x.length < e.2.length)
    (engineCall (encFn app lg ⟨app.E, radix, tweak⟩))
    (fun o => engineCall (decFn app lg ⟨app.E, radix, tweak⟩) ([], List.replicate (x.length + 1) 0) o)
    (variants ((List.range radix).map numeralChar) (List.replicate x.length false) x) (by
      intro y hy
      obtain ⟨a, b⟩ := (hmem y).1 hy
      obtain ⟨ct, hl, hn, he, hg⟩ := engine_fwd app lg hlg radix h2 h36 app.E tweak y (by rw [a]; exact hok) b
      refine ⟨ct, (hmem ct).2 ⟨by omega, hn⟩, fun e hf => ?_, ?_⟩
      · unfold engineCall
        rw [he e.1 e.2 (by rw [a]; exact hf), Option.map_some, List.take_left' hl]
      · unfold engineCall
        simp only
        rw [hg [] (List.replicate (x.length + 1) 0) (by simp; omega), Option.map_some, List.take_left' hl.symm]) x
    ((hmem x).2 ⟨rfl, hd⟩)
  refine ⟨n, ?_, h⟩
  rw [length_variants _ _ _ hm, List.length_map, List.length_range, List.count_replicate_self] at hn
  exact hn

/-- C147: repeated encryption by the FF1 engine is decryption, for every radix, tweak and key. -/
theorem C147_ff1_undone (E : Block → Block) (lg : Nat → Nat → Nat) (hlg : LgOk lg) (radix : Nat) (ctx : FpeCtx) (tweak x : List Byte)
    (hc : fpeInit tweak radix E = some ctx) (ht : tweak ≠ []) (hx : 2 ≤ x.length) (hd : ∀ c ∈ x, IsNumeral radix c) :
    ∃ n, n + 1 ≤ radix ^ x.length ∧ ∀ env : Nat → List Byte × List Byte, (∀ i, x.length < (env i).2.length) →
      repeated (fun i => engineCall (ff1Encrypt ctx lg) (env i)) (n + 1) x = some x := by
  unfold fpeInit at hc
  split at hc
  · cases hc
  · injection hc with hc
    subst hc
    exact engine_undone ⟨E, .ff1⟩ lg hlg radix (by omega) (by omega) tweak x ⟨hx, List.length_pos_iff.2 ht⟩ hd

/-- C147: the same for FF3. -/
theorem C147_ff3_undone (E : Block → Block) (lg : Nat → Nat → Nat) (hlg : LgOk lg) (radix : Nat) (ctx : FpeCtx) (tweak x : List Byte)
    (hc : fpeInit tweak radix E = some ctx) (ht : 8 ≤ tweak.length) (hx : 1 ≤ x.length) (hd : ∀ c ∈ x, IsNumeral radix c) :
    ∃ n, n + 1 ≤ radix ^ x.length ∧ ∀ env : Nat → List Byte × List Byte, (∀ i, x.length < (env i).2.length) →
      repeated (fun i => engineCall (ff3Encrypt ctx lg) (env i)) (n + 1) x = some x := by
  unfold fpeInit at hc
  split at hc
  · cases hc
  · injection hc with hc
    subst hc
    exact engine_undone ⟨E, .ff3⟩ lg hlg radix (by omega) (by omega) tweak x ⟨hx, ht⟩ hd

/-- "0101" in radix 2: at most sixteen encryptions. -/
example (E : Block → Block) := C147_ff1_undone E _ lgOk_clog 2 ⟨E, 2, [0]⟩ [0] [0x30, 0x31, 0x30, 0x31] rfl (by decide) (by decide)
  (by decide)

example (E : Block → Block) := C147_ff3_undone E _ lgOk_clog 36 ⟨E, 36, List.replicate 8 0⟩ (List.replicate 8 0) [0x7a] rfl (by decide)
  (by decide) (by decide)

/-! ### Identity cards -/

/-- A card number of 18 characters: digits, or 17 digits and the letter `X`. -/
def IsCard (tail x : List Byte) : Prop :=
  (tail = [] ∨ tail = [0x58]) ∧ ∃ body, x = body ++ tail ∧ x.length = 18 ∧ ∀ c ∈ body, IsNumeral 10 c

theorem cardForm_digits (body tail : List Byte) (ht : tail = [] ∨ tail = [0x58]) (hl : (body ++ tail).length = 18)
    (hd : ∀ c ∈ body, IsNumeral 10 c) : CardForm body tail := by
  rcases ht with rfl | rfl
  · right
    refine ⟨rfl, ?_⟩
    have hne : body ≠ [] := by rintro rfl; simp at hl
    refine ⟨body.getLast hne, List.getLast?_eq_some_getLast hne, fun h => ?_⟩
    have := hd _ (List.getLast_mem hne)
    rw [h] at this
    revert this
    unfold IsNumeral
    decide
  · left; rfl

theorem card_call (lg : Nat → Nat → Nat) (hlg : LgOk lg) (body tail smp : List Byte) (ht : tail = [] ∨ tail = [0x58])
    (hl : (body ++ tail).length = 18) (hd : ∀ c ∈ body, IsNumeral 10 c) (hs : SampleFor smp 18 body.length) :
    ∃ o : List Byte, o.length = body.length ∧ (∀ i, ¬ Hidden smp i → o[i]? = body[i]?) ∧
      (∀ i (hi : i < o.length), Hidden smp i → IsNumeral 10 o[i]) ∧
      (∀ e : FpeEnv, e.Fits 18 → e.call lg "idcard" smp (body ++ tail) = some (o ++ tail)) ∧
      decryptIdcard udfApp lg anyMem (o ++ tail ++ [0]) (smp ++ [0]) (List.replicate 18 0) = some (body ++ tail) := by
  obtain ⟨h0, hsl, hk⟩ := hs
  have hp : ∀ c ∈ body, c ≠ 0 := by
    rintro c hc rfl
    exact absurd (hd 0 hc) (by unfold IsNumeral; decide)
  have hlb : body.length ≤ 18 := by rw [List.length_append] at hl; omega
  have hs' : smp = [] ∨ body.length ≤ smp.length := by rcases hsl with h | h <;> [exact .inl h; exact .inr (by omega)]
  obtain ⟨o, ho, hv, hn, he, hdec⟩ := C55_idcard udfApp lg hlg body tail smp (cardForm_digits body tail ht hl hd) hp h0 hs'
    (fun i hi _ => hd _ (List.getElem_mem hi)) hk
  rw [hl] at he hdec
  have hd0 := hdec anyMem [] [] (List.replicate 18 0) (Nat.le_refl _) (by simp)
  rw [List.drop_of_length_le (l := List.replicate 18 (0 : Byte)) (by simp), List.append_nil] at hd0
  refine ⟨o, ho, hv, hn, fun e hf => ?_, hd0⟩
  have hot : (o ++ tail).length = 18 := by rw [← hl, List.length_append, List.length_append, ho]
  refine call_value lg "idcard" smp e (body ++ tail) (o ++ tail) ?_
  rw [hl]
  obtain ⟨more, hcall⟩ := udfCall_sample e.v8 e.imem lg e.amem e.resCap e.errCap e.ptr (body ++ tail ++ 0 :: e.rest)
    (lit "idcard" ++ e.modeRest) 18 e.modeLen _ smp (sampleArg_call smp e.more 18) (by rw [List.length_append, hl]; simp) hf.2.1
  have hb := buf_length (body ++ tail ++ 0 :: e.rest) e.ptr 18 (by rw [List.length_append, hl]; simp) hf.2.1
  have hm1 : strEq (lit "idcard" ++ e.modeRest) (lit "phone") = some false := rfl
  have hm : strEq (lit "idcard" ++ e.modeRest) (lit "idcard") = some true := by
    have := strEq_self (lit "idcard").dropLast e.modeRest (by decide)
    exact this
  rw [hcall]
  unfold udfModes
  rw [hm1, hm]
  simp only [Option.bind_some, if_true, ne_eq, not_true_eq_false, if_false, Bool.false_eq_true]
  rw [he e.amem e.rest more _ hf.1 (by rw [hb]; exact Nat.le_of_lt hf.2.1), Option.bind_some, udfReturn, if_pos hf.2.2,
    List.take_left' hot]

/-- C147: the same for identity cards; the final `X` stays. -/
theorem C147_card_undone (lg : Nat → Nat → Nat) (hlg : LgOk lg) (tail x smp : List Byte) (hx : IsCard tail x)
    (hs : SampleFor smp 18 (18 - tail.length)) :
    ∃ n, n + 1 ≤ 10 ^ hiddenCount smp (18 - tail.length) ∧ ∀ env : Nat → FpeEnv, (∀ i, (env i).Fits 18) →
      repeated (fun i => (env i).call lg "idcard" smp) (n + 1) x = some x := by
  obtain ⟨ht, body, rfl, hl, hd⟩ := hx
  have hbl : 18 - tail.length = body.length := by rw [← hl]; simp
  rw [hbl] at hs ⊢
  have hs' : smp = [] ∨ body.length ≤ smp.length := by rcases hs.2.1 with h | h <;> [exact .inl h; exact .inr (by omega)]
  obtain ⟨n, hn, h⟩ := walk_calls (FpeEnv.Fits 18) (FpeEnv.call lg "idcard" smp)
    (fun o => decryptIdcard udfApp lg anyMem (o ++ [0]) (smp ++ [0]) (List.replicate 18 0))
    ((variants digitChars (maskOf smp body.length) body).map (· ++ tail)) (by
      intro y hy
      obtain ⟨z, hz, rfl⟩ := List.mem_map.1 hy
      obtain ⟨a, b, c⟩ := (mem_digits smp body z hs').1 hz
      obtain ⟨o, ho, hv, hno, hc, hdec⟩ := card_call lg hlg z tail smp ht (by rw [← hl, List.length_append, List.length_append, a])
        (digits_all smp body z hd a b c) (by rw [a]; exact hs)
      exact ⟨o ++ tail, List.mem_map.2 ⟨o, (mem_digits smp body o hs').2 ⟨by omega, fun i hi => (hv i hi).trans (b i hi), hno⟩, rfl⟩,
        hc, hdec⟩) (body ++ tail)
    (List.mem_map.2 ⟨body, (mem_digits smp body body hs').2 ⟨rfl, fun _ _ => rfl, fun i hi _ => hd _ (List.getElem_mem hi)⟩, rfl⟩)
  refine ⟨n, ?_, h⟩
  rw [List.length_map, length_variants _ _ _ (maskOf_length smp body.length hs'), maskOf_count] at hn
  exact hn

/-- C147: the counts in a column of identity cards. Numbers with and without the final `X` may be mixed: the sample hides two of the
first 17 positions. -/
theorem C147_card_counts (lg : Nat → Nat → Nat) (hlg : LgOk lg) (smp : List Byte) (hs : SampleFor smp 18 17) (rows : List (List Byte))
    (hr : ∀ x ∈ rows, ∃ tail, IsCard tail x) (x : List Byte) (hx : ∃ tail, IsCard tail x) (e : FpeEnv) (he : e.Fits 18)
    (env : Nat → FpeEnv) (henv : ∀ i, (env i).Fits 18) :
    (column (FpeEnv.call lg "idcard" smp) env rows).count (e.call lg "idcard" smp x) = rows.count x :=
  column_count _ (fun o => decryptIdcard udfApp lg anyMem (o ++ [0]) (smp ++ [0]) (List.replicate 18 0)) (fun x => ∃ tail, IsCard tail x)
    (fun y hy => by
      obtain ⟨tail, ht, body, rfl, hl, hd⟩ := hy
      have hb : body.length = 17 ∨ body.length = 18 := by
        rcases ht with rfl | rfl <;> simp at hl <;> omega
      have hk : SampleFor smp 18 body.length := by
        refine ⟨hs.1, hs.2.1, ?_⟩
        rcases hb with hb | hb <;> rw [hb]
        · exact hs.2.2
        · refine Nat.le_trans hs.2.2 ?_
          unfold hiddenCount
          split
          · omega
          · exact ((List.take_prefix_take_left (l := smp) (by omega : 17 ≤ 18)).sublist).count_le _
      obtain ⟨o, -, -, -, h, hdec⟩ := card_call lg hlg body tail smp ht hl hd hk
      exact ⟨o ++ tail, h, hdec⟩) rows hr x hx e he env henv

/-! ### Names and addresses -/

theorem text_call (lg : Nat → Nat → Nat) (hlg : LgOk lg) (mode : String) (hmode : mode = "name" ∨ mode = "address") (cps : List Nat)
    (smp : List Byte) (mask : List Bool) (hr : ∀ cp ∈ cps, InCnRange cp) (hm : CnSample smp mask cps.length)
    (hk : 1 ≤ mask.count false) :
    ∃ o : List Nat, o.length = cps.length ∧ (∀ cp ∈ o, InCnRange cp) ∧ (∀ i : Nat, mask[i]? = some true → o[i]? = cps[i]?) ∧
      (∀ e : FpeEnv, e.Fits (3 * cps.length) → e.call lg mode smp (utf8Text cps) = some (utf8Text o)) ∧
      decryptCn udfApp lg anyMem (utf8Text o ++ [0]) (smp ++ [0]) (List.replicate (3 * cps.length) 0) = some (utf8Text cps) := by
  obtain ⟨o, ho, hin, hv, he, hdec⟩ := C56_cn_roundtrip udfApp lg hlg cps smp mask hr hm hk
  have hd0 := hdec anyMem [] [] (List.replicate (3 * cps.length) 0) (Nat.le_refl _) (by simp)
  rw [List.drop_of_length_le (l := List.replicate (3 * cps.length) (0 : Byte)) (by simp), List.append_nil] at hd0
  refine ⟨o, ho, hin, hv, fun e hf => ?_, hd0⟩
  refine call_value lg mode smp e (utf8Text cps) (utf8Text o) ?_
  rw [length_utf8Text]
  obtain ⟨more, hcall⟩ := udfCall_sample e.v8 e.imem lg e.amem e.resCap e.errCap e.ptr (utf8Text cps ++ 0 :: e.rest)
    (lit mode ++ e.modeRest) (3 * cps.length) e.modeLen _ smp (sampleArg_call smp e.more (3 * cps.length))
    (by rw [List.length_append, length_utf8Text]; omega) hf.2.1
  have hb := buf_length (utf8Text cps ++ 0 :: e.rest) e.ptr (3 * cps.length) (by rw [List.length_append, length_utf8Text]; omega) hf.2.1
  have hfin : (encryptCn udfApp lg e.amem (utf8Text cps ++ 0 :: e.rest) (smp ++ 0 :: more)
      ((utf8Text cps ++ 0 :: e.rest).take (3 * cps.length) ++ 0 :: e.ptr.drop (3 * cps.length + 1))).bind
      (udfReturn e.resCap (3 * cps.length)) = some (.value (utf8Text o)) := by
    rw [he e.amem e.rest more _ hf.1 (by rw [hb]; exact Nat.le_of_lt hf.2.1), Option.bind_some, udfReturn, if_pos hf.2.2,
      List.take_left' (by rw [length_utf8Text, ho])]
  rw [hcall]
  unfold udfModes
  rcases hmode with rfl | rfl
  · have h1 : strEq (lit "name" ++ e.modeRest) (lit "phone") = some false := rfl
    have h2 : strEq (lit "name" ++ e.modeRest) (lit "idcard") = some false := rfl
    have h3 : strEq (lit "name" ++ e.modeRest) (lit "name") = some true := by
      have := strEq_self (lit "name").dropLast e.modeRest (by decide)
      exact this
    rw [h1, h2, h3]
    simpa only [Option.bind_some, if_true, Bool.false_eq_true, if_false] using hfin
  · have h1 : strEq (lit "address" ++ e.modeRest) (lit "phone") = some false := rfl
    have h2 : strEq (lit "address" ++ e.modeRest) (lit "idcard") = some false := rfl
    have h3 : strEq (lit "address" ++ e.modeRest) (lit "name") = some false := rfl
    have h4 : strEq (lit "address" ++ e.modeRest) (lit "address") = some true := by
      have := strEq_self (lit "address").dropLast e.modeRest (by decide)
      exact this
    rw [h1, h2, h3, h4]
    simpa only [Option.bind_some, if_true, Bool.false_eq_true, if_false] using hfin

/-- C147: the same for names and addresses, where a hidden position has 20736 values. -/
theorem C147_text_undone (lg : Nat → Nat → Nat) (hlg : LgOk lg) (mode : String) (hmode : mode = "name" ∨ mode = "address")
    (cps : List Nat) (smp : List Byte) (mask : List Bool) (hr : ∀ cp ∈ cps, InCnRange cp) (hm : CnSample smp mask cps.length)
    (hk : 1 ≤ mask.count false) :
    ∃ n, n + 1 ≤ 20736 ^ mask.count false ∧ ∀ env : Nat → FpeEnv, (∀ i, (env i).Fits (3 * cps.length)) →
      repeated (fun i => (env i).call lg mode smp) (n + 1) (utf8Text cps) = some (utf8Text cps) := by
  have hmem : ∀ o : List Nat, o ∈ variants hanChars mask cps ↔ o.length = cps.length ∧
      (∀ i : Nat, mask[i]? = some true → o[i]? = cps[i]?) ∧
      ∀ (i : Nat) (c : Nat), mask[i]? = some false → o[i]? = some c → c ∈ hanChars := fun o => mem_variants hanChars mask cps o hm.length
  obtain ⟨n, hn, h⟩ := walk_calls (FpeEnv.Fits (3 * cps.length)) (FpeEnv.call lg mode smp)
    (fun o => decryptCn udfApp lg anyMem (o ++ [0]) (smp ++ [0]) (List.replicate (3 * cps.length) 0))
    ((variants hanChars mask cps).map utf8Text) (by
      intro y hy
      obtain ⟨z, hz, rfl⟩ := List.mem_map.1 hy
      obtain ⟨a, b, c⟩ := (hmem z).1 hz
      have hz' : ∀ cp ∈ z, InCnRange cp := by
        intro cp hcp
        obtain ⟨i, hi, rfl⟩ := List.getElem_of_mem hcp
        have him : i < mask.length := by rw [hm.length]; omega
        cases hmi : mask[i] with
        | false => exact (mem_hanChars _).1 (c i z[i] (by rw [List.getElem?_eq_getElem him, hmi]) (List.getElem?_eq_getElem hi))
        | true =>
          have e := b i (by rw [List.getElem?_eq_getElem him, hmi])
          rw [List.getElem?_eq_getElem hi, List.getElem?_eq_getElem (by omega)] at e
          rw [Option.some.inj e]
          exact hr _ (List.getElem_mem _)
      obtain ⟨o, ho, hin, hv, hc, hdec⟩ := text_call lg hlg mode hmode z smp mask hz' (by rw [a]; exact hm) hk
      rw [a] at hc hdec
      exact ⟨utf8Text o, List.mem_map.2 ⟨o, (hmem o).2 ⟨by omega, fun i hi => (hv i hi).trans (b i hi),
        fun i x _ hx => (mem_hanChars x).2 (hin x (List.mem_of_getElem? hx))⟩, rfl⟩, hc, hdec⟩) (utf8Text cps)
    (List.mem_map.2 ⟨cps, (hmem cps).2 ⟨rfl, fun _ _ => rfl, fun i x _ hx => (mem_hanChars x).2 (hr x (List.mem_of_getElem? hx))⟩, rfl⟩)
  refine ⟨n, ?_, h⟩
  rw [List.length_map, length_variants _ _ _ hm.length, show hanChars.length = 20736 by simp [hanChars]] at hn
  exact hn

/-- C147: the counts in a column of names or addresses of one length. -/
theorem C147_text_counts (lg : Nat → Nat → Nat) (hlg : LgOk lg) (mode : String) (hmode : mode = "name" ∨ mode = "address") (n : Nat)
    (smp : List Byte) (mask : List Bool) (hm : CnSample smp mask n) (hk : 1 ≤ mask.count false) (rows : List (List Byte))
    (hr : ∀ x ∈ rows, ∃ cps, x = utf8Text cps ∧ cps.length = n ∧ ∀ cp ∈ cps, InCnRange cp) (x : List Byte)
    (hx : ∃ cps, x = utf8Text cps ∧ cps.length = n ∧ ∀ cp ∈ cps, InCnRange cp) (e : FpeEnv) (he : e.Fits (3 * n)) (env : Nat → FpeEnv)
    (henv : ∀ i, (env i).Fits (3 * n)) :
    (column (FpeEnv.call lg mode smp) env rows).count (e.call lg mode smp x) = rows.count x :=
  column_count _ (fun o => decryptCn udfApp lg anyMem (o ++ [0]) (smp ++ [0]) (List.replicate (3 * n) 0))
    (fun x => ∃ cps, x = utf8Text cps ∧ cps.length = n ∧ ∀ cp ∈ cps, InCnRange cp)
    (fun y hy => by
      obtain ⟨cps, rfl, rfl, hc⟩ := hy
      obtain ⟨o, -, -, -, h, hd⟩ := text_call lg hlg mode hmode cps smp mask hc hm hk
      exact ⟨utf8Text o, h, hd⟩) rows hr x hx e he env henv

/-! ### Cases -/

instance (x : List Byte) : Decidable (IsPhone x) := by unfold IsPhone; infer_instance

instance (smp : List Byte) (len k : Nat) : Decidable (SampleFor smp len k) := by unfold SampleFor; infer_instance

/-- "13800138000" with the sample "1380013**00": the number is back after at most a hundred calls. -/
example := C147_phone_undone _ lgOk_clog [0x31, 0x33, 0x38, 0x30, 0x30, 0x31, 0x33, 0x38, 0x30, 0x30, 0x30]
  [0x31, 0x33, 0x38, 0x30, 0x30, 0x31, 0x33, 0x2a, 0x2a, 0x30, 0x30] (by decide) (by decide)

example : hiddenCount [0x31, 0x33, 0x38, 0x30, 0x30, 0x31, 0x33, 0x2a, 0x2a, 0x30, 0x30] 11 = 2 := by decide

/-- Seventeen digits and `X`, no sample. -/
example := C147_card_undone _ lgOk_clog [0x58] (List.replicate 17 0x31 ++ [0x58]) []
  ⟨.inr rfl, List.replicate 17 0x31, rfl, by decide, by decide⟩ (by decide)

/-- Three rows, two of them equal. -/
example (e : FpeEnv) (he : e.Fits 11) := C147_phone_counts _ lgOk_clog [] (by decide)
  [List.replicate 11 0x31, List.replicate 11 0x32, List.replicate 11 0x31] (by decide) (List.replicate 11 0x31) (by decide) e he
  (fun _ => e) (fun _ => he)

/-- A name of two characters, both hidden. -/
example := C147_text_undone _ lgOk_clog "name" (.inl rfl) [0x4E00, 0x4E01] [] [false, false]
  (by unfold InCnRange; decide) (.inl ⟨rfl, rfl⟩) (by decide)

end Verif.Props
