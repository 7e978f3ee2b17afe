import Verif.Props.FpeAppNist
import Verif.Spec.FpeShort
import Verif.Lemmas.FeistelPair

/-! C98: FPE of strings with fewer than two characters. -/
set_option autoImplicit false

namespace Verif.Props
open Verif Spec Model

theorem stuck_ff1Enc (ctx : FpeCtx) (lg : Nat → Nat → Nat) (n : Nat) (s : FpeSt) (i : Nat) (h : s.a = s.b) :
    ff1EncryptRound ctx lg n s i = none := by
  unfold ff1EncryptRound swapPtrs
  simp [h]

theorem stuck_ff1Dec (ctx : FpeCtx) (lg : Nat → Nat → Nat) (n : Nat) (s : FpeSt) (i : Nat) (h : s.a = s.b) :
    ff1DecryptRound ctx lg n s i = none := by
  unfold ff1DecryptRound swapPtrs
  simp [h]

theorem stuck_ff3Enc (ctx : FpeCtx) (lg : Nat → Nat → Nat) (n : Nat) (s : FpeSt) (i : Nat) (h : s.a = s.b) :
    ff3EncryptRound ctx lg n s i = none := by
  unfold ff3EncryptRound swapPtrs
  simp [h]

theorem stuck_ff3Dec (ctx : FpeCtx) (lg : Nat → Nat → Nat) (n : Nat) (s : FpeSt) (i : Nat) (h : s.a = s.b) :
    ff3DecryptRound ctx lg n s i = none := by
  unfold ff3DecryptRound swapPtrs
  simp [h]

theorem stuck_cmacEnc (ctx : FpeCtx) (lg : Nat → Nat → Nat) (junk : Nat → Block) (n : Nat) (s : FpeSt × Block) (i : Nat)
    (h : s.1.a = s.1.b) : cmacEncryptRound ctx lg junk n s i = none := by
  unfold cmacEncryptRound swapPtrs
  simp [h]

theorem stuck_cmacDec (ctx : FpeCtx) (lg : Nat → Nat → Nat) (junk : Nat → Block) (n : Nat) (s : FpeSt × Block) (i : Nat)
    (h : s.1.a = s.1.b) : cmacDecryptRound ctx lg junk n s i = none := by
  unfold cmacDecryptRound swapPtrs
  simp [h]

theorem stuck_gmacEnc (ctx : FpeCtx) (lg : Nat → Nat → Nat) (n : Nat) (s : FpeSt × Block) (i : Nat)
    (h : s.1.a = s.1.b) : gmacEncryptRound ctx lg n s i = none := by
  unfold gmacEncryptRound swapPtrs
  simp [h]

theorem stuck_gmacDec (ctx : FpeCtx) (lg : Nat → Nat → Nat) (n : Nat) (s : FpeSt × Block) (i : Nat)
    (h : s.1.a = s.1.b) : gmacDecryptRound ctx lg n s i = none := by
  unfold gmacDecryptRound swapPtrs
  simp [h]

theorem fold_stuck {S : Type} (g : S → Nat → Option S) (i : Nat) (l : List Nat) (s : S) (h : g s i = none) :
    (i :: l).foldlM g s = none := by
  rw [List.foldlM_cons, h]
  rfl

theorem floor_short (n : Nat) (h : n ≤ 1) : floor2 n 1 = 0 := by
  have : n = 0 ∨ n = 1 := by omega
  rcases this with rfl | rfl <;> decide

/-- C98: with a string of at most one character FF1 stops at the assertion in its first round or before, in every context, with and
without tag. -/
theorem C98_ff1_short (ctx : FpeCtx) (lg : Nat → Nat → Nat) (junk : Nat → Block) (s rest out : List Byte)
    (h0 : ∀ c ∈ s, c ≠ 0) (hs : s.length ≤ 1) :
    ff1Encrypt ctx lg (s ++ 0 :: rest) out = none ∧ ff1Decrypt ctx lg (s ++ 0 :: rest) out = none ∧
    cmacEncrypt ctx lg junk (s ++ 0 :: rest) out = none ∧ cmacDecrypt ctx lg junk (s ++ 0 :: rest) out = none := by
  unfold ff1Encrypt ff1Decrypt cmacEncrypt cmacDecrypt
  rw [cstr_append s rest h0]
  simp only [Option.bind_some, floor_short _ hs]
  have hb : ∀ {α : Type} (x : Option Unit), (x.bind fun _ => (none : Option α)) = none := fun x => by cases x <;> rfl
  refine ⟨?_, ?_, ?_, ?_⟩
  · rw [show List.range 10 = 0 :: [1, 2, 3, 4, 5, 6, 7, 8, 9] from rfl, fold_stuck _ _ _ _ (stuck_ff1Enc _ _ _ _ _ rfl)]
    exact hb _
  · rw [show (List.range 10).reverse = 9 :: [8, 7, 6, 5, 4, 3, 2, 1, 0] from rfl,
      fold_stuck _ _ _ _ (stuck_ff1Dec _ _ _ _ _ rfl)]
    exact hb _
  · rw [show List.range 10 = 0 :: [1, 2, 3, 4, 5, 6, 7, 8, 9] from rfl, fold_stuck _ _ _ _ (stuck_cmacEnc _ _ _ _ _ _ rfl)]
    exact hb _
  · rw [show (List.range 10).reverse = 9 :: [8, 7, 6, 5, 4, 3, 2, 1, 0] from rfl,
      fold_stuck _ _ _ _ (stuck_cmacDec _ _ _ _ _ _ rfl)]
    exact hb _

/-- C98: so does FF3 with the empty string. -/
theorem C98_ff3_empty (ctx : FpeCtx) (lg : Nat → Nat → Nat) (rest out : List Byte) :
    ff3Encrypt ctx lg (0 :: rest) out = none ∧ ff3Decrypt ctx lg (0 :: rest) out = none ∧
    gmacEncrypt ctx lg (0 :: rest) out = none ∧ gmacDecrypt ctx lg (0 :: rest) out = none := by
  have hc : cstr (0 :: rest) = some [] := cstr_append [] rest (by simp)
  unfold ff3Encrypt ff3Decrypt gmacEncrypt gmacDecrypt
  rw [hc]
  simp only [Option.bind_some, List.length_nil, show ceil2 0 1 = 0 by decide]
  refine ⟨?_, ?_, ?_, ?_⟩
  · rw [show List.range 8 = 0 :: [1, 2, 3, 4, 5, 6, 7] from rfl, fold_stuck _ _ _ _ (stuck_ff3Enc _ _ _ _ _ rfl)]
    rfl
  · rw [show (List.range 8).reverse = 7 :: [6, 5, 4, 3, 2, 1, 0] from rfl, fold_stuck _ _ _ _ (stuck_ff3Dec _ _ _ _ _ rfl)]
    rfl
  · cases gmacStart ctx with
    | none => rfl
    | some M =>
      rw [Option.bind_some, show List.range 8 = 0 :: [1, 2, 3, 4, 5, 6, 7] from rfl,
        fold_stuck _ _ _ _ (stuck_gmacEnc _ _ _ _ _ rfl)]
      rfl
  · cases gmacStart ctx with
    | none => rfl
    | some M =>
      rw [Option.bind_some, show (List.range 8).reverse = 7 :: [6, 5, 4, 3, 2, 1, 0] from rfl,
        fold_stuck _ _ _ _ (stuck_gmacDec _ _ _ _ _ rfl)]
      rfl

/-! ### One numeral and FF3 -/

/-- What an even round adds to a single numeral, from the bytes 4-7 of the tweak. -/
def oneAdd (E : Block → Block) (W : List Byte) (i : Nat) : Nat :=
  numBytes (E (blockOf (List.zipWith (fun a b => a ^^^ b) W (bytesOf 4 i) ++ bytesOf 12 0).reverse)).toList.reverse

theorem ff3Y_one (E : Block → Block) (radix : Nat) (T : List Byte) (i : Nat) (hi : i % 2 = 0) :
    ff3Y E radix T i [] = oneAdd E ((T.drop 4).take 4) i := by
  unfold ff3Y ff3P oneAdd
  rw [if_pos hi]
  rfl

theorem str_one (radix x : Nat) : strRadix radix 1 x = [x % radix] := by
  simp [strRadix]

theorem num_one (radix d : Nat) : numRadix radix [d] = d := by
  simp [numRadix]

theorem two_one (E : Block → Block) (radix : Nat) (T : List Byte) (d i : Nat) (hi : i % 2 = 0) :
    ff3EncRound E radix 1 T (ff3EncRound E radix 1 T ([d], []) i) (i + 1) =
      ([(d + oneAdd E ((T.drop 4).take 4) i) % radix], []) := by
  have h1 : ff3EncRound E radix 1 T ([d], []) i = ([], [(d + oneAdd E ((T.drop 4).take 4) i) % radix]) := by
    unfold ff3EncRound
    simp only [hi, if_true, ff3Y_one E radix T i hi]
    simp [str_one, num_one]
  rw [h1]
  unfold ff3EncRound
  simp [show (i + 1) % 2 = 1 by omega, strRadix]

theorem ff3Enc_one (E : Block → Block) (radix : Nat) (T : List Byte) (d : Nat) :
    ff3Enc E radix T [d] = [(d + (oneAdd E ((T.drop 4).take 4) 0 + oneAdd E ((T.drop 4).take 4) 2 +
      oneAdd E ((T.drop 4).take 4) 4 + oneAdd E ((T.drop 4).take 4) 6)) % radix] := by
  unfold ff3Enc
  rw [show List.range 8 = [0, 0 + 1, 2, 2 + 1, 4, 4 + 1, 6, 6 + 1] from rfl]
  simp only [List.length_singleton, List.foldl_cons, List.foldl_nil, show (1 + 1) / 2 = 1 from rfl, List.take_succ_cons,
    List.take_zero, List.drop_succ_cons, List.drop_zero]
  rw [two_one _ _ _ _ 0 rfl, two_one _ _ _ _ 2 rfl, two_one _ _ _ _ 4 rfl, two_one _ _ _ _ 6 rfl]
  simp only [List.append_nil, Nat.mod_add_mod]
  congr 2
  omega

/-- C98: with a single numeral FF3 is a shift of the alphabet by an amount that depends, for a key, only on bytes 4-7 of the
tweak. -/
theorem C98_ff3_shift (E : Block → Block) (radix : Nat) : ∃ k : List Byte → Nat,
    ∀ (tweak : List Byte) (ctx : FpeCtx), fpeInit tweak radix E = some ctx → 8 ≤ tweak.length →
    ∀ (lg : Nat → Nat → Nat), LgOk lg → ∀ (c : Byte), IsNumeral radix c → ∀ rest out : List Byte, 1 < out.length →
      ff3Encrypt ctx lg (c :: 0 :: rest) out = some (shiftNumeral radix (k ((tweak.drop 4).take 4)) c :: 0 :: out.drop 2) ∧
      ff3Decrypt ctx lg (shiftNumeral radix (k ((tweak.drop 4).take 4)) c :: 0 :: rest) out = some (c :: 0 :: out.drop 2) := by
  refine ⟨fun W => oneAdd E W 0 + oneAdd E W 2 + oneAdd E W 4 + oneAdd E W 6, fun tweak ctx hc ht lg hlg c hcn rest out ho => ?_⟩
  have hr : 2 ≤ radix ∧ radix ≤ 36 := by
    unfold fpeInit at hc
    split at hc
    · cases hc
    · omega
  have hs : ∀ x ∈ [c], IsNumeral radix x := by simpa using hcn
  have e := (C66_ff3_nist ctx tweak radix E hc ht lg hlg [c] rest out hs (by simp) (by
    rw [List.length_singleton, Nat.pow_one]
    exact hr.2.trans (by decide)) ho).1
  have hd : ((tweak.take 8).drop 4).take 4 = (tweak.drop 4).take 4 := by
    rw [List.drop_take, List.take_take]
    rfl
  rw [List.map_cons, List.map_nil, ff3Enc_one, hd] at e
  refine ⟨e, ?_⟩
  obtain ⟨ct, h1, h2⟩ := C47_ff3_roundtrip ctx tweak radix E hc ht lg hlg [c] rest rest out out hs (by simp) ho ho
  rw [h1] at e
  have e' : ct = [shiftNumeral radix _ c] := List.append_inj_left' (Option.some.inj e) rfl
  rw [e'] at h2
  exact h2

/-- C98: so one numeral and its encryption give the encryption of all others, under every tweak with the same bytes 4-7. -/
theorem C98_ff3_one_pair (E : Block → Block) (radix : Nat) (tweak tweak' : List Byte) (ctx ctx' : FpeCtx)
    (hc : fpeInit tweak radix E = some ctx) (hc' : fpeInit tweak' radix E = some ctx') (ht : 8 ≤ tweak.length)
    (ht' : 8 ≤ tweak'.length) (hW : (tweak'.drop 4).take 4 = (tweak.drop 4).take 4) (lg : Nat → Nat → Nat) (hlg : LgOk lg)
    (c d c' d' : Byte) (hcn : IsNumeral radix c) (hcn' : IsNumeral radix c') (rest rest' out out' : List Byte)
    (ho : 1 < out.length) (ho' : 1 < out'.length) (h : ff3Encrypt ctx lg (c :: 0 :: rest) out = some (d :: 0 :: out.drop 2)) :
    ff3Encrypt ctx' lg (c' :: 0 :: rest') out' = some (d' :: 0 :: out'.drop 2) ↔
      IsNumeral radix d' ∧ (numeralVal d' + numeralVal c) % radix = (numeralVal c' + numeralVal d) % radix := by
  have hr : 2 ≤ radix ∧ radix ≤ 36 := by
    unfold fpeInit at hc
    split at hc
    · cases hc
    · omega
  obtain ⟨k, hk⟩ := C98_ff3_shift E radix
  have e := (hk tweak ctx hc ht lg hlg c hcn rest out ho).1
  have e' := (hk tweak' ctx' hc' ht' lg hlg c' hcn' rest' out' ho').1
  rw [h] at e
  rw [e', hW]
  have ed : d = shiftNumeral radix (k ((tweak.drop 4).take 4)) c := by
    have := Option.some.inj e
    exact (List.cons.inj this).1
  generalize k ((tweak.drop 4).take 4) = K at ed
  have hv : ∀ x : Nat, numeralVal (numeralChar (x % radix)) = x % radix := fun x =>
    numeralVal_char _ (Nat.lt_of_lt_of_le (Nat.mod_lt x (by omega)) hr.2)
  have vd : numeralVal d = (numeralVal c + K) % radix := by rw [ed, shiftNumeral, hv]
  rw [vd]
  constructor
  · intro h2
    have h3 := (List.cons.inj (Option.some.inj h2)).1
    rw [← h3, shiftNumeral, hv]
    refine ⟨numeralChar_isNumeral radix _ hr.2 (Nat.mod_lt _ (by omega)), ?_⟩
    rw [Nat.mod_add_mod, Nat.add_mod_mod]
    congr 1
    omega
  · rintro ⟨n1, n2⟩
    have n3 : numeralVal d' = (numeralVal c' + K) % radix := by
      rw [Nat.add_mod_mod] at n2
      have h4 := (mapChar_numeral d' n1).2
      refine add_mod_inj _ _ (numeralVal c) radix h4 (Nat.mod_lt _ (by omega)) ?_
      rw [n2, Nat.mod_add_mod]
      congr 1
      omega
    rw [shiftNumeral, ← n3, numeralChar_val d' n1]

/-- "7" under two tweaks that differ in bytes 0-3 only. -/
example (E : Block → Block) : ∃ d : Byte,
    ff3Encrypt ⟨E, 10, [1, 2, 3, 4, 5, 6, 7, 8]⟩ exactLg [55, 0] [0, 0] = some [d, 0] ∧
    ff3Encrypt ⟨E, 10, [9, 9, 9, 9, 5, 6, 7, 8]⟩ exactLg [55, 0] [0, 0] = some [d, 0] := by
  obtain ⟨k, hk⟩ := C98_ff3_shift E 10
  have hn : IsNumeral 10 (55 : Byte) := Or.inl (by decide)
  exact ⟨_, (hk [1, 2, 3, 4, 5, 6, 7, 8] _ rfl (by decide) exactLg lgOk_clog 55 hn [] [0, 0] (by decide)).1,
    (hk [9, 9, 9, 9, 5, 6, 7, 8] _ rfl (by decide) exactLg lgOk_clog 55 hn [] [0, 0] (by decide)).1⟩

/-! ### Masks that hide fewer than two characters -/

theorem pick_no_false (mask : List Bool) (xs : List Byte) (h : mask.count false = 0) : pick false mask xs = [] := by
  induction mask generalizing xs with
  | nil => cases xs <;> rfl
  | cons m ms ih =>
    cases xs with
    | nil => rfl
    | cons x xs =>
      cases m with
      | true => exact ih xs (by simpa using h)
      | false => simp at h

theorem fill_no_false (mask : List Bool) (xs : List Byte) (hl : mask.length = xs.length) (h : mask.count false = 0) :
    fill mask xs [] = xs := by
  induction mask generalizing xs with
  | nil => cases xs with
    | nil => rfl
    | cons x xs => simp at hl
  | cons m ms ih =>
    cases xs with
    | nil => simp at hl
    | cons x xs =>
      cases m with
      | true => rw [fill, ih xs (by simpa using hl) (by simpa using h)]
      | false => simp at h

theorem one_hidden (mask : List Bool) (xs : List Byte) (hl : mask.length = xs.length) (h : mask.count false = 1) (i : Nat)
    (hi : i < mask.length) (hi' : i < xs.length) (hf : mask[i] = false) (y : Byte) :
    pick false mask xs = [xs[i]] ∧ fill mask xs [y] = xs.set i y := by
  induction mask generalizing xs i with
  | nil => simp at hi
  | cons m ms ih =>
    cases xs with
    | nil => simp at hl
    | cons x xs =>
      have hl' : ms.length = xs.length := by simpa using hl
      cases m with
      | true =>
        cases i with
        | zero => simp at hf
        | succ j =>
          obtain ⟨a, b⟩ := ih xs hl' (by simpa using h) j (by simpa using hi) (by simpa using hi') (by simpa using hf)
          exact ⟨by simpa [pick] using a, by simpa [fill] using b⟩
      | false =>
        have h0 : ms.count false = 0 := by simpa using h
        cases i with
        | zero => exact ⟨by simp [pick, pick_no_false ms xs h0], by simp [fill, fill_no_false ms xs hl' h0]⟩
        | succ j =>
          have : false ∈ ms := by
            have hj : ms[j]'(by simpa using hi) = false := by simpa using hf
            rw [← hj]
            exact List.getElem_mem _
          exact absurd h0 (by rw [List.count_eq_zero]; exact fun hh => hh this)

theorem pick_all_true (mask : List Bool) (xs : List Byte) (hl : mask.length = xs.length) (h : mask.count false = 0) :
    pick true mask xs = xs := by
  induction mask generalizing xs with
  | nil => cases xs with
    | nil => rfl
    | cons x xs => simp at hl
  | cons m ms ih =>
    cases xs with
    | nil => simp at hl
    | cons x xs =>
      cases m with
      | true => simp [pick, ih xs (by simpa using hl) (by simpa using h)]
      | false => simp at h

theorem one_hidden_shown (mask : List Bool) (xs : List Byte) (hl : mask.length = xs.length) (h : mask.count false = 1) (i : Nat)
    (hi : i < mask.length) (hi' : i < xs.length) (hf : mask[i] = false) : pick true mask xs = xs.eraseIdx i := by
  induction mask generalizing xs i with
  | nil => simp at hi
  | cons m ms ih =>
    cases xs with
    | nil => simp at hl
    | cons x xs =>
      have hl' : ms.length = xs.length := by simpa using hl
      cases m with
      | true =>
        cases i with
        | zero => simp at hf
        | succ j =>
          have a := ih xs hl' (by simpa using h) j (by simpa using hi) (by simpa using hi') (by simpa using hf)
          simpa [pick] using a
      | false =>
        have h0 : ms.count false = 0 := by simpa using h
        cases i with
        | zero => simp [pick, pick_all_true ms xs hl' h0]
        | succ j =>
          have : false ∈ ms := by
            have hj : ms[j]'(by simpa using hi) = false := by simpa using hf
            rw [← hj]
            exact List.getElem_mem _
          exact absurd h0 (by rw [List.count_eq_zero]; exact fun hh => hh this)

/-- C98, phone numbers: FF1 with at most one hidden character and FF3 with none stop at an assertion, for every number, sample,
cipher and memory. -/
theorem C98_phone_short (app : FpeApp) (lg : Nat → Nat → Nat) (mem : AppMem) (phone smp rest more after : List Byte)
    (hp : ∀ c ∈ phone, c ≠ 0) (h0 : ∀ c ∈ smp, c ≠ 0) (hs : smp = [] ∨ phone.length ≤ smp.length)
    (hk : (app.ffx = .ff1 ∧ hiddenCount smp phone.length ≤ 1) ∨ hiddenCount smp phone.length = 0) :
    encryptPhone app lg mem (phone ++ 0 :: rest) (smp ++ 0 :: more) after = none ∧
    decryptPhone app lg mem (phone ++ 0 :: rest) (smp ++ 0 :: more) after = none := by
  have hl := maskOf_length smp phone.length hs
  have hcf := length_pick false _ phone hl
  have hco := maskOf_count smp phone.length
  have hz : ∀ c ∈ pick false (maskOf smp phone.length) phone, c ≠ 0 := fun c hc => hp c (mem_pick _ _ _ c hc)
  have key : ∀ out, encFn app lg ⟨app.E, 10, pick true (maskOf smp phone.length) phone ++ [0]⟩
        (pick false (maskOf smp phone.length) phone ++ [0]) out = none ∧
      decFn app lg ⟨app.E, 10, pick true (maskOf smp phone.length) phone ++ [0]⟩
        (pick false (maskOf smp phone.length) phone ++ [0]) out = none := by
    intro out
    unfold encFn decFn
    cases hf : app.ffx with
    | ff1 =>
      have := C98_ff1_short ⟨app.E, 10, pick true (maskOf smp phone.length) phone ++ [0]⟩ lg (fun _ => zeroBlock) _ [] out hz
        (by omega)
      exact ⟨this.1, this.2.1⟩
    | ff3 =>
      have e : pick false (maskOf smp phone.length) phone = [] := by
        apply pick_no_false
        rcases hk with ⟨h, -⟩ | h
        · rw [hf] at h; cases h
        · omega
      have := C98_ff3_empty ⟨app.E, 10, pick true (maskOf smp phone.length) phone ++ [0]⟩ lg [] out
      rw [e]
      exact ⟨this.1, this.2.1⟩
  unfold encryptPhone decryptPhone
  rw [auxPhone_eq app mem phone rest smp more after hp h0 hs, auxPhone_eq app mem phone rest smp more after hp h0 hs,
    (key _).1, (key _).2]
  exact ⟨rfl, rfl⟩

/-- C98, phone numbers: FF3 with exactly one hidden digit replaces it by the digit `k` places further, `k` a function of the
shown characters number 4 to 7 (and the key) alone. -/
theorem C98_phone_one (app : FpeApp) (hf : app.ffx = .ff3) : ∃ k : List Byte → Nat,
    ∀ (lg : Nat → Nat → Nat), LgOk lg → ∀ (phone smp : List Byte), (∀ c ∈ phone, c ≠ 0) → (∀ c ∈ smp, c ≠ 0) →
    phone.length ≤ smp.length → hiddenCount smp phone.length = 1 → 8 ≤ phone.length →
    ∀ (i : Nat) (hi : i < phone.length), Hidden smp i → IsNumeral 10 phone[i] →
    ∀ (mem : AppMem) (rest more after : List Byte), 1 ≤ mem.slack → phone.length ≤ after.length →
      encryptPhone app lg mem (phone ++ 0 :: rest) (smp ++ 0 :: more) after =
        some (phone.set i (shiftNumeral 10 (k (((phone.eraseIdx i ++ [0]).drop 4).take 4)) phone[i]) ++ after.drop phone.length) := by
  obtain ⟨k, hk⟩ := C98_ff3_shift app.E 10
  refine ⟨k, fun lg hlg phone smp hp h0 hs hc h8 i hi hh hn mem rest more after hm ha => ?_⟩
  have hs' : smp = [] ∨ phone.length ≤ smp.length := Or.inr hs
  have hl := maskOf_length smp phone.length hs'
  have hco := maskOf_count smp phone.length
  have hfl := count_flags (maskOf smp phone.length)
  have him : i < (maskOf smp phone.length).length := by omega
  have hmi := (maskOf_getElem smp phone.length i hs' him).mpr hh
  have htr : pick true (maskOf smp phone.length) phone = phone.eraseIdx i :=
    one_hidden_shown _ _ hl (by omega) i him hi hmi
  have hlt : 8 ≤ (phone.eraseIdx i ++ [0]).length := by
    rw [List.length_append, List.length_eraseIdx_of_lt hi]
    simp
    omega
  have e := (hk (phone.eraseIdx i ++ [0]) _ rfl hlt lg hlg phone[i] hn [] (vla mem.ans ((maskOf smp phone.length).count false + mem.slack))
    (by rw [length_vla]; omega)).1
  have o := one_hidden _ _ hl (by omega) i him hi hmi
  unfold encryptPhone
  rw [auxPhone_some app mem phone rest smp more after hp h0 hs' ha _ [shiftNumeral 10 (k (((phone.eraseIdx i ++ [0]).drop 4).take 4)) phone[i]]
    (0 :: (vla mem.ans ((maskOf smp phone.length).count false + mem.slack)).drop 2) (by simp; omega) (by
      rw [htr, (o 0).1]
      unfold encFn
      rw [hf]
      exact e), (o _).2]

/-- C98, identity cards: FF1 with at most one hidden character and FF3 with none stop at an assertion, for every card, sample,
cipher and memory. -/
theorem C98_idcard_short (app : FpeApp) (lg : Nat → Nat → Nat) (mem : AppMem) (body tail smp rest more after : List Byte)
    (hform : CardForm body tail)
    (hp : ∀ c ∈ body, c ≠ 0) (h0 : ∀ c ∈ smp, c ≠ 0) (hs : smp = [] ∨ body.length ≤ smp.length)
    (hk : (app.ffx = .ff1 ∧ hiddenCount smp body.length ≤ 1) ∨ hiddenCount smp body.length = 0) :
    encryptIdcard app lg mem (body ++ tail ++ 0 :: rest) (smp ++ 0 :: more) after = none ∧
    decryptIdcard app lg mem (body ++ tail ++ 0 :: rest) (smp ++ 0 :: more) after = none := by
  have hl := maskOf_length smp body.length hs
  have hcf := length_pick false _ body hl
  have hco := maskOf_count smp body.length
  have hz : ∀ c ∈ pick false (maskOf smp body.length) body, c ≠ 0 := fun c hc => hp c (mem_pick _ _ _ c hc)
  have key : ∀ out, encFn app lg ⟨app.E, 10, pick true (maskOf smp body.length) body ++ [0]⟩
        (pick false (maskOf smp body.length) body ++ [0]) out = none ∧
      decFn app lg ⟨app.E, 10, pick true (maskOf smp body.length) body ++ [0]⟩
        (pick false (maskOf smp body.length) body ++ [0]) out = none := by
    intro out
    unfold encFn decFn
    cases hf : app.ffx with
    | ff1 =>
      have := C98_ff1_short ⟨app.E, 10, pick true (maskOf smp body.length) body ++ [0]⟩ lg (fun _ => zeroBlock) _ [] out hz
        (by omega)
      exact ⟨this.1, this.2.1⟩
    | ff3 =>
      have e : pick false (maskOf smp body.length) body = [] := by
        apply pick_no_false
        rcases hk with ⟨h, -⟩ | h
        · rw [hf] at h; cases h
        · omega
      have := C98_ff3_empty ⟨app.E, 10, pick true (maskOf smp body.length) body ++ [0]⟩ lg [] out
      rw [e]
      exact ⟨this.1, this.2.1⟩
  unfold encryptIdcard decryptIdcard
  rw [auxIdcard_eq app mem body tail rest smp more after hform hp h0 hs, auxIdcard_eq app mem body tail rest smp more after hform hp h0 hs,
    (key _).1, (key _).2]
  exact ⟨rfl, rfl⟩

/-- C98, identity cards: FF3 with exactly one hidden digit replaces it by the digit `k` places further, `k` a function of the
shown characters number 4 to 7 (and the key) alone. -/
theorem C98_idcard_one (app : FpeApp) (hf : app.ffx = .ff3) : ∃ k : List Byte → Nat,
    ∀ (lg : Nat → Nat → Nat), LgOk lg → ∀ (body tail smp : List Byte), CardForm body tail → (∀ c ∈ body, c ≠ 0) → (∀ c ∈ smp, c ≠ 0) →
    body.length ≤ smp.length → hiddenCount smp body.length = 1 → 8 ≤ body.length →
    ∀ (i : Nat) (hi : i < body.length), Hidden smp i → IsNumeral 10 body[i] →
    ∀ (mem : AppMem) (rest more after : List Byte), 1 ≤ mem.slack → (body ++ tail).length ≤ after.length →
      encryptIdcard app lg mem (body ++ tail ++ 0 :: rest) (smp ++ 0 :: more) after =
        some (body.set i (shiftNumeral 10 (k (((body.eraseIdx i ++ [0]).drop 4).take 4)) body[i]) ++ tail ++ after.drop (body ++ tail).length) := by
  obtain ⟨k, hk⟩ := C98_ff3_shift app.E 10
  refine ⟨k, fun lg hlg body tail smp hform hp h0 hs hc h8 i hi hh hn mem rest more after hm ha => ?_⟩
  have hs' : smp = [] ∨ body.length ≤ smp.length := Or.inr hs
  have hl := maskOf_length smp body.length hs'
  have hco := maskOf_count smp body.length
  have hfl := count_flags (maskOf smp body.length)
  have him : i < (maskOf smp body.length).length := by omega
  have hmi := (maskOf_getElem smp body.length i hs' him).mpr hh
  have htr : pick true (maskOf smp body.length) body = body.eraseIdx i :=
    one_hidden_shown _ _ hl (by omega) i him hi hmi
  have hlt : 8 ≤ (body.eraseIdx i ++ [0]).length := by
    rw [List.length_append, List.length_eraseIdx_of_lt hi]
    simp
    omega
  have e := (hk (body.eraseIdx i ++ [0]) _ rfl hlt lg hlg body[i] hn [] (vla mem.ans ((maskOf smp body.length).count false + mem.slack))
    (by rw [length_vla]; omega)).1
  have o := one_hidden _ _ hl (by omega) i him hi hmi
  unfold encryptIdcard
  rw [auxIdcard_some app mem body tail rest smp more after hform hp h0 hs' ha _ [shiftNumeral 10 (k (((body.eraseIdx i ++ [0]).drop 4).take 4)) body[i]]
    (0 :: (vla mem.ans ((maskOf smp body.length).count false + mem.slack)).drop 2) (by simp; omega) (by
      rw [htr, (o 0).1]
      unfold encFn
      rw [hf]
      exact e), (o _).2]

/-- The phone number 13888888888 with the sample "shown but for the last digit". -/
example : (∀ c ∈ ([49, 51, 56, 56, 56, 56, 56, 56, 56, 56, 56] : List Byte), c ≠ 0) ∧
    hiddenCount [45, 45, 45, 45, 45, 45, 45, 45, 45, 45, 42] 11 = 1 ∧ Hidden [45, 45, 45, 45, 45, 45, 45, 45, 45, 45, 42] 10 ∧
    IsNumeral 10 (56 : Byte) ∧ hiddenCount [45, 45, 45, 45, 45, 45, 45, 45, 45, 45, 45] 11 = 0 :=
  ⟨by decide, by decide, Or.inr rfl, Or.inl (by decide), by decide⟩

/-- An identity card that shows all but one digit and the check character. -/
example : CardForm (List.replicate 17 49) [0x58] ∧ hiddenCount (List.replicate 16 45 ++ [42]) 17 = 1 ∧
    Hidden (List.replicate 16 45 ++ [42]) 16 := ⟨Or.inl rfl, by decide, Or.inr rfl⟩

/-- C98, Chinese text: when the sample shows every character (or there is none), both functions stop at an assertion. -/
theorem C98_cn_short (app : FpeApp) (lg : Nat → Nat → Nat) (mem : AppMem) (cps : List Nat) (smp rest more after : List Byte)
    (mask : List Bool) (hr : ∀ cp ∈ cps, InCnRange cp) (hm : CnSample smp mask cps.length) (hv : mask.count false = 0) :
    encryptCn app lg mem (utf8Text cps ++ 0 :: rest) (smp ++ 0 :: more) after = none ∧
    decryptCn app lg mem (utf8Text cps ++ 0 :: rest) (smp ++ 0 :: more) after = none := by
  have e : pick false mask cps = [] := List.length_eq_zero_iff.mp (by rw [length_pick _ _ _ hm.length, hv])
  unfold encryptCn decryptCn
  rw [auxCn_eq app mem cps smp rest more after mask hr hm, auxCn_eq app mem cps smp rest more after mask hr hm, e]
  have h1 := fun out => C98_ff1_short ⟨app.E, 12, duoText (pick true mask cps) ++ [0]⟩ lg (fun _ => zeroBlock) [] [] out
    (by simp) (by simp)
  have h3 := fun out => C98_ff3_empty ⟨app.E, 12, duoText (pick true mask cps) ++ [0]⟩ lg [] out
  unfold encFn decFn
  cases app.ffx with
  | ff1 => exact ⟨congrArg (Option.bind · _) (h1 _).1, congrArg (Option.bind · _) (h1 _).2.1⟩
  | ff3 => exact ⟨congrArg (Option.bind · _) (h3 _).1, congrArg (Option.bind · _) (h3 _).2.1⟩

example : CnSample [0xe4, 0xb8, 0xad] [true] 1 ∧ InCnRange 0x4E2D ∧ [true].count false = 0 := by
  refine ⟨Or.inr ⟨[some (0xe4, 0xb8, 0xad)], ?_, by simp, rfl, rfl, rfl⟩, ?_, rfl⟩
  · intro a b c h
    simp at h
    obtain ⟨rfl, rfl, rfl⟩ := h
    decide
  · unfold InCnRange
    decide

end Verif.Props
