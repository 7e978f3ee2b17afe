import Verif.Props.Fpe

/-! C47-C49: FF3. -/
set_option autoImplicit false

namespace Verif.Props
open Verif Spec Model

/-- The round function of FF3: the number `y` and the block `S` it is read from. -/
def ff3FOpt (ctx : FpeCtx) (lg : Nat → Nat → Nat) (n i x : Nat) : Option (Nat × Block) :=
  (ff3RoundS ctx lg n i x).map fun S => (bin2bn S.toList, S)

/-- The round function as a total function. -/
def ff3Fn (ctx : FpeCtx) (lg : Nat → Nat → Nat) (n i x : Nat) : Nat × Block :=
  (ff3FOpt ctx lg n i x).getD (0, zeroBlock)

theorem ceil2_one (n : Nat) : ceil2 n 1 = (n + 1) / 2 := ceil2_eq n 1

theorem ff3_fits (lg : Nat → Nat → Nat) (hlg : LgOk lg) (r n i x : Nat) (hr : 2 ≤ r)
    (h : x < r ^ (n - halfLen n ((n + 1) / 2) i)) : x < 256 ^ ceil2 (lg r ((n + 1) / 2)) 3 := by
  apply bits_fit
  refine Nat.lt_of_lt_of_le (Nat.lt_of_lt_of_le h ?_) (hlg r _ hr)
  apply Nat.pow_le_pow_right (by omega)
  unfold halfLen
  split <;> omega

theorem ff3W_some (tweak : List Byte) (i : Nat) (h : 8 ≤ tweak.length) :
    ff3W tweak i = some ((tweak.drop (if i % 2 = 1 then 0 else 4)).take 4) := by
  unfold ff3W
  simp only
  rw [if_pos (by split <;> omega)]

theorem ff3RoundS_some (ctx : FpeCtx) (lg : Nat → Nat → Nat) (hlg : LgOk lg) (n i x : Nat) (hr : 2 ≤ ctx.radix)
    (ht : 8 ≤ ctx.tweak.length)
    (h : x < ctx.radix ^ (n - halfLen n ((n + 1) / 2) i)) : ∃ S, ff3RoundS ctx lg n i x = some S := by
  unfold ff3RoundS ff3PBytes
  simp only [ceil2_one]
  rw [ff3W_some _ _ ht]
  simp only [Option.bind_some]
  have hle := (bnNumBytes_le_iff _ _).mpr (ff3_fits lg hlg _ _ _ _ hr h)
  rw [if_neg (by rw [length_bn2bin]; exact Nat.not_lt.mpr hle)]
  exact ⟨_, rfl⟩

theorem ff3_ok (ctx : FpeCtx) (lg : Nat → Nat → Nat) (hlg : LgOk lg) (n : Nat) (hn : 1 ≤ n) (hr : 2 ≤ ctx.radix)
    (ht : 8 ≤ ctx.tweak.length) :
    FeistelOk n ((n + 1) / 2) ctx.radix (fun i => ctx.radix ^ halfLen n ((n + 1) / 2) i)
      (fun X => str2numRev X ctx.radix) (fun x m => num2strRev x ctx.radix m) (ff3FOpt ctx lg n)
      (ff3Fn ctx lg n) := by
  obtain ⟨c1, c2, c3, c4, c5⟩ := codec_lsb ctx.radix hr
  refine ⟨hr, by omega, by omega, fun _ => rfl, c1, c2, c3, c4, c5, ?_⟩
  intro i x _ hx
  obtain ⟨y, hy⟩ := ff3RoundS_some ctx lg hlg n i x hr ht hx
  unfold ff3Fn ff3FOpt
  rw [hy]
  rfl

theorem q_ff3 (r n i : Nat) (u : Nat) (hu : u = (n + 1) / 2) :
    (if i % 2 = 1 then (powUv r u (n - u)).2 else (powUv r u (n - u)).1) = r ^ halfLen n u i := by
  rw [powUv_eq _ _ _ (by omega) (by omega)]
  unfold halfLen
  split <;> rfl

theorem ff3Enc_round (ctx : FpeCtx) (lg : Nat → Nat → Nat) (n : Nat) (s : FpeSt) (i : Nat) :
    ff3EncryptRound ctx lg n s i =
      (encR n ((n + 1) / 2) (fun i => ctx.radix ^ halfLen n ((n + 1) / 2) i) (fun X => str2numRev X ctx.radix)
        (fun x m => num2strRev x ctx.radix m) (ff3FOpt ctx lg n) (fun (_ : Unit) _ => ()) (s, ()) i).map Prod.fst := by
  unfold ff3EncryptRound encR
  simp only [ceil2_one]
  rw [← halfLen]
  simp only [q_ff3 ctx.radix n i ((n + 1) / 2) rfl]
  cases h1 : rdDigits s.out s.b (n - halfLen n ((n + 1) / 2) i) with
  | none => rfl
  | some B =>
    simp only [Option.bind_some, ff3FOpt]
    cases h2 : ff3RoundS ctx lg n i (str2numRev B ctx.radix) with
    | none => rfl
    | some y =>
      simp only [Option.bind_some, Option.map_some]
      cases h3 : rdDigits s.out s.a (halfLen n ((n + 1) / 2) i) with
      | none => rfl
      | some A =>
        simp only [Option.bind_some]
        cases h4 : swapPtrs s with
        | none => rfl
        | some s' =>
          simp only [Option.bind_some]
          cases wrDigits s'.out s'.b _ <;> rfl

theorem ff3Dec_round (ctx : FpeCtx) (lg : Nat → Nat → Nat) (n : Nat) (s : FpeSt) (i : Nat) :
    ff3DecryptRound ctx lg n s i =
      (decR n ((n + 1) / 2) (fun i => ctx.radix ^ halfLen n ((n + 1) / 2) i) (fun X => str2numRev X ctx.radix)
        (fun x m => num2strRev x ctx.radix m) (ff3FOpt ctx lg n) (fun (_ : Unit) _ => ()) (s, ()) i).map Prod.fst := by
  unfold ff3DecryptRound decR
  simp only [ceil2_one]
  rw [← halfLen]
  simp only [q_ff3 ctx.radix n i ((n + 1) / 2) rfl]
  cases h1 : rdDigits s.out s.a (n - halfLen n ((n + 1) / 2) i) with
  | none => rfl
  | some B =>
    simp only [Option.bind_some, ff3FOpt]
    cases h2 : ff3RoundS ctx lg n i (str2numRev B ctx.radix) with
    | none => rfl
    | some y =>
      simp only [Option.bind_some, Option.map_some]
      cases h3 : rdDigits s.out s.b (halfLen n ((n + 1) / 2) i) with
      | none => rfl
      | some A =>
        simp only [Option.bind_some]
        cases h4 : swapPtrs s with
        | none => rfl
        | some s' =>
          simp only [Option.bind_some]
          cases wrDigits s'.out s'.a _ <;> rfl

/-- The FF3 ciphertext digits of the model. -/
def ff3Out (ctx : FpeCtx) (lg : Nat → Nat → Nat) (X : List Nat) : List Nat :=
  fenc X.length ((X.length + 1) / 2) (fun i => ctx.radix ^ halfLen X.length ((X.length + 1) / 2) i)
    (fun X => str2numRev X ctx.radix) (fun x m => num2strRev x ctx.radix m) (ff3Fn ctx lg X.length) 8 X

/-- The FF3 plaintext digits of the model. -/
def ff3Undo (ctx : FpeCtx) (lg : Nat → Nat → Nat) (X : List Nat) : List Nat :=
  fundo X.length ((X.length + 1) / 2) (fun i => ctx.radix ^ halfLen X.length ((X.length + 1) / 2) i)
    (fun X => str2numRev X ctx.radix) (fun x m => num2strRev x ctx.radix m) (ff3Fn ctx lg X.length) 8 X

theorem ff3Encrypt_eq (ctx : FpeCtx) (lg : Nat → Nat → Nat) (hlg : LgOk lg) (hr : 2 ≤ ctx.radix)
    (ht : 8 ≤ ctx.tweak.length)
    (s rest out : List Byte) (hs : ∀ c ∈ s, IsNumeral ctx.radix c) (hn : 1 ≤ s.length) (ho : s.length < out.length) :
    ff3Encrypt ctx lg (s ++ 0 :: rest) out =
      some ((ff3Out ctx lg (vals s)).map numeralChar ++ 0 :: out.drop (s.length + 1)) := by
  have ok := ff3_ok ctx lg hlg s.length hn hr ht
  have hl := length_vals s
  have hv := vals_lt s hs
  unfold ff3Encrypt
  rw [cstr_append s rest (fun c hc => numeral_ne_zero c (hs c hc))]
  simp only [Option.bind_some]
  rw [foldlM_drop_unit _ _ (ff3Enc_round ctx lg s.length), map_mapChar s hs, ceil2_one,
    engine_enc ok _ 8 (by decide) rfl _ hl hv]
  simp only [Option.map_some, Option.bind_some, fpeStart]
  have h1 := (fenc_ok ok 8 _ hl hv).1
  rw [invMapChars_eq _ _ (by rw [h1]; exact ho), h1]
  unfold ff3Out
  rw [hl]

theorem ff3Decrypt_eq (ctx : FpeCtx) (lg : Nat → Nat → Nat) (hlg : LgOk lg) (hr : 2 ≤ ctx.radix)
    (ht : 8 ≤ ctx.tweak.length)
    (s rest out : List Byte) (hs : ∀ c ∈ s, IsNumeral ctx.radix c) (hn : 1 ≤ s.length) (ho : s.length < out.length) :
    ff3Decrypt ctx lg (s ++ 0 :: rest) out =
      some ((ff3Undo ctx lg (vals s)).map numeralChar ++ 0 :: out.drop (s.length + 1)) := by
  have ok := ff3_ok ctx lg hlg s.length hn hr ht
  have hl := length_vals s
  have hv := vals_lt s hs
  unfold ff3Decrypt
  rw [cstr_append s rest (fun c hc => numeral_ne_zero c (hs c hc))]
  simp only [Option.bind_some]
  obtain ⟨a, e⟩ := engine_undo ok (fun (_ : Unit) _ => ()) 8 (by decide) rfl _ hl hv ()
  rw [foldlM_drop_unit _ _ (ff3Dec_round ctx lg s.length), map_mapChar s hs, ceil2_one, e]
  simp only [Option.map_some, Option.bind_some, fpeStart]
  have h1 := (fundo_ok ok 8 rfl _ hl hv).1
  rw [invMapChars_eq _ _ (by rw [h1]; exact ho), h1]
  unfold ff3Undo
  rw [hl]

theorem ff3Out_ok (ctx : FpeCtx) (lg : Nat → Nat → Nat) (hlg : LgOk lg) (hr : 2 ≤ ctx.radix)
    (ht : 8 ≤ ctx.tweak.length) (X : List Nat)
    (hX : ∀ d ∈ X, d < ctx.radix) (hn : 1 ≤ X.length) :
    (ff3Out ctx lg X).length = X.length ∧ (∀ d ∈ ff3Out ctx lg X, d < ctx.radix) ∧
    ff3Undo ctx lg (ff3Out ctx lg X) = X := by
  have ok := ff3_ok ctx lg hlg X.length hn hr ht
  obtain ⟨h1, h2⟩ := fenc_ok ok 8 X rfl hX
  refine ⟨h1, h2, ?_⟩
  have h1' : (ff3Out ctx lg X).length = X.length := h1
  unfold ff3Undo
  rw [h1']
  exact fundo_fenc ok 8 (by decide) rfl X rfl hX

theorem ff3Undo_ok (ctx : FpeCtx) (lg : Nat → Nat → Nat) (hlg : LgOk lg) (hr : 2 ≤ ctx.radix)
    (ht : 8 ≤ ctx.tweak.length) (X : List Nat)
    (hX : ∀ d ∈ X, d < ctx.radix) (hn : 1 ≤ X.length) :
    (ff3Undo ctx lg X).length = X.length ∧ (∀ d ∈ ff3Undo ctx lg X, d < ctx.radix) ∧
    ff3Out ctx lg (ff3Undo ctx lg X) = X := by
  have ok := ff3_ok ctx lg hlg X.length hn hr ht
  obtain ⟨h1, h2⟩ := fundo_ok ok 8 rfl X rfl hX
  refine ⟨h1, h2, ?_⟩
  have h1' : (ff3Undo ctx lg X).length = X.length := h1
  unfold ff3Out
  rw [h1']
  exact fenc_fundo ok 8 rfl X rfl hX

/-- C47: for every context made by `fpe_init` with at least eight tweak bytes and every nonempty numeral
string, FF3 encryption succeeds with some `ct`, and decrypting `ct` gives back the input. -/
theorem C47_ff3_roundtrip (ctx : FpeCtx) (tweak : List Byte) (radix : Nat) (E : Block → Block)
    (hc : fpeInit tweak radix E = some ctx) (ht : 8 ≤ tweak.length) (lg : Nat → Nat → Nat) (hlg : LgOk lg)
    (s rest rest' out out' : List Byte) (hs : ∀ c ∈ s, IsNumeral radix c) (hn : 1 ≤ s.length)
    (ho : s.length < out.length) (ho' : s.length < out'.length) :
    ∃ ct, ff3Encrypt ctx lg (s ++ 0 :: rest) out = some (ct ++ 0 :: out.drop (s.length + 1)) ∧
      ff3Decrypt ctx lg (ct ++ 0 :: rest') out' = some (s ++ 0 :: out'.drop (s.length + 1)) := by
  unfold fpeInit at hc
  split at hc
  · cases hc
  · rename_i hr
    injection hc with hc
    subst hc
    have hr2 : 2 ≤ radix := by omega
    obtain ⟨h1, h2, h3⟩ := ff3Out_ok ⟨E, radix, tweak⟩ lg hlg hr2 ht (vals s) (vals_lt s hs)
      (by rw [length_vals]; exact hn)
    rw [length_vals] at h1
    refine ⟨_, ff3Encrypt_eq _ lg hlg hr2 ht s rest out hs hn ho, ?_⟩
    rw [ff3Decrypt_eq _ lg hlg hr2 ht _ rest' out' (chars_numeral (by simp only; omega) _ h2)
      (by rw [List.length_map, h1]; exact hn) (by rw [List.length_map, h1]; exact ho')]
    rw [vals_chars _ (fun d hd => by have := h2 d hd; simp only at this; omega), h3, chars_vals s hs,
      List.length_map, h1]

/-- C47, the other direction: every numeral string is the encryption of its decryption. -/
theorem C47_ff3_decrypt_then_encrypt (ctx : FpeCtx) (tweak : List Byte) (radix : Nat) (E : Block → Block)
    (hc : fpeInit tweak radix E = some ctx) (ht : 8 ≤ tweak.length) (lg : Nat → Nat → Nat) (hlg : LgOk lg)
    (s rest rest' out out' : List Byte) (hs : ∀ c ∈ s, IsNumeral radix c) (hn : 1 ≤ s.length)
    (ho : s.length < out.length) (ho' : s.length < out'.length) :
    ∃ pt, ff3Decrypt ctx lg (s ++ 0 :: rest) out = some (pt ++ 0 :: out.drop (s.length + 1)) ∧
      ff3Encrypt ctx lg (pt ++ 0 :: rest') out' = some (s ++ 0 :: out'.drop (s.length + 1)) := by
  unfold fpeInit at hc
  split at hc
  · cases hc
  · rename_i hr
    injection hc with hc
    subst hc
    have hr2 : 2 ≤ radix := by omega
    obtain ⟨h1, h2, h3⟩ := ff3Undo_ok ⟨E, radix, tweak⟩ lg hlg hr2 ht (vals s) (vals_lt s hs)
      (by rw [length_vals]; exact hn)
    rw [length_vals] at h1
    refine ⟨_, ff3Decrypt_eq _ lg hlg hr2 ht s rest out hs hn ho, ?_⟩
    rw [ff3Encrypt_eq _ lg hlg hr2 ht _ rest' out' (chars_numeral (by simp only; omega) _ h2)
      (by rw [List.length_map, h1]; exact hn) (by rw [List.length_map, h1]; exact ho')]
    rw [vals_chars _ (fun d hd => by have := h2 d hd; simp only at this; omega), h3, chars_vals s hs,
      List.length_map, h1]

/-- The hypotheses are met by "z0a" in radix 36 with the eight-byte tweak 1..8. -/
example : fpeInit [1, 2, 3, 4, 5, 6, 7, 8] 36 id = some ⟨id, 36, [1, 2, 3, 4, 5, 6, 7, 8]⟩ ∧
    (∀ c ∈ ([122, 48, 97] : List Byte), IsNumeral 36 c) :=
  ⟨rfl, by intro c hc; unfold IsNumeral; revert c; decide⟩

/-- C48: the FF3 ciphertext has the plaintext's length, consists of numerals of the radix, is followed by
a NUL, and the rest of the output buffer is untouched. -/
theorem C48_ff3_format (ctx : FpeCtx) (tweak : List Byte) (radix : Nat) (E : Block → Block)
    (hc : fpeInit tweak radix E = some ctx) (ht : 8 ≤ tweak.length) (lg : Nat → Nat → Nat) (hlg : LgOk lg)
    (s rest out : List Byte) (hs : ∀ c ∈ s, IsNumeral radix c) (hn : 1 ≤ s.length) (ho : s.length < out.length) :
    ∃ ct, ff3Encrypt ctx lg (s ++ 0 :: rest) out = some (ct ++ 0 :: out.drop (s.length + 1)) ∧
      ct.length = s.length ∧ ∀ c ∈ ct, IsNumeral radix c := by
  unfold fpeInit at hc
  split at hc
  · cases hc
  · rename_i hr
    injection hc with hc
    subst hc
    have hr2 : 2 ≤ radix := by omega
    obtain ⟨h1, h2, h3⟩ := ff3Out_ok ⟨E, radix, tweak⟩ lg hlg hr2 ht (vals s) (vals_lt s hs)
      (by rw [length_vals]; exact hn)
    rw [length_vals] at h1
    exact ⟨_, ff3Encrypt_eq _ lg hlg hr2 ht s rest out hs hn ho, by rw [List.length_map, h1],
      chars_numeral (by omega) _ h2⟩

/-! ### C49 -/

theorem ff3RoundS_short (ctx : FpeCtx) (lg : Nat → Nat → Nat) (n i x : Nat) (hi : i % 2 = 0)
    (ht : ctx.tweak.length < 8) : ff3RoundS ctx lg n i x = none := by
  unfold ff3RoundS ff3PBytes ff3W
  simp only
  rw [if_neg (by rw [if_neg (by omega)]; omega)]
  rfl

theorem foldlM_none {S : Type} (g : S → Nat → Option S) (i : Nat) (h : ∀ s, g s i = none) (l : List Nat)
    (hi : i ∈ l) : ∀ s, l.foldlM g s = none := by
  induction l with
  | nil => cases hi
  | cons a l ih =>
    intro s
    rw [List.foldlM_cons]
    rcases List.mem_cons.mp hi with rfl | hi
    · rw [h]; rfl
    · cases hg : g s a with
      | none => rfl
      | some t => exact ih hi t

/-- C49: with a tweak shorter than eight bytes, `FF3` encryption and decryption read outside the copied
tweak, for every input, output buffer, radix and cipher. -/
theorem C49_ff3_short_tweak (tweak : List Byte) (radix : Nat) (E : Block → Block) (ctx : FpeCtx)
    (hc : fpeInit tweak radix E = some ctx) (ht : tweak.length < 8) (lg : Nat → Nat → Nat) (input out : List Byte) :
    ff3Encrypt ctx lg input out = none ∧ ff3Decrypt ctx lg input out = none := by
  have ht' : ctx.tweak.length < 8 := by
    unfold fpeInit at hc
    split at hc
    · cases hc
    · injection hc with hc; subst hc; exact ht
  constructor
  · unfold ff3Encrypt
    cases cstr input with
    | none => rfl
    | some s =>
      simp only [Option.bind_some]
      rw [foldlM_none _ 0 _ _ (by decide)]
      · rfl
      · intro st
        unfold ff3EncryptRound
        simp only
        rw [if_neg (by decide)]
        cases rdDigits st.out st.b _ with
        | none => rfl
        | some B => simp only [Option.bind_some]; rw [ff3RoundS_short _ _ _ _ _ rfl ht']; rfl
  · unfold ff3Decrypt
    cases cstr input with
    | none => rfl
    | some s =>
      simp only [Option.bind_some]
      rw [foldlM_none _ 0 _ _ (by decide)]
      · rfl
      · intro st
        unfold ff3DecryptRound
        simp only
        rw [if_neg (by decide)]
        cases rdDigits st.out st.a _ with
        | none => rfl
        | some B => simp only [Option.bind_some]; rw [ff3RoundS_short _ _ _ _ _ rfl ht']; rfl

/-- A block function that exposes one tweak byte: the last byte of `S` is byte 3 of `P`. -/
def peekCipher (x : Block) : Block := Vector.ofFn fun i => if i.1 = 0 then x[12] else 0

/-- C49: the byte behind a seven-byte tweak decides the ciphertext.  The two contexts differ only in the
eighth byte, and so do the ciphertexts of "00" (radix 10) from the model of the same call. -/
theorem C49_ff3_result_depends : ∃ (E : Block → Block) (tweak : List Byte) (x y : Byte) (o1 o2 : List Byte),
    tweak.length = 7 ∧
    ff3Encrypt ⟨E, 10, tweak ++ [x]⟩ (fun r k => Nat.clog 2 (r ^ k)) [48, 48, 0] [0, 0, 0] = some o1 ∧
    ff3Encrypt ⟨E, 10, tweak ++ [y]⟩ (fun r k => Nat.clog 2 (r ^ k)) [48, 48, 0] [0, 0, 0] = some o2 ∧ o1 ≠ o2 :=
  ⟨peekCipher, [0, 0, 0, 0, 0, 0, 0], 0, 1, [50, 54, 0], [54, 54, 0], rfl, by decide +kernel, by decide +kernel,
    by decide⟩

end Verif.Props
