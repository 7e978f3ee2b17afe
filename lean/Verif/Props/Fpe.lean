import Verif.Lemmas.Fpe

/-! C44-C50: the FPE modes FF1 and FF3. -/
set_option autoImplicit false

namespace Verif.Props
open Verif Spec Model

/-! ### C50: numeral codecs -/

/-- C50, number to string and back, both digit orders: the number is recovered (modulo `radix^m`,
hence exactly when it is below `radix^m`), the string has `m` digits, all below the radix. -/
theorem C50_num_str_num (radix m x : Nat) (hr : 2 ≤ radix) :
    str2num (num2str x radix m) radix = x % radix ^ m ∧
    str2numRev (num2strRev x radix m) radix = x % radix ^ m ∧
    (num2str x radix m).length = m ∧ (num2strRev x radix m).length = m ∧
    (∀ d ∈ num2str x radix m, d < radix) ∧ (∀ d ∈ num2strRev x radix m, d < radix) := by
  have h0 : 0 < radix := by omega
  refine ⟨str2num_num2str _ _ _, ?_, length_num2str _ _ _, length_num2strRev _ _ _,
    num2str_lt _ h0 _ _, ?_⟩
  · rw [str2numRev_eq, num2strRev_eq, List.reverse_reverse, str2num_num2str]
  · intro d hd
    rw [num2strRev_eq, List.mem_reverse] at hd
    exact num2str_lt _ h0 _ _ d hd

example : str2num (num2str 1234 10 6) 10 = 1234 := by
  rw [(C50_num_str_num 10 6 1234 (by decide)).1]; decide

/-- C50, string to number and back: an `m`-digit string is recovered, and its number is below `radix^m`. -/
theorem C50_str_num_str (radix : Nat) (X : List Nat) (h : ∀ d ∈ X, d < radix) :
    num2str (str2num X radix) radix X.length = X ∧
    num2strRev (str2numRev X radix) radix X.length = X ∧
    str2num X radix < radix ^ X.length ∧ str2numRev X radix < radix ^ X.length := by
  have h' : ∀ d ∈ X.reverse, d < radix := fun d hd => h d (List.mem_reverse.mp hd)
  refine ⟨num2str_str2num _ _ h, ?_, str2num_lt _ _ h, ?_⟩
  · have := num2str_str2num radix X.reverse h'
    rw [List.length_reverse] at this
    rw [str2numRev_eq, num2strRev_eq, this, List.reverse_reverse]
  · have := str2num_lt radix X.reverse h'
    rwa [List.length_reverse, ← str2numRev_eq] at this

example : ∀ d ∈ [1, 9, 0, 3], d < 10 := by decide

/-- C50: the four conversions are the positional notation of the standard. -/
theorem C50_positional (radix m x : Nat) (X : List Nat) :
    str2num X radix = numRadix radix X ∧ str2numRev X radix = numRadix radix X.reverse ∧
    num2str x radix m = strRadix radix m x ∧ num2strRev x radix m = (strRadix radix m x).reverse :=
  ⟨str2num_eq _ _, by rw [str2numRev_eq, str2num_eq], num2str_eq _ _ _, by rw [num2strRev_eq, num2str_eq]⟩

/-! ### FF1 as a Feistel network -/

/-- The bound on libm: `(unsigned)ceil(k·log2(r))` bits hold every number below `r^k`. -/
def LgOk (lg : Nat → Nat → Nat) : Prop := ∀ r k, 2 ≤ r → r ^ k ≤ 2 ^ lg r k

/-- The exact value satisfies the bound. -/
theorem lgOk_clog : LgOk (fun r k => Nat.clog 2 (r ^ k)) := fun _ _ _ => Nat.le_pow_clog (by decide) _

/-- The assertion of FF1 on the length of `Q` holds: the tweak is not empty, or the number of bytes reserved for a half is
not 15, 31, 47 and so on. -/
def QOk (lg : Nat → Nat → Nat) (tweak : List Byte) (radix n : Nat) : Prop :=
  tweak ≠ [] ∨ (lg radix (n - n / 2) + 7) / 8 % 16 ≠ 15

instance (lg : Nat → Nat → Nat) (tweak : List Byte) (radix n : Nat) : Decidable (QOk lg tweak radix n) :=
  inferInstanceAs (Decidable (_ ∨ _))

theorem ff1B_val (lg : Nat → Nat → Nat) (r v : Nat) : ff1B lg r v = (lg r v + 7) / 8 := by
  unfold ff1B ceil2
  rw [Nat.shiftRight_eq_div_pow]
  split <;> omega

theorem ff1Assert_iff (lg : Nat → Nat → Nat) (tweak : List Byte) (radix n : Nat) :
    ff1Assert tweak.length (ff1B lg radix (n - floor2 n 1)) = (if QOk lg tweak radix n then some () else none) := by
  have hp : ∀ b, ff1Pad 0 b = 0 ↔ b % 16 = 15 := by
    intro b
    unfold ff1Pad
    simp only [BitVec.toNat_sub, BitVec.toNat_neg, BitVec.toNat_ofNat]
    omega
  unfold ff1Assert
  rw [floor2_eq, ff1B_val]
  by_cases ht : tweak = []
  · subst ht
    have := hp ((lg radix (n - n / 2) + 7) / 8)
    simp only [List.length_nil, Nat.zero_add]
    by_cases h : ff1Pad 0 ((lg radix (n - n / 2) + 7) / 8) = 0
    · rw [if_pos h, if_neg (fun hh : QOk _ _ _ _ => hh.elim (fun h => h rfl) (fun h2 => h2 (this.mp h)))]
    · rw [if_neg h, if_pos (show QOk _ _ _ _ from Or.inr fun hh => h (this.mpr hh))]
  · have hl : 0 < tweak.length := List.length_pos_iff.mpr ht
    rw [if_neg (by omega), if_pos (show QOk _ _ _ _ from Or.inl ht)]

theorem ff1Assert_ok (lg : Nat → Nat → Nat) (tweak : List Byte) (radix n : Nat) (h : QOk lg tweak radix n) :
    ff1Assert tweak.length (ff1B lg radix (n - floor2 n 1)) = some () := by
  rw [ff1Assert_iff, if_pos h]

/-- Digits and numbers, most significant digit first. -/
def ff1FOpt (ctx : FpeCtx) (lg : Nat → Nat → Nat) (n i x : Nat) : Option (Nat × Unit) :=
  (ff1RoundY ctx lg n i x).map fun y => (y, ())

theorem length_flatMap_blocks (l : List Nat) (g : Nat → Block) :
    (l.flatMap fun j => (g j).toList).length = 16 * l.length := by
  induction l with
  | nil => rfl
  | cons a l ih => simp only [List.flatMap_cons, List.length_append, List.length_cons, ih, Vector.length_toList]; omega

theorem length_ff1SBytes (E : Block → Block) (R : Block) (cnt : Nat) :
    (ff1SBytes E R cnt).length = 16 + 16 * cnt := by
  unfold ff1SBytes
  rw [List.length_append, length_flatMap_blocks, Vector.length_toList, List.length_range]

/-- C46, `S`: the buffer holds the `d` bytes read from it, whatever `d ≥ 1`. -/
theorem S_long_enough (d : Nat) : d ≤ 16 + 16 * (ceil2 d 4 - 1) := by
  rw [ceil2_eq]
  omega

theorem ff1YOf_some (E : Block → Block) (R : Block) (b : Nat) :
    ff1YOf E R (ff1D b) = some (bin2bn ((ff1SBytes E R (ceil2 (ff1D b) 4 - 1)).take (ff1D b))) := by
  unfold ff1YOf
  simp only [length_ff1SBytes]
  rw [if_pos (S_long_enough _)]

theorem ff1QBytes_some (tweak : List Byte) (b i x : Nat) (h : x < 256 ^ b) :
    ff1QBytes tweak b i x = some (tweak ++ List.replicate (ff1Pad tweak.length b) 0 ++ [BitVec.ofNat 8 i] ++
      bytesOf b x) := by
  unfold ff1QBytes
  simp only
  rw [if_neg (by rw [length_bn2bin]; exact Nat.not_lt.mpr ((bnNumBytes_le_iff x b).mpr h)),
    List.append_assoc _ (List.replicate (b - _) 0), pad_bn2bin x b h]

theorem ff1_fits (lg : Nat → Nat → Nat) (hlg : LgOk lg) (r n i x : Nat) (hr : 2 ≤ r)
    (h : x < r ^ (n - halfLen n (n / 2) i)) : x < 256 ^ ff1B lg r (n - n / 2) := by
  apply bits_fit
  refine Nat.lt_of_lt_of_le (Nat.lt_of_lt_of_le h ?_) (hlg r _ hr)
  apply Nat.pow_le_pow_right (by omega)
  unfold halfLen
  split <;> omega

theorem ff1RoundY_some (ctx : FpeCtx) (lg : Nat → Nat → Nat) (hlg : LgOk lg) (n i x : Nat) (hr : 2 ≤ ctx.radix)
    (h : x < ctx.radix ^ (n - halfLen n (n / 2) i)) : ∃ y, ff1RoundY ctx lg n i x = some y := by
  unfold ff1RoundY
  simp only [floor2_eq]
  rw [ff1QBytes_some _ _ _ _ (ff1_fits lg hlg _ _ _ _ hr h)]
  exact ⟨_, ff1YOf_some _ _ _⟩

/-- The round function as a total function. -/
def ff1Fn (ctx : FpeCtx) (lg : Nat → Nat → Nat) (n i x : Nat) : Nat × Unit := (ff1FOpt ctx lg n i x).getD (0, ())

theorem codec_msb (r : Nat) (hr : 2 ≤ r) :
    (∀ x m, (num2str x r m).length = m) ∧ (∀ x m, ∀ d ∈ num2str x r m, d < r) ∧
    (∀ X, (∀ d ∈ X, d < r) → str2num X r < r ^ X.length) ∧
    (∀ x m, x < r ^ m → str2num (num2str x r m) r = x) ∧
    (∀ X, (∀ d ∈ X, d < r) → num2str (str2num X r) r X.length = X) :=
  ⟨fun x m => length_num2str r m x, fun x m => num2str_lt r (by omega) m x, fun X h => str2num_lt r X h,
    fun x m h => by rw [str2num_num2str, Nat.mod_eq_of_lt h], fun X h => num2str_str2num r X h⟩

theorem codec_lsb (r : Nat) (hr : 2 ≤ r) :
    (∀ x m, (num2strRev x r m).length = m) ∧ (∀ x m, ∀ d ∈ num2strRev x r m, d < r) ∧
    (∀ X, (∀ d ∈ X, d < r) → str2numRev X r < r ^ X.length) ∧
    (∀ x m, x < r ^ m → str2numRev (num2strRev x r m) r = x) ∧
    (∀ X, (∀ d ∈ X, d < r) → num2strRev (str2numRev X r) r X.length = X) :=
  ⟨fun x m => length_num2strRev r m x, fun x m => (C50_num_str_num r m x hr).2.2.2.2.2,
    fun X h => (C50_str_num_str r X h).2.2.2,
    fun x m h => by rw [(C50_num_str_num r m x hr).2.1, Nat.mod_eq_of_lt h],
    fun X h => (C50_str_num_str r X h).2.1⟩

theorem ff1_ok (ctx : FpeCtx) (lg : Nat → Nat → Nat) (hlg : LgOk lg) (n : Nat) (hn : 2 ≤ n) (hr : 2 ≤ ctx.radix) :
    FeistelOk n (n / 2) ctx.radix (fun i => ctx.radix ^ halfLen n (n / 2) i) (fun X => str2num X ctx.radix)
      (fun x m => num2str x ctx.radix m) (ff1FOpt ctx lg n) (ff1Fn ctx lg n) := by
  obtain ⟨c1, c2, c3, c4, c5⟩ := codec_msb ctx.radix hr
  refine ⟨hr, by omega, by omega, fun _ => rfl, c1, c2, c3, c4, c5, ?_⟩
  intro i x _ hx
  obtain ⟨y, hy⟩ := ff1RoundY_some ctx lg hlg n i x hr hx
  unfold ff1Fn ff1FOpt
  rw [hy]
  rfl

theorem q_ff1 (r n i : Nat) (u : Nat) (hu : u = n / 2) :
    (if (if i % 2 = 1 then n - u else u) = u then (powUv r u (n - u)).1 else (powUv r u (n - u)).2) =
      r ^ halfLen n u i := by
  rw [powUv_eq _ _ _ (by omega) (by omega)]
  unfold halfLen
  by_cases h : i % 2 = 1
  · simp only [if_pos h]
    split <;> rename_i h1
    · rw [h1]
    · rfl
  · simp only [if_neg h, if_true]

theorem ff1Enc_round (ctx : FpeCtx) (lg : Nat → Nat → Nat) (n : Nat) (s : FpeSt) (i : Nat) :
    ff1EncryptRound ctx lg n s i =
      (encR n (n / 2) (fun i => ctx.radix ^ halfLen n (n / 2) i) (fun X => str2num X ctx.radix)
        (fun x m => num2str x ctx.radix m) (ff1FOpt ctx lg n) (fun (_ : Unit) _ => ()) (s, ()) i).map Prod.fst := by
  unfold ff1EncryptRound encR
  simp only [floor2_eq]
  rw [← halfLen]
  cases h1 : rdDigits s.out s.b (n - halfLen n (n / 2) i) with
  | none => rfl
  | some B =>
    simp only [Option.bind_some, ff1FOpt]
    cases h2 : ff1RoundY ctx lg n i (str2num B ctx.radix) with
    | none => rfl
    | some y =>
      simp only [Option.bind_some, Option.map_some]
      cases h3 : rdDigits s.out s.a (halfLen n (n / 2) i) with
      | none => rfl
      | some A =>
        simp only [Option.bind_some]
        rw [show (if halfLen n (n / 2) i = n / 2 then (powUv ctx.radix (n / 2) (n - n / 2)).1
          else (powUv ctx.radix (n / 2) (n - n / 2)).2) = ctx.radix ^ halfLen n (n / 2) i from q_ff1 _ _ _ _ rfl]
        cases h4 : swapPtrs s with
        | none => rfl
        | some s' =>
          simp only [Option.bind_some]
          cases wrDigits s'.out s'.b _ <;> rfl

theorem ff1Dec_round (ctx : FpeCtx) (lg : Nat → Nat → Nat) (n : Nat) (s : FpeSt) (i : Nat) :
    ff1DecryptRound ctx lg n s i =
      (decR n (n / 2) (fun i => ctx.radix ^ halfLen n (n / 2) i) (fun X => str2num X ctx.radix)
        (fun x m => num2str x ctx.radix m) (ff1FOpt ctx lg n) (fun (_ : Unit) _ => ()) (s, ()) i).map Prod.fst := by
  unfold ff1DecryptRound decR
  simp only [floor2_eq]
  rw [← halfLen]
  cases h1 : rdDigits s.out s.a (n - halfLen n (n / 2) i) with
  | none => rfl
  | some B =>
    simp only [Option.bind_some, ff1FOpt]
    cases h2 : ff1RoundY ctx lg n i (str2num B ctx.radix) with
    | none => rfl
    | some y =>
      simp only [Option.bind_some, Option.map_some]
      cases h3 : rdDigits s.out s.b (halfLen n (n / 2) i) with
      | none => rfl
      | some A =>
        simp only [Option.bind_some]
        rw [show (if halfLen n (n / 2) i = n / 2 then (powUv ctx.radix (n / 2) (n - n / 2)).1
          else (powUv ctx.radix (n / 2) (n - n / 2)).2) = ctx.radix ^ halfLen n (n / 2) i from q_ff1 _ _ _ _ rfl]
        cases h4 : swapPtrs s with
        | none => rfl
        | some s' =>
          simp only [Option.bind_some]
          cases wrDigits s'.out s'.a _ <;> rfl

/-- The FF1 ciphertext digits of the model. -/
def ff1Out (ctx : FpeCtx) (lg : Nat → Nat → Nat) (X : List Nat) : List Nat :=
  fenc X.length (X.length / 2) (fun i => ctx.radix ^ halfLen X.length (X.length / 2) i)
    (fun X => str2num X ctx.radix) (fun x m => num2str x ctx.radix m) (ff1Fn ctx lg X.length) 10 X

/-- The FF1 plaintext digits of the model. -/
def ff1Undo (ctx : FpeCtx) (lg : Nat → Nat → Nat) (X : List Nat) : List Nat :=
  fundo X.length (X.length / 2) (fun i => ctx.radix ^ halfLen X.length (X.length / 2) i)
    (fun X => str2num X ctx.radix) (fun x m => num2str x ctx.radix m) (ff1Fn ctx lg X.length) 10 X

/-- Numeral values of a string. -/
def vals (s : List Byte) : List Nat := s.map numeralVal

theorem map_mapChar {radix : Nat} (s : List Byte) (h : ∀ c ∈ s, IsNumeral radix c) : s.map mapChar = vals s :=
  List.map_congr_left fun c hc => (mapChar_numeral c (h c hc)).1

theorem vals_lt {radix : Nat} (s : List Byte) (h : ∀ c ∈ s, IsNumeral radix c) : ∀ d ∈ vals s, d < radix := by
  intro d hd
  obtain ⟨c, hc, rfl⟩ := List.mem_map.mp hd
  exact (mapChar_numeral c (h c hc)).2

theorem length_vals (s : List Byte) : (vals s).length = s.length := List.length_map _

theorem chars_vals {radix : Nat} (s : List Byte) (h : ∀ c ∈ s, IsNumeral radix c) :
    (vals s).map numeralChar = s := by
  unfold vals
  rw [List.map_map]
  conv => rhs; rw [← List.map_id s]
  exact List.map_congr_left fun c hc => numeralChar_val c (h c hc)

theorem vals_chars (ds : List Nat) (h : ∀ d ∈ ds, d < 36) : vals (ds.map numeralChar) = ds := by
  unfold vals
  rw [List.map_map]
  conv => rhs; rw [← List.map_id ds]
  exact List.map_congr_left fun d hd => numeralVal_char d (h d hd)

theorem chars_numeral {radix : Nat} (hr : radix ≤ 36) (ds : List Nat) (h : ∀ d ∈ ds, d < radix) :
    ∀ c ∈ ds.map numeralChar, IsNumeral radix c := by
  intro c hc
  obtain ⟨d, hd, rfl⟩ := List.mem_map.mp hc
  exact numeralChar_isNumeral radix d hr (h d hd)

theorem invMapChars_eq (ds : List Nat) (out : List Byte) (h : ds.length < out.length) :
    invMapChars ds out = some (ds.map numeralChar ++ 0 :: out.drop (ds.length + 1)) := by
  unfold invMapChars
  rw [if_pos (by omega)]
  congr 2
  exact List.map_congr_left fun d _ => invMapChar_eq d

theorem ff1Encrypt_eq (ctx : FpeCtx) (lg : Nat → Nat → Nat) (hlg : LgOk lg) (hr : 2 ≤ ctx.radix)
    (s rest out : List Byte) (hs : ∀ c ∈ s, IsNumeral ctx.radix c) (hn : 2 ≤ s.length) (ho : s.length < out.length)
    (hT : QOk lg ctx.tweak ctx.radix s.length) :
    ff1Encrypt ctx lg (s ++ 0 :: rest) out =
      some ((ff1Out ctx lg (vals s)).map numeralChar ++ 0 :: out.drop (s.length + 1)) := by
  have ok := ff1_ok ctx lg hlg s.length hn hr
  have hl := length_vals s
  have hv := vals_lt s hs
  unfold ff1Encrypt
  rw [cstr_append s rest (fun c hc => numeral_ne_zero c (hs c hc))]
  simp only [Option.bind_some, ff1Assert_ok lg ctx.tweak ctx.radix s.length hT]
  rw [foldlM_drop_unit _ _ (ff1Enc_round ctx lg s.length), map_mapChar s hs, floor2_eq,
    engine_enc ok _ 10 (by decide) rfl _ hl hv]
  simp only [Option.map_some, Option.bind_some, fpeStart]
  have h1 := (fenc_ok ok 10 _ hl hv).1
  rw [invMapChars_eq _ _ (by rw [h1]; exact ho), h1]
  unfold ff1Out
  rw [hl]

theorem ff1Decrypt_eq (ctx : FpeCtx) (lg : Nat → Nat → Nat) (hlg : LgOk lg) (hr : 2 ≤ ctx.radix)
    (s rest out : List Byte) (hs : ∀ c ∈ s, IsNumeral ctx.radix c) (hn : 2 ≤ s.length) (ho : s.length < out.length)
    (hT : QOk lg ctx.tweak ctx.radix s.length) :
    ff1Decrypt ctx lg (s ++ 0 :: rest) out =
      some ((ff1Undo ctx lg (vals s)).map numeralChar ++ 0 :: out.drop (s.length + 1)) := by
  have ok := ff1_ok ctx lg hlg s.length hn hr
  have hl := length_vals s
  have hv := vals_lt s hs
  unfold ff1Decrypt
  rw [cstr_append s rest (fun c hc => numeral_ne_zero c (hs c hc))]
  simp only [Option.bind_some, ff1Assert_ok lg ctx.tweak ctx.radix s.length hT]
  obtain ⟨a, e⟩ := engine_undo ok (fun (_ : Unit) _ => ()) 10 (by decide) rfl _ hl hv ()
  rw [foldlM_drop_unit _ _ (ff1Dec_round ctx lg s.length), map_mapChar s hs, floor2_eq, e]
  simp only [Option.map_some, Option.bind_some, fpeStart]
  have h1 := (fundo_ok ok 10 rfl _ hl hv).1
  rw [invMapChars_eq _ _ (by rw [h1]; exact ho), h1]
  unfold ff1Undo
  rw [hl]

theorem ff1Out_ok (ctx : FpeCtx) (lg : Nat → Nat → Nat) (hlg : LgOk lg) (hr : 2 ≤ ctx.radix) (X : List Nat)
    (hX : ∀ d ∈ X, d < ctx.radix) (hn : 2 ≤ X.length) :
    (ff1Out ctx lg X).length = X.length ∧ (∀ d ∈ ff1Out ctx lg X, d < ctx.radix) ∧
    ff1Undo ctx lg (ff1Out ctx lg X) = X := by
  have ok := ff1_ok ctx lg hlg X.length hn hr
  obtain ⟨h1, h2⟩ := fenc_ok ok 10 X rfl hX
  refine ⟨h1, h2, ?_⟩
  have h1' : (ff1Out ctx lg X).length = X.length := h1
  unfold ff1Undo
  rw [h1']
  exact fundo_fenc ok 10 (by decide) rfl X rfl hX

theorem ff1Undo_ok (ctx : FpeCtx) (lg : Nat → Nat → Nat) (hlg : LgOk lg) (hr : 2 ≤ ctx.radix) (X : List Nat)
    (hX : ∀ d ∈ X, d < ctx.radix) (hn : 2 ≤ X.length) :
    (ff1Undo ctx lg X).length = X.length ∧ (∀ d ∈ ff1Undo ctx lg X, d < ctx.radix) ∧
    ff1Out ctx lg (ff1Undo ctx lg X) = X := by
  have ok := ff1_ok ctx lg hlg X.length hn hr
  obtain ⟨h1, h2⟩ := fundo_ok ok 10 rfl X rfl hX
  refine ⟨h1, h2, ?_⟩
  have h1' : (ff1Undo ctx lg X).length = X.length := h1
  unfold ff1Out
  rw [h1']
  exact fenc_fundo ok 10 rfl X rfl hX

/-! ### C44, C45, C46: FF1 -/

/-- C44: for every context made by `fpe_init` and every numeral string of at least two characters, FF1
encryption succeeds with some string `ct`, and decrypting `ct` gives back the input. -/
theorem C44_ff1_roundtrip (ctx : FpeCtx) (tweak : List Byte) (radix : Nat) (E : Block → Block)
    (hc : fpeInit tweak radix E = some ctx) (lg : Nat → Nat → Nat) (hlg : LgOk lg)
    (s rest rest' out out' : List Byte) (hs : ∀ c ∈ s, IsNumeral radix c) (hn : 2 ≤ s.length)
    (hT : QOk lg tweak radix s.length) (ho : s.length < out.length) (ho' : s.length < out'.length) :
    ∃ ct, ff1Encrypt ctx lg (s ++ 0 :: rest) out = some (ct ++ 0 :: out.drop (s.length + 1)) ∧
      ff1Decrypt ctx lg (ct ++ 0 :: rest') out' = some (s ++ 0 :: out'.drop (s.length + 1)) := by
  unfold fpeInit at hc
  split at hc
  · cases hc
  · rename_i hr
    injection hc with hc
    subst hc
    have hr2 : 2 ≤ radix := by omega
    obtain ⟨h1, h2, h3⟩ := ff1Out_ok ⟨E, radix, tweak⟩ lg hlg hr2 (vals s) (vals_lt s hs)
      (by rw [length_vals]; exact hn)
    rw [length_vals] at h1
    refine ⟨_, ff1Encrypt_eq _ lg hlg hr2 s rest out hs hn ho hT, ?_⟩
    rw [ff1Decrypt_eq _ lg hlg hr2 _ rest' out' (chars_numeral (by simp only; omega) _ h2)
      (by rw [List.length_map, h1]; exact hn) (by rw [List.length_map, h1]; exact ho') (by rw [List.length_map, h1]; exact hT)]
    rw [vals_chars _ (fun d hd => by have := h2 d hd; simp only at this; omega), h3, chars_vals s hs,
      List.length_map, h1]

/-- C44, the other direction: every numeral string is the encryption of its decryption, so FF1 is a
permutation of the numeral strings of each length. -/
theorem C44_ff1_decrypt_then_encrypt (ctx : FpeCtx) (tweak : List Byte) (radix : Nat) (E : Block → Block)
    (hc : fpeInit tweak radix E = some ctx) (lg : Nat → Nat → Nat) (hlg : LgOk lg)
    (s rest rest' out out' : List Byte) (hs : ∀ c ∈ s, IsNumeral radix c) (hn : 2 ≤ s.length)
    (hT : QOk lg tweak radix s.length) (ho : s.length < out.length) (ho' : s.length < out'.length) :
    ∃ pt, ff1Decrypt ctx lg (s ++ 0 :: rest) out = some (pt ++ 0 :: out.drop (s.length + 1)) ∧
      ff1Encrypt ctx lg (pt ++ 0 :: rest') out' = some (s ++ 0 :: out'.drop (s.length + 1)) := by
  unfold fpeInit at hc
  split at hc
  · cases hc
  · rename_i hr
    injection hc with hc
    subst hc
    have hr2 : 2 ≤ radix := by omega
    obtain ⟨h1, h2, h3⟩ := ff1Undo_ok ⟨E, radix, tweak⟩ lg hlg hr2 (vals s) (vals_lt s hs)
      (by rw [length_vals]; exact hn)
    rw [length_vals] at h1
    refine ⟨_, ff1Decrypt_eq _ lg hlg hr2 s rest out hs hn ho hT, ?_⟩
    rw [ff1Encrypt_eq _ lg hlg hr2 _ rest' out' (chars_numeral (by simp only; omega) _ h2)
      (by rw [List.length_map, h1]; exact hn) (by rw [List.length_map, h1]; exact ho') (by rw [List.length_map, h1]; exact hT)]
    rw [vals_chars _ (fun d hd => by have := h2 d hd; simp only at this; omega), h3, chars_vals s hs,
      List.length_map, h1]

/-- C44, defect: with an empty tweak and a length for which 15, 31, 47, ... bytes are reserved for a half, an assertion that
computes `0 + 0 - 1` with unsigned numbers fails: FF1 ends the process, with and without tag, for every input. -/
theorem C44_ff1_empty_tweak (ctx : FpeCtx) (lg : Nat → Nat → Nat) (junk : Nat → Block) (s rest out : List Byte)
    (h0 : ∀ c ∈ s, c ≠ 0) (hT : ctx.tweak = []) (hb : (lg ctx.radix (s.length - s.length / 2) + 7) / 8 % 16 = 15) :
    ff1Encrypt ctx lg (s ++ 0 :: rest) out = none ∧ ff1Decrypt ctx lg (s ++ 0 :: rest) out = none ∧
    cmacEncrypt ctx lg junk (s ++ 0 :: rest) out = none ∧ cmacDecrypt ctx lg junk (s ++ 0 :: rest) out = none := by
  have hq : ¬ QOk lg ctx.tweak ctx.radix s.length := by
    unfold QOk
    rw [hT, hb]
    simp
  unfold ff1Encrypt ff1Decrypt cmacEncrypt cmacDecrypt
  rw [cstr_append s rest h0]
  simp only [Option.bind_some, ff1Assert_iff, if_neg hq, Option.bind_none]
  exact ⟨trivial, trivial, trivial, trivial⟩

/-- C44: with exact byte counts these are the lengths for which the numbers below `radix^v` need `16 j + 15` bytes. -/
theorem C44_ff1_empty_tweak_lengths (radix n : Nat) :
    ¬ QOk (fun r k => Nat.clog 2 (r ^ k)) [] radix n ↔
      ∃ j, 256 ^ (16 * j + 14) < radix ^ (n - n / 2) ∧ radix ^ (n - n / 2) ≤ 256 ^ (16 * j + 15) := by
  have e : ∀ x k : Nat, 256 ^ k < x ↔ 8 * k < Nat.clog 2 x := by
    intro x k
    rw [Nat.lt_clog_iff_pow_lt (by decide), Nat.pow_mul]
  have e2 : ∀ j, (256 ^ (16 * j + 14) < radix ^ (n - n / 2) ∧ radix ^ (n - n / 2) ≤ 256 ^ (16 * j + 15)) ↔
      (Nat.clog 2 (radix ^ (n - n / 2)) + 7) / 8 = 16 * j + 15 := by
    intro j
    have h1 := e (radix ^ (n - n / 2)) (16 * j + 14)
    have h2 := e (radix ^ (n - n / 2)) (16 * j + 15)
    rw [← Nat.not_lt, h1, h2]
    omega
  unfold QOk
  simp only [ne_eq, not_true_eq_false, false_or, Decidable.not_not, e2]
  constructor
  · intro h
    exact ⟨(Nat.clog 2 (radix ^ (n - n / 2)) + 7) / 8 / 16, by omega⟩
  · rintro ⟨j, h⟩
    omega

/-- For example 67 to 72 decimal digits. -/
example (n : Nat) (h : 67 ≤ n) (h' : n ≤ 72) : ¬ QOk (fun r k => Nat.clog 2 (r ^ k)) [] 10 n :=
  (C44_ff1_empty_tweak_lengths 10 n).mpr ⟨0,
    Nat.lt_of_lt_of_le (by decide : 256 ^ 14 < 10 ^ 34) (Nat.pow_le_pow_right (by decide) (by omega)),
    (Nat.pow_le_pow_right (by decide) (by omega : n - n / 2 ≤ 36)).trans (by decide)⟩

/-- The hypotheses are met by "1234" in radix 10 with a one-byte tweak. -/
example : fpeInit [7] 10 id = some ⟨id, 10, [7]⟩ ∧ QOk (fun r k => Nat.clog 2 (r ^ k)) [7] 10 4 ∧ LgOk (fun r k => Nat.clog 2 (r ^ k)) ∧
    (∀ c ∈ ([49, 50, 51, 52] : List Byte), IsNumeral 10 c) :=
  ⟨rfl, Or.inl (by decide), lgOk_clog, by intro c hc; unfold IsNumeral; revert c; decide⟩

/-- C45: the ciphertext has the plaintext's length, consists of numerals of the radix, is followed by a
NUL, and the rest of the output buffer is untouched. -/
theorem C45_ff1_format (ctx : FpeCtx) (tweak : List Byte) (radix : Nat) (E : Block → Block)
    (hc : fpeInit tweak radix E = some ctx) (lg : Nat → Nat → Nat) (hlg : LgOk lg)
    (s rest out : List Byte) (hs : ∀ c ∈ s, IsNumeral radix c) (hn : 2 ≤ s.length)
    (hT : QOk lg tweak radix s.length) (ho : s.length < out.length) :
    ∃ ct, ff1Encrypt ctx lg (s ++ 0 :: rest) out = some (ct ++ 0 :: out.drop (s.length + 1)) ∧
      ct.length = s.length ∧ ∀ c ∈ ct, IsNumeral radix c := by
  unfold fpeInit at hc
  split at hc
  · cases hc
  · rename_i hr
    injection hc with hc
    subst hc
    have hr2 : 2 ≤ radix := by omega
    obtain ⟨h1, h2, h3⟩ := ff1Out_ok ⟨E, radix, tweak⟩ lg hlg hr2 (vals s) (vals_lt s hs)
      (by rw [length_vals]; exact hn)
    rw [length_vals] at h1
    exact ⟨_, ff1Encrypt_eq _ lg hlg hr2 s rest out hs hn ho hT, by rw [List.length_map, h1],
      chars_numeral (by omega) _ h2⟩

/-- C46: in every round, the number of the half that is encoded needs at most the `b` bytes of `Bytes`;
`S` holds at least the `d` bytes converted to `y`; `Q` is a whole number of blocks. -/
theorem C46_ff1_buffers (lg : Nat → Nat → Nat) (hlg : LgOk lg) (radix n i t : Nat) (hr : 2 ≤ radix)
    (B : List Nat) (hB : ∀ d ∈ B, d < radix) (hl : B.length = n / 2 ∨ B.length = n - n / 2) (E : Block → Block)
    (R : Block) :
    let b := ff1B lg radix (n - n / 2)
    (bn2bin (numRadix radix B)).length ≤ b ∧
    ff1D b ≤ (ff1SBytes E R (ceil2 (ff1D b) 4 - 1)).length ∧
    (t + ff1Pad t b + 1 + b) % 16 = 0 ∧
    ∃ Q, ff1QBytes (List.replicate t 0) b i (numRadix radix B) = some Q ∧ Q.length = t + ff1Pad t b + 1 + b := by
  intro b
  have hx : numRadix radix B < 256 ^ b := by
    rw [← str2num_eq]
    apply bits_fit
    refine Nat.lt_of_lt_of_le (Nat.lt_of_lt_of_le (str2num_lt radix B hB) ?_) (hlg radix _ hr)
    apply Nat.pow_le_pow_right (by omega)
    omega
  refine ⟨by rw [length_bn2bin]; exact (bnNumBytes_le_iff _ _).mpr hx, ?_, ?_, _, ff1QBytes_some _ _ _ _ hx, ?_⟩
  · rw [length_ff1SBytes]; exact S_long_enough _
  · unfold ff1Pad
    simp only [BitVec.toNat_sub, BitVec.toNat_neg, BitVec.toNat_ofNat]
    omega
  · simp only [List.length_append, List.length_replicate, List.length_singleton, length_bytesOf]

example : (∀ d ∈ [9, 9, 9], d < 10) ∧ [9, 9, 9].length = 7 / 2 := by decide

/-- C46, outside the contract: nothing rejects characters that are not numerals, and when the number of
the second half needs more than `b` bytes the first round writes outside `Bytes`. -/
theorem C46_ff1_overflow (ctx : FpeCtx) (lg : Nat → Nat → Nat) (s rest out : List Byte) (h0 : ∀ c ∈ s, c ≠ 0)
    (h : 256 ^ ff1B lg ctx.radix (s.length - s.length / 2) ≤ numRadix ctx.radix ((s.map mapChar).drop (s.length / 2))) :
    ff1Encrypt ctx lg (s ++ 0 :: rest) out = none := by
  unfold ff1Encrypt
  rw [cstr_append s rest h0]
  simp only [Option.bind_some]
  rw [ff1Assert_iff]
  split
  case isFalse => rfl
  rw [Option.bind_some]
  have e : ff1EncryptRound ctx lg s.length (fpeStart (s.map mapChar) (floor2 s.length 1)) 0 = none := by
    unfold ff1EncryptRound
    simp only [floor2_eq, fpeStart]
    have hrd : rdDigits (s.map mapChar) (s.length / 2) (s.length - s.length / 2) =
        some ((s.map mapChar).drop (s.length / 2)) := by
      unfold rdDigits
      rw [if_pos (by rw [List.length_map]; omega), List.take_of_length_le (by simp)]
    rw [if_neg (by decide), hrd]
    simp only [Option.bind_some]
    unfold ff1RoundY
    simp only [floor2_eq]
    rw [str2num_eq]
    unfold ff1QBytes
    simp only
    rw [if_pos (by
      rw [length_bn2bin]
      refine Nat.lt_of_not_le fun hle => ?_
      have := (bnNumBytes_le_iff _ _).mp hle
      omega)]
    rfl
  rw [show List.range 10 = 0 :: List.range' 1 9 from rfl, List.foldlM_cons, e]
  rfl

/-- The hypothesis is met by the string "1 " (digit and space) in radix 10: the space becomes
`2^32 - 16`, which needs four bytes where one is reserved. -/
example : 256 ^ ff1B (fun r k => Nat.clog 2 (r ^ k)) 10 1 ≤ numRadix 10 ((([49, 32] : List Byte).map mapChar).drop 1) := by
  rw [← str2num_eq]; decide

end Verif.Props
