import Verif.Props.Fpe3

/-! C65, C66: FF1 and FF3 are the algorithms of NIST SP 800-38G. -/
set_option autoImplicit false

namespace Verif.Props
open Verif Spec Model

/-! ### pieces of FF1 -/

theorem blockAt_eq (l : List Byte) : blockAt l = blockOf l := rfl

theorem blockOf_toList (b : Block) : blockOf b.toList = b := by
  ext1 i h
  simp [blockOf]

theorem blockOf_append (b : Block) (l : List Byte) : blockOf (b.toList ++ l) = b := by
  ext1 i h
  simp only [blockOf, Vector.getElem_ofFn, List.getD_eq_getElem?_getD]
  rw [List.getElem?_append_left (by simpa using h)]
  simp [h]

theorem blockOf_take (l : List Byte) : blockOf (l.take 16) = blockOf l := by
  ext1 i h
  simp only [blockOf, Vector.getElem_ofFn, List.getD_eq_getElem?_getD]
  rw [List.getElem?_take_of_lt h]

theorem macLoop_eq (E : Block → Block) (Q : List Byte) : Q.length % 16 = 0 → ∀ R,
    ff1MacLoop E (Q.length / 16) R Q = (chunks Q).foldl (fun Y c => E (Y ^^^ blockOf c)) R := by
  induction Q using chunks_induction with
  | nil => intro _ R; rfl
  | step l hl ih =>
    intro h16 R
    have h1 := List.length_pos_iff.mpr hl
    rw [chunks_of_ne_nil hl, List.foldl_cons, show l.length / 16 = (l.drop 16).length / 16 + 1 by
      rw [List.length_drop]; omega, ff1MacLoop, ih (by rw [List.length_drop]; omega), blockOf_take,
      blockAt_eq, Vec.xor_comm]

theorem prf_append (E : Block → Block) (P : Block) (Q : List Byte) (h : Q.length % 16 = 0) :
    prf E (P.toList ++ Q) = ff1MacLoop E (Q.length / 16) (E P) Q := by
  unfold prf
  rw [chunks_append_aligned _ _ (by simp), chunks_of_ne_nil (l := P.toList) (by
    intro h; have := congrArg List.length h; simp at this), macLoop_eq E Q h]
  rw [List.take_of_length_le (by simp), List.drop_of_length_le (by simp), chunks_nil]
  simp only [List.cons_append, List.nil_append, List.foldl_cons, blockOf_toList]
  rw [show zeroBlock = Vector.replicate 16 0 from rfl, Vec.zero_xor]

theorem bytesOf_one (x : Nat) : bytesOf 1 x = [BitVec.ofNat 8 x] := by simp [bytesOf]

theorem bytesOf_three (x : Nat) :
    bytesOf 3 x = [BitVec.ofNat 8 (x / 65536), BitVec.ofNat 8 (x / 256), BitVec.ofNat 8 x] := by
  simp [bytesOf, List.range_succ]

theorem bytesOf_four (x : Nat) :
    bytesOf 4 x = [BitVec.ofNat 8 (x / 16777216), BitVec.ofNat 8 (x / 65536), BitVec.ofNat 8 (x / 256),
      BitVec.ofNat 8 x] := by
  simp [bytesOf, List.range_succ]

theorem ofNat8_congr (x y : Nat) (h : x % 256 = y % 256) : BitVec.ofNat 8 x = BitVec.ofNat 8 y := by
  apply BitVec.eq_of_toNat_eq
  simpa only [BitVec.toNat_ofNat] using h

theorem list16_congr (a b c d e f g h i j k l : Byte) (a' b' c' d' e' f' g' h' i' j' k' l' : Byte)
    (p : a = a' ∧ b = b' ∧ c = c' ∧ d = d' ∧ e = e' ∧ f = f' ∧ g = g' ∧ h = h' ∧ i = i' ∧ j = j' ∧ k = k' ∧ l = l') :
    ([a, b, c, d, e, f, g, h, i, j, k, l] : List Byte) = [a', b', c', d', e', f', g', h', i', j', k', l'] := by
  obtain ⟨rfl, rfl, rfl, rfl, rfl, rfl, rfl, rfl, rfl, rfl, rfl, rfl⟩ := p
  rfl

theorem pBlock_toList (radix n t : Nat) : (ff1PBlock radix (n / 2) n t).toList = ff1P radix n t := by
  unfold ff1P
  rw [bytesOf_one, bytesOf_one, bytesOf_one, bytesOf_one, bytesOf_three, bytesOf_four, bytesOf_four]
  simp only [List.cons_append, List.nil_append]
  refine congrArg (fun l => (1 : Byte) :: 2 :: 1 :: l) (congrArg₂ List.cons ?_ (list16_congr _ _ _ _ _ _ _ _ _ _ _ _
    _ _ _ _ _ _ _ _ _ _ _ _ ⟨?_, ?_, ?_, rfl, ?_, ?_, ?_, rfl, ?_, ?_, ?_, rfl⟩)) <;> apply ofNat8_congr
  all_goals first | (simp only [Nat.shiftRight_eq_div_pow]; done) | (simp only [Nat.shiftRight_eq_div_pow]; omega) | omega

theorem ff1Pad_eq (t b : Nat) : ff1Pad t b = ((-(t : Int) - b - 1) % 16).toNat := by
  unfold ff1Pad
  simp only [BitVec.toNat_sub, BitVec.toNat_neg, BitVec.toNat_ofNat]
  omega

theorem ff1Ctr_eq (j : Nat) (hj : j < 2 ^ 32) : ff1Ctr j = blockOf (bytesOf 16 j) := by
  have z : ∀ k, 4 ≤ k → j / 256 ^ k = 0 := by
    intro k hk
    apply Nat.div_eq_of_lt
    calc j < 256 ^ 4 := by simpa using hj
      _ ≤ 256 ^ k := Nat.pow_le_pow_right (by decide) hk
  ext1 i h
  simp only [blockOf, Vector.getElem_ofFn, bytesOf]
  rw [List.getD_eq_getElem?_getD, List.getElem?_map, List.getElem?_range h]
  simp only [Option.map_some, Option.getD_some]
  by_cases hi : i < 12
  · rw [z _ (by omega)]
    simp only [ff1Ctr]
    rcases i with _ | _ | _ | _ | _ | _ | _ | _ | _ | _ | _ | _ | i
    all_goals first | rfl | omega
  · simp only [ff1Ctr]
    obtain rfl | rfl | rfl | rfl : i = 12 ∨ i = 13 ∨ i = 14 ∨ i = 15 := by omega
    all_goals simp [Nat.shiftRight_eq_div_pow]

theorem clog_pow_le (radix v : Nat) (hr : radix ≤ 36) : Nat.clog 2 (radix ^ v) ≤ 6 * v := by
  apply Nat.clog_le_of_le_pow
  rw [Nat.pow_mul]
  exact Nat.pow_le_pow_left (by omega) v

theorem ff1B_eq (lg : Nat → Nat → Nat) (radix v : Nat) (h : lg radix v = Nat.clog 2 (radix ^ v)) :
    ff1B lg radix v = ff1b radix v := by
  unfold ff1B ff1b
  rw [ceil2_eq, h]
  rfl

theorem ff1D_eq (b : Nat) : ff1D b = ff1d b := by
  unfold ff1D ff1d
  rw [ceil2_eq]
  rfl

theorem ff1S_eq (E : Block → Block) (R : Block) (d : Nat) (hd : d < 2 ^ 32) :
    (ff1SBytes E R (ceil2 d 4 - 1)).take d = ff1S E R d := by
  unfold ff1SBytes ff1S
  rw [ceil2_eq]
  congr 2
  rw [List.flatMap_def, List.flatMap_def]
  congr 1
  apply List.map_congr_left
  intro j hj
  rw [List.mem_range] at hj
  rw [ff1Ctr_eq _ (by omega), Vec.xor_comm]

/-- The round function of the model is the round function of the standard. -/
theorem ff1Fn_eq (ctx : FpeCtx) (lg : Nat → Nat → Nat) (hlg : LgOk lg) (n i : Nat) (hr : 2 ≤ ctx.radix)
    (hr' : ctx.radix ≤ 36) (hn : n < 2 ^ 30)
    (hx : lg ctx.radix (n - n / 2) = Nat.clog 2 (ctx.radix ^ (n - n / 2))) (B : List Nat)
    (hB : ∀ d ∈ B, d < ctx.radix) (hl : B.length = n - halfLen n (n / 2) i) :
    (ff1Fn ctx lg n i (str2num B ctx.radix)).1 = ff1Y ctx.E ctx.radix n ctx.tweak i B := by
  have h1 : str2num B ctx.radix < ctx.radix ^ (n - halfLen n (n / 2) i) := by
    rw [← hl]; exact str2num_lt _ _ hB
  have h2 := ff1_fits lg hlg _ _ _ _ hr h1
  have hc := clog_pow_le ctx.radix (n - n / 2) hr'
  unfold ff1Fn ff1FOpt ff1RoundY
  simp only [floor2_eq]
  rw [ff1QBytes_some _ _ _ _ h2, ff1B_eq lg _ _ hx]
  simp only [Option.bind_some]
  rw [ff1YOf_some, Option.map_some, Option.getD_some]
  simp only
  rw [bin2bn_eq, ff1D_eq, ff1S_eq _ _ _ (by unfold ff1d ff1b; omega)]
  unfold ff1Y
  rw [← pBlock_toList, prf_append]
  · unfold ff1Q
    simp only [str2num_eq, ff1Pad_eq, bytesOf_one]
  · unfold ff1Q
    simp only [List.length_append, List.length_replicate, length_bytesOf]
    omega

/-- Encryption rounds of the model are those of the standard. -/
theorem fseq_ff1 (ctx : FpeCtx) (lg : Nat → Nat → Nat) (hlg : LgOk lg) (n : Nat) (hr : 2 ≤ ctx.radix)
    (hr' : ctx.radix ≤ 36) (hn2 : 2 ≤ n) (hn : n < 2 ^ 30)
    (hx : lg ctx.radix (n - n / 2) = Nat.clog 2 (ctx.radix ^ (n - n / 2))) (AB : List Nat × List Nat)
    (h : Halves n (n / 2) ctx.radix 0 AB) (k : Nat) :
    fseq n (n / 2) (fun i => ctx.radix ^ halfLen n (n / 2) i) (fun X => str2num X ctx.radix)
      (fun x m => num2str x ctx.radix m) (ff1Fn ctx lg n) AB k =
    (List.range k).foldl (ff1EncRound ctx.E ctx.radix n ctx.tweak) AB := by
  induction k with
  | zero => rfl
  | succ k ih =>
    obtain ⟨h1, h2, h3, h4⟩ := fseq_halves (ff1_ok ctx lg hlg n hn2 hr) AB h k
    rw [List.range_succ, List.foldl_append, ← ih, List.foldl_cons, List.foldl_nil]
    rw [fseq]
    rw [ff1Fn_eq ctx lg hlg n k hr hr' hn hx _ h4 h2]
    unfold ff1EncRound
    have e : (if k % 2 = 0 then n / 2 else n - n / 2) = halfLen n (n / 2) k := by
      unfold halfLen; rcases Nat.mod_two_eq_zero_or_one k with h | h <;> simp [h]
    rw [e, num2str_eq, str2num_eq]

theorem fdec_ff1 (ctx : FpeCtx) (lg : Nat → Nat → Nat) (hlg : LgOk lg) (n : Nat) (hr : 2 ≤ ctx.radix)
    (hr' : ctx.radix ≤ 36) (hn2 : 2 ≤ n) (hn : n < 2 ^ 30)
    (hx : lg ctx.radix (n - n / 2) = Nat.clog 2 (ctx.radix ^ (n - n / 2))) (k : Nat) :
    ∀ AB : List Nat × List Nat, Halves n (n / 2) ctx.radix k AB →
    fdec n (n / 2) (fun i => ctx.radix ^ halfLen n (n / 2) i) (fun X => str2num X ctx.radix)
      (fun x m => num2str x ctx.radix m) (ff1Fn ctx lg n) k AB =
    (List.range k).reverse.foldl (ff1DecRound ctx.E ctx.radix n ctx.tweak) AB := by
  induction k with
  | zero => intro AB _; rfl
  | succ k ih =>
    intro AB h
    have ok := ff1_ok ctx lg hlg n hn2 hr
    rw [fdec, ih _ (fdec_step_halves ok k AB h _), List.range_succ, List.reverse_append, List.reverse_singleton,
      List.singleton_append, List.foldl_cons]
    obtain ⟨h1, h2, h3, h4⟩ := h
    rw [halfLen_succ _ _ _ ok.hu] at h1
    congr 1
    rw [ff1Fn_eq ctx lg hlg n k hr hr' hn hx _ h3 h1]
    unfold ff1DecRound
    simp only
    have e : (if k % 2 = 0 then n / 2 else n - n / 2) = halfLen n (n / 2) k := by
      unfold halfLen; rcases Nat.mod_two_eq_zero_or_one k with h | h <;> simp [h]
    rw [e, num2str_eq, str2num_eq]
    unfold bnModSub
    push_cast
    rfl

/-- C65: for every context made by `fpe_init`, every numeral string of 2 to `2^30` characters that passes the
assertion on `Q` (C44_ff1_empty_tweak), and libm returning the exact `⌈v·log₂ radix⌉`, `WBCRYPTO_ff1_encrypt` computes `FF1.Encrypt` of NIST SP 800-38G and
`WBCRYPTO_ff1_decrypt` computes `FF1.Decrypt`. -/
theorem C65_ff1_nist (ctx : FpeCtx) (tweak : List Byte) (radix : Nat) (E : Block → Block)
    (hc : fpeInit tweak radix E = some ctx) (s rest out : List Byte) (hs : ∀ c ∈ s, IsNumeral radix c)
    (hn : 2 ≤ s.length) (hn' : s.length < 2 ^ 30) (hT : QOk (fun r k => Nat.clog 2 (r ^ k)) tweak radix s.length)
    (ho : s.length < out.length) :
    ff1Encrypt ctx (fun r k => Nat.clog 2 (r ^ k)) (s ++ 0 :: rest) out =
      some ((ff1Enc E radix tweak (s.map numeralVal)).map numeralChar ++ 0 :: out.drop (s.length + 1)) ∧
    ff1Decrypt ctx (fun r k => Nat.clog 2 (r ^ k)) (s ++ 0 :: rest) out =
      some ((ff1Dec E radix tweak (s.map numeralVal)).map numeralChar ++ 0 :: out.drop (s.length + 1)) := by
  unfold fpeInit at hc
  split at hc
  · cases hc
  · rename_i hr
    injection hc with hc
    subst hc
    have hr2 : 2 ≤ radix := by omega
    have ok := ff1_ok ⟨E, radix, tweak⟩ _ lgOk_clog s.length hn hr2
    have hl := length_vals s
    have hv := vals_lt s hs
    constructor
    · rw [ff1Encrypt_eq _ _ lgOk_clog hr2 s rest out hs hn ho hT]
      unfold ff1Out fenc
      simp only
      rw [hl, fseq_ff1 _ _ lgOk_clog _ hr2 (by simp only; omega) hn hn' rfl _ (halves_split ok 0 rfl _ hl hv)]
      unfold ff1Enc
      simp only [List.length_map]
      rfl
    · rw [ff1Decrypt_eq _ _ lgOk_clog hr2 s rest out hs hn ho hT]
      unfold ff1Undo fundo
      simp only
      rw [hl, fdec_ff1 _ _ lgOk_clog _ hr2 (by simp only; omega) hn hn' rfl _ _ (halves_split ok 10 rfl _ hl hv)]
      unfold ff1Dec
      simp only [List.length_map]
      rfl

/-- The hypotheses are met by "0123456789" in radix 10 with an empty tweak. -/
example : fpeInit [] 10 id = some ⟨id, 10, []⟩ ∧ QOk (fun r k => Nat.clog 2 (r ^ k)) [] 10 10 ∧
    (∀ c ∈ ([48, 49, 50, 51, 52, 53, 54, 55, 56, 57] : List Byte), IsNumeral 10 c) :=
  ⟨rfl, by decide, by intro c hc; unfold IsNumeral; revert c; decide⟩

/-! ### FF3 -/

theorem revBytes_blockOf (l : List Byte) (h : l.length = 16) : revBytes (blockAt l) = blockOf l.reverse := by
  ext1 i hi
  simp only [revBytes, blockAt, blockOf, Vector.getElem_ofFn, List.getD_eq_getElem?_getD]
  rw [List.getElem?_reverse (by omega), h, show 16 - 1 - i = 15 - i by omega]

theorem toList_revBytes (b : Block) : (revBytes b).toList = b.toList.reverse := by
  apply List.ext_getElem
  · simp
  · intro i h1 h2
    simp [revBytes]

theorem zipWith_set (W : List Byte) (h : W.length = 4) (i : Nat) (hi : i < 256) :
    W.set 3 (W.getD 3 0 ^^^ BitVec.ofNat 8 i) = List.zipWith (fun a b => a ^^^ b) W (bytesOf 4 i) := by
  match W, h with
  | [a, b, c, d], _ =>
    rw [bytesOf_four, show i / 16777216 = 0 by omega, show i / 65536 = 0 by omega, show i / 256 = 0 by omega]
    simp

theorem ff3Fn_eq (ctx : FpeCtx) (lg : Nat → Nat → Nat) (hlg : LgOk lg) (n i : Nat) (hr : 2 ≤ ctx.radix)
    (ht : 8 ≤ ctx.tweak.length) (hmax : ctx.radix ^ ((n + 1) / 2) ≤ 2 ^ 96) (hi : i < 256) (B : List Nat)
    (hB : ∀ d ∈ B, d < ctx.radix) (hl : B.length = n - halfLen n ((n + 1) / 2) i) :
    (ff3Fn ctx lg n i (str2numRev B ctx.radix)).1 = ff3Y ctx.E ctx.radix (ctx.tweak.take 8) i B := by
  have h1 : str2numRev B ctx.radix < ctx.radix ^ (n - halfLen n ((n + 1) / 2) i) := by
    rw [← hl]; exact (C50_str_num_str _ _ hB).2.2.2
  have h2 := ff3_fits lg hlg _ _ _ _ hr h1
  have h12 : str2numRev B ctx.radix < 256 ^ 12 := by
    refine Nat.lt_of_lt_of_le h1 (Nat.le_trans (Nat.pow_le_pow_right (by omega) ?_) hmax)
    unfold halfLen; split <;> omega
  have l12 := (bnNumBytes_le_iff _ _).mpr h12
  have lb := (bnNumBytes_le_iff _ _).mpr h2
  unfold ff3Fn ff3FOpt ff3RoundS ff3PBytes
  simp only [ceil2_one]
  rw [ff3W_some _ _ ht]
  simp only [Option.bind_some]
  rw [if_neg (by rw [length_bn2bin]; exact Nat.not_lt.mpr lb)]
  simp only [Option.bind_some, Option.map_some, Option.getD_some]
  rw [if_neg (show ¬ (bn2bin (str2numRev B ctx.radix)).length > 12 by
      rw [length_bn2bin]; exact Nat.not_lt.mpr l12), List.take_of_length_le (Nat.le_refl _),
    List.append_assoc, pad_bn2bin _ _ h12, bin2bn_eq]
  have hW : ((ctx.tweak.drop (if i % 2 = 1 then 0 else 4)).take 4).length = 4 := by
    rw [List.length_take, List.length_drop]; split <;> omega
  unfold ff3SBlock ff3Y
  rw [zipWith_set _ hW i hi, toList_revBytes, revBytes_blockOf _ (by
    rw [List.length_append, List.length_zipWith, hW, length_bytesOf, length_bytesOf]; rfl)]
  unfold ff3P
  simp only
  rw [str2numRev_eq, str2num_eq]
  have e : (ctx.tweak.drop (if i % 2 = 1 then 0 else 4)).take 4 =
      if i % 2 = 0 then ((ctx.tweak.take 8).drop 4).take 4 else (ctx.tweak.take 8).take 4 := by
    rcases Nat.mod_two_eq_zero_or_one i with h | h
    · rw [if_neg (by omega), if_pos h, List.drop_take, List.take_take]; rfl
    · rw [if_pos h, if_neg (by omega), List.take_take]; rfl
  rw [e]

theorem fseq_ff3 (ctx : FpeCtx) (lg : Nat → Nat → Nat) (hlg : LgOk lg) (n : Nat) (hr : 2 ≤ ctx.radix)
    (ht : 8 ≤ ctx.tweak.length) (hmax : ctx.radix ^ ((n + 1) / 2) ≤ 2 ^ 96) (hn : 1 ≤ n) (AB : List Nat × List Nat)
    (h : Halves n ((n + 1) / 2) ctx.radix 0 AB) (k : Nat) (hk : k ≤ 8) :
    fseq n ((n + 1) / 2) (fun i => ctx.radix ^ halfLen n ((n + 1) / 2) i) (fun X => str2numRev X ctx.radix)
      (fun x m => num2strRev x ctx.radix m) (ff3Fn ctx lg n) AB k =
    (List.range k).foldl (ff3EncRound ctx.E ctx.radix n (ctx.tweak.take 8)) AB := by
  induction k with
  | zero => rfl
  | succ k ih =>
    obtain ⟨h1, h2, h3, h4⟩ := fseq_halves (ff3_ok ctx lg hlg n hn hr ht) AB h k
    rw [List.range_succ, List.foldl_append, ← ih (by omega), List.foldl_cons, List.foldl_nil]
    rw [fseq]
    rw [ff3Fn_eq ctx lg hlg n k hr ht hmax (by omega) _ h4 h2]
    unfold ff3EncRound
    have e : (if k % 2 = 0 then (n + 1) / 2 else n - (n + 1) / 2) = halfLen n ((n + 1) / 2) k := by
      unfold halfLen; rcases Nat.mod_two_eq_zero_or_one k with h | h <;> simp [h]
    rw [e, num2strRev_eq, num2str_eq, str2numRev_eq, str2num_eq]

theorem fdec_ff3 (ctx : FpeCtx) (lg : Nat → Nat → Nat) (hlg : LgOk lg) (n : Nat) (hr : 2 ≤ ctx.radix)
    (ht : 8 ≤ ctx.tweak.length) (hmax : ctx.radix ^ ((n + 1) / 2) ≤ 2 ^ 96) (hn : 1 ≤ n) (k : Nat) :
    ∀ AB : List Nat × List Nat, Halves n ((n + 1) / 2) ctx.radix k AB → k ≤ 8 →
    fdec n ((n + 1) / 2) (fun i => ctx.radix ^ halfLen n ((n + 1) / 2) i) (fun X => str2numRev X ctx.radix)
      (fun x m => num2strRev x ctx.radix m) (ff3Fn ctx lg n) k AB =
    (List.range k).reverse.foldl (ff3DecRound ctx.E ctx.radix n (ctx.tweak.take 8)) AB := by
  induction k with
  | zero => intro AB _ _; rfl
  | succ k ih =>
    intro AB h hk
    have ok := ff3_ok ctx lg hlg n hn hr ht
    rw [fdec, ih _ (fdec_step_halves ok k AB h _) (by omega), List.range_succ, List.reverse_append,
      List.reverse_singleton, List.singleton_append, List.foldl_cons]
    obtain ⟨h1, h2, h3, h4⟩ := h
    rw [halfLen_succ _ _ _ ok.hu] at h1
    congr 1
    rw [ff3Fn_eq ctx lg hlg n k hr ht hmax (by omega) _ h3 h1]
    unfold ff3DecRound
    simp only
    have e : (if k % 2 = 0 then (n + 1) / 2 else n - (n + 1) / 2) = halfLen n ((n + 1) / 2) k := by
      unfold halfLen; rcases Nat.mod_two_eq_zero_or_one k with h | h <;> simp [h]
    rw [e, num2strRev_eq, num2str_eq, str2numRev_eq, str2num_eq]
    unfold bnModSub
    push_cast
    rfl

/-- C66: for every context made by `fpe_init` with at least eight tweak bytes and every nonempty numeral
string within the length limit of the standard (`radix^⌈n/2⌉ ≤ 2^96`), the FF3 functions compute
`FF3.Encrypt` and `FF3.Decrypt` of NIST SP 800-38G on the first eight tweak bytes, with the block function
in the place of `CIPH` under the byte-reversed key. -/
theorem C66_ff3_nist (ctx : FpeCtx) (tweak : List Byte) (radix : Nat) (E : Block → Block)
    (hc : fpeInit tweak radix E = some ctx) (ht : 8 ≤ tweak.length) (lg : Nat → Nat → Nat) (hlg : LgOk lg)
    (s rest out : List Byte) (hs : ∀ c ∈ s, IsNumeral radix c)
    (hn : 1 ≤ s.length) (hmax : radix ^ ((s.length + 1) / 2) ≤ 2 ^ 96) (ho : s.length < out.length) :
    ff3Encrypt ctx lg (s ++ 0 :: rest) out =
      some ((ff3Enc E radix (tweak.take 8) (s.map numeralVal)).map numeralChar ++ 0 :: out.drop (s.length + 1)) ∧
    ff3Decrypt ctx lg (s ++ 0 :: rest) out =
      some ((ff3Dec E radix (tweak.take 8) (s.map numeralVal)).map numeralChar ++ 0 :: out.drop (s.length + 1)) := by
  unfold fpeInit at hc
  split at hc
  · cases hc
  · rename_i hr
    injection hc with hc
    subst hc
    have hr2 : 2 ≤ radix := by omega
    have ok := ff3_ok ⟨E, radix, tweak⟩ lg hlg s.length hn hr2 ht
    have hl := length_vals s
    have hv := vals_lt s hs
    constructor
    · rw [ff3Encrypt_eq _ _ hlg hr2 ht s rest out hs hn ho]
      unfold ff3Out fenc
      simp only
      rw [hl, fseq_ff3 _ _ hlg _ hr2 ht hmax hn _ (halves_split ok 0 rfl _ hl hv) 8 (by decide)]
      unfold ff3Enc
      simp only [List.length_map]
      rfl
    · rw [ff3Decrypt_eq _ _ hlg hr2 ht s rest out hs hn ho]
      unfold ff3Undo fundo
      simp only
      rw [hl, fdec_ff3 _ _ hlg _ hr2 ht hmax hn _ _ (halves_split ok 8 rfl _ hl hv) (by decide)]
      unfold ff3Dec
      simp only [List.length_map]
      rfl

/-- The hypotheses are met by an 18-digit decimal string: `10^9 ≤ 2^96`. -/
example : 10 ^ ((18 + 1) / 2) ≤ 2 ^ 96 := by decide

end Verif.Props
