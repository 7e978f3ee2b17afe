import Verif.Spec.Ff3Long
import Verif.Lemmas.FeistelPair
import Verif.Props.FpeMac

/-! C93: FF3 and FF3-GMAC on numeral strings longer than the standard allows. -/
set_option autoImplicit false

namespace Verif.Props
open Verif Spec Model

/-! ### digits -/

theorem num2strRev_digits (r m : Nat) : ∀ x, num2strRev x r m = digitsLE r m x := by
  induction m with
  | zero => intro x; rfl
  | succ m ih =>
    intro x
    rw [num2strRev, ih, digitsLE, digitsLE, List.range_succ_eq_map, List.map_cons, List.map_map]
    simp only [Nat.pow_zero, Nat.div_one]
    congr 1
    apply List.map_congr_left
    intro i _
    simp only [Function.comp, Nat.pow_succ', Nat.div_div_eq_div_mul]

theorem length_digitsLE (r m x : Nat) : (digitsLE r m x).length = m := by simp [digitsLE]

theorem digitsLE_lt (r m x : Nat) (hr : 2 ≤ r) : ∀ d ∈ digitsLE r m x, d < r := by
  intro d hd
  obtain ⟨i, _, rfl⟩ := List.mem_map.mp hd
  exact Nat.mod_lt _ (by omega)

theorem digit_of_num (r : Nat) (X : List Nat) (h : ∀ d ∈ X, d < r) (i : Nat) (hi : i < X.length) :
    X[i]? = some (str2numRev X r / r ^ i % r) := by
  have e := (C50_str_num_str r X h).2.1
  rw [num2strRev_digits] at e
  conv_lhs => rw [← e]
  simp [digitsLE, hi]

/-- Adding less than `radix ^ j` to a number whose digit `j` is not the largest, or getting a number whose digit `j` is
not zero, changes no digit above `j`. -/
theorem digits_kept (r a Y m i j : Nat) (hr : 2 ≤ r) (hY : Y < r ^ j) (hji : j < i) (him : i < m)
    (h : a / r ^ j % r ≠ r - 1 ∨ (a + Y) % r ^ m / r ^ j % r ≠ 0) :
    (a + Y) % r ^ m / r ^ i % r = a / r ^ i % r := by
  have dig : ∀ x k, k < m → x % r ^ m / r ^ k % r = x / r ^ k % r := by
    intro x k hk
    have e : r ^ m = r ^ k * r ^ (m - k) := by rw [← Nat.pow_add]; congr 1; omega
    have e' : r ^ (m - k) = r * r ^ (m - k - 1) := by rw [← Nat.pow_succ']; congr 1; omega
    rw [e, Nat.mod_mul_right_div_self, e', Nat.mod_mul_right_mod]
  rw [dig _ _ him]
  rw [dig _ _ (by omega)] at h
  have hp : 0 < r ^ j := by positivity
  have key : (a + Y) / r ^ j / r = a / r ^ j / r := by
    have hq : (a + Y) / r ^ j = a / r ^ j ∨ (a + Y) / r ^ j = a / r ^ j + 1 := by
      have h1 : a / r ^ j ≤ (a + Y) / r ^ j := Nat.div_le_div_right (by omega)
      have h2 : (a + Y) / r ^ j ≤ (a + r ^ j) / r ^ j := Nat.div_le_div_right (by omega)
      rw [Nat.add_div_right _ hp] at h2
      omega
    rcases hq with hq | hq
    · rw [hq]
    · rw [hq] at h ⊢
      generalize a / r ^ j = t at h
      have d1 := Nat.div_add_mod t r
      have l1 := Nat.mod_lt t (show 0 < r by omega)
      by_cases hm : t % r = r - 1
      · exfalso
        rcases h with h | h
        · exact h hm
        · apply h
          rw [Nat.add_mod, hm, Nat.mod_eq_of_lt (show 1 < r by omega), show r - 1 + 1 = r by omega, Nat.mod_self]
      · rw [← d1, Nat.add_assoc, Nat.mul_add_div (by omega), Nat.mul_add_div (by omega),
          Nat.div_eq_of_lt (show t % r + 1 < r by omega), Nat.div_eq_of_lt l1]
  have split : ∀ x, x / r ^ i = x / r ^ j / r / r ^ (i - j - 1) := by
    intro x
    rw [Nat.div_div_eq_div_mul, Nat.div_div_eq_div_mul, ← Nat.pow_succ', ← Nat.pow_add]
    congr 2
    omega
  rw [split, key, ← split]

/-! ### the round outputs have 128 bits -/

theorem bin2bn_lt (l : List Byte) : bin2bn l < 256 ^ l.length := by
  have := str2num_lt 256 (l.map BitVec.toNat) (by
    intro d hd
    obtain ⟨b, _, rfl⟩ := List.mem_map.mp hd
    exact b.isLt)
  rw [List.length_map] at this
  rwa [show bin2bn l = str2num (l.map BitVec.toNat) 256 by simp [bin2bn, str2num, List.foldl_map]]

theorem ff3Fn_bound (ctx : FpeCtx) (lg : Nat → Nat → Nat) (n i x : Nat) : (ff3Fn ctx lg n i x).1 ≤ 2 ^ 128 - 1 := by
  unfold ff3Fn ff3FOpt
  cases ff3RoundS ctx lg n i x with
  | none => simp
  | some S =>
    have := bin2bn_lt S.toList
    rw [Vector.length_toList] at this
    simp only [Option.map_some, Option.getD_some]
    omega

/-- The numbers of the two halves of the FF3 ciphertext. -/
theorem ff3Out_pair (ctx : FpeCtx) (lg : Nat → Nat → Nat) (hlg : LgOk lg) (hr : 2 ≤ ctx.radix) (ht : 8 ≤ ctx.tweak.length)
    (X : List Nat) (hX : ∀ d ∈ X, d < ctx.radix) (hn : 1 ≤ X.length) :
    (str2numRev ((ff3Out ctx lg X).take ((X.length + 1) / 2)) ctx.radix,
      str2numRev ((ff3Out ctx lg X).drop ((X.length + 1) / 2)) ctx.radix) =
    pairSeq (ff3Fn ctx lg X.length) (ctx.radix ^ ((X.length + 1) / 2)) (ctx.radix ^ (X.length - (X.length + 1) / 2))
      (str2numRev (X.take ((X.length + 1) / 2)) ctx.radix, str2numRev (X.drop ((X.length + 1) / 2)) ctx.radix) 4 := by
  have ok := ff3_ok ctx lg hlg X.length hn hr ht
  have h := fenc_split ok 8 rfl X rfl hX
  have e := fseq_pair ok (X.take ((X.length + 1) / 2), X.drop ((X.length + 1) / 2)) 4
  rw [show (2 * 4 : Nat) = 8 from rfl, ← h] at e
  exact e

theorem getElem?_take_lt {α : Type} (l : List α) (u i : Nat) (h : i < u) : (l.take u)[i]? = l[i]? := by
  rw [List.getElem?_take_of_lt h]

/-- The digits that survive, on digit strings. -/
theorem ff3Out_clear (ctx : FpeCtx) (lg : Nat → Nat → Nat) (hlg : LgOk lg) (hr : 2 ≤ ctx.radix) (ht : 8 ≤ ctx.tweak.length)
    (X : List Nat) (hX : ∀ d ∈ X, d < ctx.radix) (hn : 1 ≤ X.length) (k : Nat) (hk : 2 ^ 130 ≤ ctx.radix ^ k) :
    (∀ j i, k ≤ j → j < i → i < (X.length + 1) / 2 →
      (X[j]? ≠ some (ctx.radix - 1) ∨ (ff3Out ctx lg X)[j]? ≠ some 0) → (ff3Out ctx lg X)[i]? = X[i]?) ∧
    (∀ j i, (X.length + 1) / 2 + k ≤ j → j < i → i < X.length →
      (X[j]? ≠ some (ctx.radix - 1) ∨ (ff3Out ctx lg X)[j]? ≠ some 0) → (ff3Out ctx lg X)[i]? = X[i]?) := by
  obtain ⟨l1, l2, _⟩ := ff3Out_ok ctx lg hlg hr ht X hX hn
  have hp := ff3Out_pair ctx lg hlg hr ht X hX hn
  have hlt : (str2numRev (X.take ((X.length + 1) / 2)) ctx.radix) < ctx.radix ^ ((X.length + 1) / 2) ∧
      str2numRev (X.drop ((X.length + 1) / 2)) ctx.radix < ctx.radix ^ (X.length - (X.length + 1) / 2) := by
    have a := (C50_str_num_str ctx.radix (X.take ((X.length + 1) / 2)) (fun d hd => hX d (List.mem_of_mem_take hd))).2.2.2
    have b := (C50_str_num_str ctx.radix (X.drop ((X.length + 1) / 2)) (fun d hd => hX d (List.mem_of_mem_drop hd))).2.2.2
    rw [List.length_take, Nat.min_eq_left (by omega)] at a
    rw [List.length_drop] at b
    exact ⟨a, b⟩
  obtain ⟨Y, Z, hY, hZ, e1, e2⟩ := pairSeq_sum (ff3Fn ctx lg X.length) _ _ _
    (str2numRev (X.take ((X.length + 1) / 2)) ctx.radix, str2numRev (X.drop ((X.length + 1) / 2)) ctx.radix) hlt
    (fun i x => ff3Fn_bound ctx lg X.length i x) 4
  rw [← hp] at e1 e2
  simp only at e1 e2
  have hmono : ∀ j, k ≤ j → 2 ^ 130 ≤ ctx.radix ^ j := fun j hj =>
    Nat.le_trans hk (Nat.pow_le_pow_right (by omega) hj)
  constructor
  · intro j i hkj hji hi h
    have dx : ∀ t, t < (X.length + 1) / 2 → X[t]? =
        some (str2numRev (X.take ((X.length + 1) / 2)) ctx.radix / ctx.radix ^ t % ctx.radix) := by
      intro t htt
      rw [← digit_of_num _ _ (fun d hd => hX d (List.mem_of_mem_take hd)) t (by rw [List.length_take]; omega),
        getElem?_take_lt _ _ _ htt]
    have dc : ∀ t, t < (X.length + 1) / 2 → (ff3Out ctx lg X)[t]? =
        some (str2numRev ((ff3Out ctx lg X).take ((X.length + 1) / 2)) ctx.radix / ctx.radix ^ t % ctx.radix) := by
      intro t htt
      rw [← digit_of_num _ _ (fun d hd => l2 d (List.mem_of_mem_take hd)) t (by rw [List.length_take]; omega),
        getElem?_take_lt _ _ _ htt]
    rw [dx j (by omega), dc j (by omega), e1] at h
    rw [dx i hi, dc i hi, e1]
    have := hmono j hkj
    rw [digits_kept _ _ _ _ i j hr (by omega) hji hi (by simpa using h)]
  · intro j i hkj hji hi h
    have dx : ∀ t, (X.length + 1) / 2 + t < X.length → X[(X.length + 1) / 2 + t]? =
        some (str2numRev (X.drop ((X.length + 1) / 2)) ctx.radix / ctx.radix ^ t % ctx.radix) := by
      intro t htt
      rw [← digit_of_num _ _ (fun d hd => hX d (List.mem_of_mem_drop hd)) t (by rw [List.length_drop]; omega),
        List.getElem?_drop]
    have dc : ∀ t, (X.length + 1) / 2 + t < X.length → (ff3Out ctx lg X)[(X.length + 1) / 2 + t]? =
        some (str2numRev ((ff3Out ctx lg X).drop ((X.length + 1) / 2)) ctx.radix / ctx.radix ^ t % ctx.radix) := by
      intro t htt
      rw [← digit_of_num _ _ (fun d hd => l2 d (List.mem_of_mem_drop hd)) t (by rw [List.length_drop]; omega),
        List.getElem?_drop]
    obtain ⟨j', rfl⟩ : ∃ t, j = (X.length + 1) / 2 + t := ⟨j - (X.length + 1) / 2, by omega⟩
    obtain ⟨i', rfl⟩ : ∃ t, i = (X.length + 1) / 2 + t := ⟨i - (X.length + 1) / 2, by omega⟩
    rw [dx j' (by omega), dc j' (by omega), e2] at h
    rw [dx i' hi, dc i' hi, e2]
    have := hmono j' (by omega)
    rw [digits_kept _ _ _ _ i' j' hr (by omega) (by omega) (by omega) (by simpa using h)]

/-- C93: digits in the clear. Every half of FF3 has only eight 128-bit numbers, four each, added to it. From the first `k`
with `2^130 ≤ radix^k` on, the later digits of each half of the ciphertext are the digits of the plaintext: in the half
containing `j`, every digit after `j` is unchanged as soon as digit `j` of the plaintext is not the largest one or digit
`j` of the ciphertext is not zero, whatever the key and the tweak. -/
theorem C93_clear_digits (ctx : FpeCtx) (tweak : List Byte) (radix : Nat) (E : Block → Block)
    (hc : fpeInit tweak radix E = some ctx) (ht : 8 ≤ tweak.length) (lg : Nat → Nat → Nat) (hlg : LgOk lg)
    (s rest out : List Byte) (hs : ∀ c ∈ s, IsNumeral radix c) (hn : 1 ≤ s.length) (ho : s.length < out.length)
    (k : Nat) (hk : 2 ^ 130 ≤ radix ^ k) :
    ∃ ct, ff3Encrypt ctx lg (s ++ 0 :: rest) out = some (ct ++ 0 :: out.drop (s.length + 1)) ∧ ct.length = s.length ∧
      (∀ j i, k ≤ j → j < i → i < (s.length + 1) / 2 →
        (s[j]? ≠ some (numeralChar (radix - 1)) ∨ ct[j]? ≠ some (numeralChar 0)) → ct[i]? = s[i]?) ∧
      (∀ j i, (s.length + 1) / 2 + k ≤ j → j < i → i < s.length →
        (s[j]? ≠ some (numeralChar (radix - 1)) ∨ ct[j]? ≠ some (numeralChar 0)) → ct[i]? = s[i]?) := by
  unfold fpeInit at hc
  split at hc
  · cases hc
  · rename_i hr
    injection hc with hc
    subst hc
    have hr2 : 2 ≤ radix := by omega
    have hl := length_vals s
    have hv := vals_lt s hs
    obtain ⟨h1, h2, _⟩ := ff3Out_ok ⟨E, radix, tweak⟩ lg hlg hr2 ht (vals s) hv (by rw [hl]; exact hn)
    obtain ⟨c1, c2⟩ := ff3Out_clear ⟨E, radix, tweak⟩ lg hlg hr2 ht (vals s) hv (by rw [hl]; exact hn) k hk
    rw [hl] at h1 c1 c2
    have tr : ∀ j i : Nat, ((vals s)[j]? ≠ some (radix - 1) ∨ (ff3Out ⟨E, radix, tweak⟩ lg (vals s))[j]? ≠ some 0 →
        (ff3Out ⟨E, radix, tweak⟩ lg (vals s))[i]? = (vals s)[i]?) →
        (s[j]? ≠ some (numeralChar (radix - 1)) ∨
          ((ff3Out ⟨E, radix, tweak⟩ lg (vals s)).map numeralChar)[j]? ≠ some (numeralChar 0)) →
        ((ff3Out ⟨E, radix, tweak⟩ lg (vals s)).map numeralChar)[i]? = s[i]? := by
      intro j i h hh
      have hsv : ∀ t : Nat, s[t]? = (vals s)[t]?.map numeralChar := by
        intro t
        rw [← List.getElem?_map, chars_vals s hs]
      rw [hsv i, List.getElem?_map, h ?_]
      rcases hh with hh | hh
      · left
        intro e
        apply hh
        rw [hsv j, e]
        rfl
      · right
        intro e
        apply hh
        rw [List.getElem?_map, e]
        rfl
    refine ⟨_, ff3Encrypt_eq _ lg hlg hr2 ht s rest out hs hn ho, by rw [List.length_map, h1], ?_, ?_⟩
    · intro j i hkj hji hi
      exact tr j i (c1 j i hkj hji hi)
    · intro j i hkj hji hi
      exact tr j i (c2 j i hkj hji hi)

/-- For decimal numbers `k = 40`: of a number of 100 digits, the digits 42 to 50 and 92 to 100 are (nearly always) visible. -/
example : (2 : Nat) ^ 130 ≤ 10 ^ 40 ∧ 40 + 1 < (100 + 1) / 2 ∧ (100 + 1) / 2 + 40 + 1 < 100 := by decide

/-! ### the round function sees the leading twelve bytes -/

theorem take_bytesBE (x m k : Nat) : (bytesBE x (m + k)).take m = bytesBE (x / 256 ^ k) m := by
  rw [bytesBE_eq, bytesBE_eq, bytesOf, bytesOf, ← List.map_take, List.take_range, Nat.min_eq_left (by omega)]
  apply List.map_congr_left
  intro i hi
  rw [List.mem_range] at hi
  rw [Nat.div_div_eq_div_mul, ← Nat.pow_add]
  congr 3
  omega

theorem bnNumBytes_byteLen (x : Nat) (h : x ≠ 0) : bnNumBytes x = byteLen x := by
  unfold byteLen
  apply Nat.le_antisymm
  · rw [bnNumBytes_le_iff]
    exact Nat.lt_pow_succ_log_self (by decide) x
  · have h1 := (bnNumBytes_le_iff x _).mp (Nat.le_refl _)
    have := Nat.log_lt_of_lt_pow h h1
    omega

/-- The twelve bytes that FF3 takes of the number. -/
theorem ff3_twelve (x : Nat) :
    (List.replicate (12 - (if (bn2bin x).length > 12 then 12 else (bn2bin x).length)) (0 : Byte) ++
      (bn2bin x).take (if (bn2bin x).length > 12 then 12 else (bn2bin x).length)) = bytesOf 12 (leading12 x) := by
  by_cases h : (bn2bin x).length > 12
  · rw [if_pos h, Nat.sub_self, List.replicate_zero, List.nil_append]
    rw [length_bn2bin] at h
    have h0 : x ≠ 0 := by rintro rfl; simp [bnNumBytes] at h
    unfold leading12 bn2bin
    rw [← bnNumBytes_byteLen x h0, ← bytesBE_eq, ← take_bytesBE, Nat.add_sub_cancel' (by omega)]
  · rw [if_neg h, List.take_of_length_le (Nat.le_refl _)]
    rw [length_bn2bin] at h
    have hx := (bnNumBytes_le_iff x 12).mp (by omega)
    rw [pad_bn2bin x 12 hx]
    unfold leading12
    have : byteLen x ≤ 12 := by
      unfold byteLen
      by_cases h0 : x = 0
      · subst h0; simp
      · have := Nat.log_lt_of_lt_pow h0 hx
        omega
    rw [show byteLen x - 12 = 0 by omega, Nat.pow_zero, Nat.div_one]

theorem ff3Fn_leading (ctx : FpeCtx) (lg : Nat → Nat → Nat) (hlg : LgOk lg) (n i x y : Nat) (hr : 2 ≤ ctx.radix)
    (hx : x < ctx.radix ^ (n - halfLen n ((n + 1) / 2) i)) (hy : y < ctx.radix ^ (n - halfLen n ((n + 1) / 2) i))
    (h : leading12 x = leading12 y) : ff3Fn ctx lg n i x = ff3Fn ctx lg n i y := by
  have bx := (bnNumBytes_le_iff _ _).mpr (ff3_fits lg hlg _ _ _ _ hr hx)
  have bY := (bnNumBytes_le_iff _ _).mpr (ff3_fits lg hlg _ _ _ _ hr hy)
  unfold ff3Fn ff3FOpt ff3RoundS ff3PBytes
  simp only [ceil2_one]
  simp only [List.append_assoc]
  rw [ff3_twelve, ff3_twelve, h]
  simp only [length_bn2bin, if_neg (Nat.not_lt.mpr bx), if_neg (Nat.not_lt.mpr bY)]

/-! ### how often the leading bytes change -/

theorem byteLen_mono {x y : Nat} (h : x ≤ y) : byteLen x ≤ byteLen y := Nat.succ_le_succ (Nat.log_mono_right h)

theorem leading12_lt (x : Nat) : leading12 x < 256 ^ 12 := by
  unfold leading12
  rw [Nat.div_lt_iff_lt_mul (by positivity), ← Nat.pow_add]
  refine Nat.lt_of_lt_of_le (Nat.lt_pow_succ_log_self (show 1 < 256 by decide) x) (Nat.pow_le_pow_right (by decide) ?_)
  unfold byteLen
  omega

theorem crossings_one (N L : Nat) (h : N ≤ 256 ^ L) : (crossings N 1).card ≤ L * 2 ^ 96 + 1 := by
  have hsub : crossings N 1 ⊆ insert (N - 1) ((Finset.range (N - 1)).filter fun b => leading12 (b + 1) ≠ leading12 b) := by
    intro b hb
    simp only [crossings, Finset.mem_filter, Finset.mem_range, Finset.mem_insert] at hb ⊢
    by_cases e : b + 1 = N
    · left; omega
    · right
      rw [Nat.mod_eq_of_lt (by omega)] at hb
      exact ⟨by omega, hb.2⟩
  refine Nat.le_trans (Finset.card_le_card hsub) (Nat.le_trans (Finset.card_insert_le _ _) ?_)
  apply Nat.add_le_add_right
  have hc : (Finset.range L ×ˢ Finset.range (256 ^ 12)).card = L * 2 ^ 96 := by
    rw [Finset.card_product, Finset.card_range, Finset.card_range]
    rw [show (256 : Nat) ^ 12 = 2 ^ 96 by decide]
  rw [← hc]
  apply Finset.card_le_card_of_injOn (fun b => (Nat.log 256 b, leading12 b))
  · intro b hb
    simp only [Finset.coe_filter, Finset.mem_range, Set.mem_ofPred_eq] at hb
    simp only [Finset.coe_product, Set.mem_prod, Finset.mem_coe, Finset.mem_range]
    refine ⟨?_, leading12_lt b⟩
    by_cases h0 : b = 0
    · subst h0
      rw [Nat.log_zero_right]
      rcases Nat.eq_zero_or_pos L with rfl | h0
      · have := hb.1
        simp only [Nat.pow_zero] at h
        omega
      · exact h0
    · exact Nat.log_lt_of_lt_pow h0 (Nat.lt_of_lt_of_le (show b < N by omega) h)
  · have key : ∀ b c : Nat, b < c → leading12 (b + 1) ≠ leading12 b → byteLen b = byteLen c → leading12 b = leading12 c →
        False := by
      intro b c hbc hb hl ht
      apply hb
      have l1 : byteLen (b + 1) = byteLen b := by
        have a1 := byteLen_mono (show b ≤ b + 1 by omega)
        have a2 := byteLen_mono (show b + 1 ≤ c by omega)
        omega
      unfold leading12 at ht ⊢
      rw [← hl] at ht
      rw [l1]
      have d1 := Nat.div_le_div_right (c := 256 ^ (byteLen b - 12)) (show b ≤ b + 1 by omega)
      have d2 := Nat.div_le_div_right (c := 256 ^ (byteLen b - 12)) (show b + 1 ≤ c by omega)
      omega
    intro b hb c hc e
    simp only [Finset.coe_filter, Finset.mem_range, Set.mem_ofPred_eq] at hb hc
    simp only [Prod.mk.injEq] at e
    rcases Nat.lt_trichotomy b c with hbc | hbc | hbc
    · exact (key b c hbc hb.2 (congrArg (· + 1) e.1) e.2).elim
    · exact hbc
    · exact (key c b hbc hc.2 (congrArg (· + 1) e.1.symm) e.2.symm).elim

theorem crossings_card (N L δ : Nat) (h : N ≤ 256 ^ L) : (crossings N δ).card ≤ δ * (L * 2 ^ 96 + 1) := by
  have hsub : crossings N δ ⊆ (Finset.range δ).biUnion fun t =>
      (Finset.range N).filter fun b => (b + t) % N ∈ crossings N 1 := by
    intro b hb
    simp only [crossings, Finset.mem_filter, Finset.mem_range, Finset.mem_biUnion] at hb ⊢
    obtain ⟨hbN, hb⟩ := hb
    have hlt : ∀ t, (b + t) % N < N := fun t => Nat.mod_lt _ (by omega)
    induction δ with
    | zero => exact absurd (by rw [Nat.add_zero, Nat.mod_eq_of_lt hbN]) hb
    | succ δ ih =>
      by_cases hd : leading12 ((b + δ) % N) ≠ leading12 b
      · obtain ⟨t, ht, h1⟩ := ih hd
        exact ⟨t, by omega, h1⟩
      · refine ⟨δ, by omega, hbN, hlt δ, ?_⟩
        rw [Nat.mod_add_mod, Nat.add_assoc, Decidable.not_not.mp hd]
        exact hb
  refine Nat.le_trans (Finset.card_le_card hsub) ?_
  have := Finset.card_biUnion_le_card_mul (Finset.range δ)
    (fun t => (Finset.range N).filter fun b => (b + t) % N ∈ crossings N 1) (L * 2 ^ 96 + 1) ?_
  · rwa [Finset.card_range] at this
  · intro t _
    refine Nat.le_trans ?_ (crossings_one N L h)
    apply Finset.card_le_card_of_injOn (fun b => (b + t) % N)
    · intro b hb
      simp only [Finset.coe_filter, Finset.mem_range, Set.mem_ofPred_eq] at hb
      exact hb.2
    · intro b hb c hc e
      simp only [Finset.coe_filter, Finset.mem_range, Set.mem_ofPred_eq] at hb hc
      exact add_mod_inj _ _ _ _ hb.1 hc.1 e

/-! ### changing the ciphertext of a long string -/

theorem halvesText_numeral (radix u v : Nat) (p : Nat × Nat) (hr : 2 ≤ radix) (hr' : radix ≤ 36) :
    ∀ c ∈ halvesText radix u v p, IsNumeral radix c := by
  unfold halvesText
  apply chars_numeral hr'
  intro d hd
  rcases List.mem_append.mp hd with hd | hd
  · exact digitsLE_lt _ _ _ hr d hd
  · exact digitsLE_lt _ _ _ hr d hd

theorem length_halvesText (radix u v : Nat) (p : Nat × Nat) : (halvesText radix u v p).length = u + v := by
  simp [halvesText, length_digitsLE]

theorem vals_halvesText (radix u v : Nat) (p : Nat × Nat) (hr : 2 ≤ radix) (hr' : radix ≤ 36) :
    vals (halvesText radix u v p) = digitsLE radix u p.1 ++ digitsLE radix v p.2 := by
  unfold halvesText
  apply vals_chars
  intro d hd
  rcases List.mem_append.mp hd with hd | hd
  · have := digitsLE_lt _ _ _ hr d hd; omega
  · have := digitsLE_lt _ _ _ hr d hd; omega

theorem num_digitsLE (radix m x : Nat) (hx : x < radix ^ m) : str2numRev (digitsLE radix m x) radix = x := by
  rw [← num2strRev_digits, str2numRev_eq, num2strRev_eq, List.reverse_reverse, str2num_num2str, Nat.mod_eq_of_lt hx]

/-- Ciphertext and round blocks of a string given by the numbers of its halves. -/
theorem ff3Out_halves (ctx : FpeCtx) (lg : Nat → Nat → Nat) (hlg : LgOk lg) (hr : 2 ≤ ctx.radix) (ht : 8 ≤ ctx.tweak.length)
    (n : Nat) (hn : 1 ≤ n) (p : Nat × Nat)
    (hp : p.1 < ctx.radix ^ ((n + 1) / 2) ∧ p.2 < ctx.radix ^ (n - (n + 1) / 2)) :
    let f := ff3Fn ctx lg n
    let Nu := ctx.radix ^ ((n + 1) / 2)
    let Nv := ctx.radix ^ (n - (n + 1) / 2)
    let X := digitsLE ctx.radix ((n + 1) / 2) p.1 ++ digitsLE ctx.radix (n - (n + 1) / 2) p.2
    ff3Out ctx lg X = digitsLE ctx.radix ((n + 1) / 2) (pairSeq f Nu Nv p 4).1 ++
      digitsLE ctx.radix (n - (n + 1) / 2) (pairSeq f Nu Nv p 4).2 ∧
    (∀ k, gmacTrace ctx lg X (2 * k) = (f (2 * k) (pairSeq f Nu Nv p k).2).2) ∧
    (∀ k, gmacTrace ctx lg X (2 * k + 1) = (f (2 * k + 1) (pairSeq f Nu Nv p (k + 1)).1).2) := by
  intro f Nu Nv X
  have hXl : X.length = n := by
    show (digitsLE _ _ _ ++ digitsLE _ _ _).length = n
    rw [List.length_append, length_digitsLE, length_digitsLE]; omega
  have hXd : ∀ d ∈ X, d < ctx.radix := by
    intro d hd
    rcases List.mem_append.mp hd with hd | hd
    · exact digitsLE_lt _ _ _ hr d hd
    · exact digitsLE_lt _ _ _ hr d hd
  have hsp : (X.take ((n + 1) / 2), X.drop ((n + 1) / 2)) =
      (digitsLE ctx.radix ((n + 1) / 2) p.1, digitsLE ctx.radix (n - (n + 1) / 2) p.2) :=
    split_append _ _ _ (length_digitsLE _ _ _)
  have hnum : (str2numRev (X.take ((n + 1) / 2)) ctx.radix, str2numRev (X.drop ((n + 1) / 2)) ctx.radix) = p := by
    rw [show X.take ((n + 1) / 2) = _ from congrArg Prod.fst hsp, show X.drop ((n + 1) / 2) = _ from congrArg Prod.snd hsp,
      num_digitsLE _ _ _ hp.1, num_digitsLE _ _ _ hp.2]
  have ok := ff3_ok ctx lg hlg n hn hr ht
  obtain ⟨l1, l2, _⟩ := ff3Out_ok ctx lg hlg hr ht X hXd (by omega)
  have hpair := ff3Out_pair ctx lg hlg hr ht X hXd (by omega)
  rw [hXl] at l1 hpair
  rw [hnum] at hpair
  refine ⟨?_, ?_, ?_⟩
  · have c1 := (C50_str_num_str ctx.radix ((ff3Out ctx lg X).take ((n + 1) / 2))
      (fun d hd => l2 d (List.mem_of_mem_take hd))).2.1
    have c2 := (C50_str_num_str ctx.radix ((ff3Out ctx lg X).drop ((n + 1) / 2))
      (fun d hd => l2 d (List.mem_of_mem_drop hd))).2.1
    rw [num2strRev_digits, List.length_take, l1, Nat.min_eq_left (by omega),
      show str2numRev _ _ = _ from congrArg Prod.fst hpair] at c1
    rw [num2strRev_digits, List.length_drop, l1, show str2numRev _ _ = _ from congrArg Prod.snd hpair] at c2
    rw [← List.take_append_drop ((n + 1) / 2) (ff3Out ctx lg X), ← c1, ← c2]
  · intro k
    unfold gmacTrace
    rw [hXl]
    have := ftrace_even ok (X.take ((n + 1) / 2), X.drop ((n + 1) / 2)) k
    rw [hnum] at this
    exact this
  · intro k
    unfold gmacTrace
    rw [hXl]
    have := ftrace_odd ok (X.take ((n + 1) / 2), X.drop ((n + 1) / 2)) k
    rw [hnum] at this
    exact this

/-- Adding `δ` to the second half goes through encryption unseen, as in a one-time pad: the ciphertexts differ by the same
`δ` in the second half, the tags are equal, and the changed ciphertext with the old tag is accepted. -/
def ShiftsUnseen (ctx : FpeCtx) (lg : Nat → Nat → Nat) (radix u v δ : Nat) (p : Nat × Nat) : Prop :=
  ∃ (c : Nat × Nat) (tag : Block), c.1 < radix ^ u ∧ c.2 < radix ^ v ∧
    ∀ rest out : List Byte, u + v < out.length →
      gmacEncrypt ctx lg (halvesText radix u v p ++ 0 :: rest) out =
        some (halvesText radix u v c ++ 0 :: out.drop (u + v + 1), tag) ∧
      gmacEncrypt ctx lg (halvesText radix u v (p.1, (p.2 + δ) % radix ^ v) ++ 0 :: rest) out =
        some (halvesText radix u v (c.1, (c.2 + δ) % radix ^ v) ++ 0 :: out.drop (u + v + 1), tag) ∧
      gmacDecrypt ctx lg (halvesText radix u v (c.1, (c.2 + δ) % radix ^ v) ++ 0 :: rest) out =
        some (halvesText radix u v (p.1, (p.2 + δ) % radix ^ v) ++ 0 :: out.drop (u + v + 1), tag)

theorem shifts_unseen (ctx : FpeCtx) (lg : Nat → Nat → Nat) (hlg : LgOk lg) (hr : 2 ≤ ctx.radix) (hr' : ctx.radix ≤ 36)
    (ht : 16 ≤ ctx.tweak.length) (n δ : Nat) (hn : 1 ≤ n) (p : Nat × Nat)
    (hp : p.1 < ctx.radix ^ ((n + 1) / 2) ∧ p.2 < ctx.radix ^ (n - (n + 1) / 2))
    (hg : ∀ j < 4, (pairSeq (ff3Fn ctx lg n) (ctx.radix ^ ((n + 1) / 2)) (ctx.radix ^ (n - (n + 1) / 2)) p j).2 ∉
      crossings (ctx.radix ^ (n - (n + 1) / 2)) δ) :
    ShiftsUnseen ctx lg ctx.radix ((n + 1) / 2) (n - (n + 1) / 2) δ p := by
  have hNu : 0 < ctx.radix ^ ((n + 1) / 2) := by positivity
  have hNv : 0 < ctx.radix ^ (n - (n + 1) / 2) := by positivity
  have hp' : (p.1, (p.2 + δ) % ctx.radix ^ (n - (n + 1) / 2)).1 < ctx.radix ^ ((n + 1) / 2) ∧
      (p.1, (p.2 + δ) % ctx.radix ^ (n - (n + 1) / 2)).2 < ctx.radix ^ (n - (n + 1) / 2) := ⟨hp.1, Nat.mod_lt _ hNv⟩
  have huv : (n + 1) / 2 + (n - (n + 1) / 2) = n := by omega
  have hlt := pairSeq_lt (ff3Fn ctx lg n) _ _ hNu hNv p hp
  have hstep : ∀ j < 4, ff3Fn ctx lg n (2 * j) (((pairSeq (ff3Fn ctx lg n) (ctx.radix ^ ((n + 1) / 2))
      (ctx.radix ^ (n - (n + 1) / 2)) p j).2 + δ) % ctx.radix ^ (n - (n + 1) / 2)) =
      ff3Fn ctx lg n (2 * j) (pairSeq (ff3Fn ctx lg n) (ctx.radix ^ ((n + 1) / 2))
        (ctx.radix ^ (n - (n + 1) / 2)) p j).2 := by
    intro j hj
    have e : halfLen n ((n + 1) / 2) (2 * j) = (n + 1) / 2 := by unfold halfLen; rw [if_neg (by omega)]
    apply ff3Fn_leading ctx lg hlg n _ _ _ hr
    · rw [e]; exact Nat.mod_lt _ hNv
    · rw [e]; exact (hlt j).2
    · have := hg j hj
      simp only [crossings, Finset.mem_filter, Finset.mem_range, not_and, ne_eq, Decidable.not_not] at this
      exact this (hlt j).2
  have hsh : ∀ k ≤ 4, _ := fun k (hk : k ≤ 4) => pairSeq_shift (ff3Fn ctx lg n) (ctx.radix ^ ((n + 1) / 2))
    (ctx.radix ^ (n - (n + 1) / 2)) δ p k (fun j hj => hstep j (by omega))
  obtain ⟨o1, e1, d1⟩ := ff3Out_halves ctx lg hlg hr (by omega) n hn p hp
  obtain ⟨o2, e2, d2⟩ := ff3Out_halves ctx lg hlg hr (by omega) n hn _ hp'
  simp only at o1 e1 d1 o2 e2 d2
  rw [hsh 4 (by omega)] at o2
  have htag : gmacTag ctx lg (digitsLE ctx.radix ((n + 1) / 2) p.1 ++ digitsLE ctx.radix (n - (n + 1) / 2)
      ((p.2 + δ) % ctx.radix ^ (n - (n + 1) / 2))) =
      gmacTag ctx lg (digitsLE ctx.radix ((n + 1) / 2) p.1 ++ digitsLE ctx.radix (n - (n + 1) / 2) p.2) := by
    unfold gmacTag
    congr 5
    apply List.map_congr_left
    intro i hi
    rw [List.mem_range] at hi
    rcases Nat.even_or_odd' i with ⟨k, rfl | rfl⟩
    · rw [e1, e2, hsh k (by omega)]
      simp only
      rw [hstep k (by omega)]
    · rw [d1, d2, hsh (k + 1) (by omega)]
  have hnum := fun q => halvesText_numeral ctx.radix ((n + 1) / 2) (n - (n + 1) / 2) q hr hr'
  have hvals := fun q => vals_halvesText ctx.radix ((n + 1) / 2) (n - (n + 1) / 2) q hr hr'
  have hlen := fun q => (length_halvesText ctx.radix ((n + 1) / 2) (n - (n + 1) / 2) q).trans huv
  refine ⟨pairSeq (ff3Fn ctx lg n) (ctx.radix ^ ((n + 1) / 2)) (ctx.radix ^ (n - (n + 1) / 2)) p 4,
    gmacTag ctx lg (digitsLE ctx.radix ((n + 1) / 2) p.1 ++ digitsLE ctx.radix (n - (n + 1) / 2) p.2),
    (hlt 4).1, (hlt 4).2, ?_⟩
  intro rest out ho
  rw [huv] at ho ⊢
  have g1 := gmacEncrypt_eq ctx lg hlg hr ht _ rest out (hnum p) (by rw [hlen]; exact hn) (by rw [hlen]; exact ho)
  have g2 := gmacEncrypt_eq ctx lg hlg hr ht _ rest out (hnum (p.1, (p.2 + δ) % ctx.radix ^ (n - (n + 1) / 2)))
    (by rw [hlen]; exact hn) (by rw [hlen]; exact ho)
  have g3 := gmacDecrypt_eq ctx lg hlg hr hr' ht _ rest out (hnum (p.1, (p.2 + δ) % ctx.radix ^ (n - (n + 1) / 2)))
    (by rw [hlen]; exact hn) (by rw [hlen]; exact ho)
  rw [hvals, hlen] at g1 g2 g3
  simp only at g1 g2 g3
  rw [o1] at g1
  rw [o2, htag] at g2 g3
  exact ⟨g1, g2, g3⟩

open Classical in
/-- C93: malleability. For every key and tweak, every length `n` and every `δ`: among the `radix^n` plaintexts of FF3-GMAC,
given by the numbers of their halves, at most `4·radix^⌈n/2⌉·δ·(L·2^96 + 1)` are such that adding `δ` to the second half of
the ciphertext is not accepted with the old tag as the encryption of the plaintext with `δ` added; here `L` is the number
of bytes of the second half. Far beyond the length limit this is a negligible part of `radix^n`. -/
theorem C93_gmac_increment (ctx : FpeCtx) (tweak : List Byte) (radix : Nat) (E : Block → Block)
    (hc : fpeInit tweak radix E = some ctx) (ht : 16 ≤ tweak.length) (lg : Nat → Nat → Nat) (hlg : LgOk lg)
    (n δ L : Nat) (hn : 1 ≤ n) (hL : radix ^ (n - (n + 1) / 2) ≤ 256 ^ L) :
    ((Finset.range (radix ^ ((n + 1) / 2)) ×ˢ Finset.range (radix ^ (n - (n + 1) / 2))).filter fun p =>
      ¬ ShiftsUnseen ctx lg radix ((n + 1) / 2) (n - (n + 1) / 2) δ p).card ≤
    4 * (radix ^ ((n + 1) / 2) * (δ * (L * 2 ^ 96 + 1))) := by
  unfold fpeInit at hc
  split at hc
  · cases hc
  · rename_i hr
    injection hc with hc
    subst hc
    have hr2 : 2 ≤ radix := by omega
    refine Nat.le_trans (Finset.card_le_card ?_) (Nat.le_trans (pairSeq_count (ff3Fn ⟨E, radix, tweak⟩ lg n)
      (radix ^ ((n + 1) / 2)) (radix ^ (n - (n + 1) / 2)) 4 (by positivity) (by positivity)
      (crossings (radix ^ (n - (n + 1) / 2)) δ))
      (Nat.mul_le_mul_left _ (Nat.mul_le_mul_left _ (crossings_card _ L δ hL))))
    intro p hp
    simp only [Finset.mem_filter, Finset.mem_product, Finset.mem_range] at hp ⊢
    refine ⟨hp.1, ?_⟩
    by_contra hcon
    apply hp.2
    exact shifts_unseen ⟨E, radix, tweak⟩ lg hlg hr2 (by simp only; omega) ht n δ hn p hp.1 (fun j hj hb =>
      hcon ⟨j, hj, hb⟩)

/-- For 120 decimal digits and `δ = 1` the exceptions are fewer than one in `2^90`. -/
example : (10 : Nat) ^ (120 - (120 + 1) / 2) ≤ 256 ^ 25 ∧
    4 * (10 ^ ((120 + 1) / 2) * (1 * (25 * 2 ^ 96 + 1))) * 2 ^ 90 < 10 ^ 120 := by decide

end Verif.Props
