import Verif.Lemmas.LogApprox
import Verif.Props.FpeCharsApp

/-! C97: the byte counts of FF1 and FF3, computed with doubles, are exact. -/
set_option autoImplicit false

namespace Verif.Props
open Verif Spec Model

theorem isDouble_nat (n : Nat) (h : n < 2 ^ 53) : IsDouble n :=
  ⟨n, 0, by rw [abs_of_nonneg (by positivity)]; exact_mod_cast h, by norm_num, by norm_num, by simp⟩

/-- Doubles with 52 fraction bits below `2^(n+1)`. -/
theorem isDouble_grid (m : ℤ) (n : Nat) (hn : n ≤ 100) (h0 : 0 ≤ m) (h : m ≤ 2 ^ 53) : IsDouble (m * 2 ^ ((n : ℤ) - 52)) := by
  rcases lt_or_eq_of_le h with h | rfl
  · exact ⟨m, (n : ℤ) - 52, by rw [abs_of_nonneg h0]; exact h, by omega, by omega, rfl⟩
  · refine ⟨2 ^ 52, (n : ℤ) - 51, by norm_num, by omega, by omega, ?_⟩
    have : ((n : ℤ) - 51) = ((n : ℤ) - 52) + 1 := by ring
    rw [this, zpow_add₀ (by norm_num)]
    push_cast
    ring

/-- The relative error of a rounding. -/
theorem rounded_err (x y : ℝ) (h1 : 1 ≤ x) (hx : x < 2 ^ 100) (h : Rounded x y) : |y - x| ≤ x / 2 ^ 52 := by
  obtain ⟨n, hn1, hn2⟩ := exists_nat_pow_near h1 (by norm_num : (1 : ℝ) < 2)
  have hn : n ≤ 100 := by
    by_contra hc
    have : (2 : ℝ) ^ 100 ≤ 2 ^ n := pow_le_pow_right₀ (by norm_num) (by omega)
    linarith
  obtain ⟨g, hg⟩ : ∃ g : ℝ, g = 2 ^ ((n : ℤ) - 52) := ⟨_, rfl⟩
  have g0 : 0 < g := by rw [hg]; positivity
  have gn : g * 2 ^ 52 = 2 ^ n := by
    rw [hg, zpow_sub₀ (by norm_num), zpow_natCast]
    norm_num
  have hgx : g ≤ x / 2 ^ 52 := by
    rw [le_div_iff₀ (by norm_num), gn]
    exact hn1
  have hb : x / g < 2 ^ 53 := by
    rw [div_lt_iff₀ g0]
    calc x < 2 ^ (n + 1) := hn2
      _ = 2 ^ 53 * g := by rw [pow_succ, ← gn]; ring
  have hpos : 0 ≤ x / g := by positivity
  have hfl : IsDouble (⌊x / g⌋ * g) := by
    rw [hg]
    refine isDouble_grid _ n hn (Int.floor_nonneg.mpr (by rw [← hg]; exact hpos)) ?_
    rw [← hg]
    have : (⌊x / g⌋ : ℝ) < 2 ^ 53 := lt_of_le_of_lt (Int.floor_le _) hb
    have : ⌊x / g⌋ < 2 ^ 53 := by exact_mod_cast this
    exact this.le
  have hce : IsDouble (⌈x / g⌉ * g) := by
    rw [hg]
    refine isDouble_grid _ n hn (Int.ceil_nonneg (by rw [← hg]; exact hpos)) ?_
    rw [← hg]
    refine Int.ceil_le.mpr ?_
    have := hb.le
    norm_num at this ⊢
    exact this
  have ef : ⌊x / g⌋ * g ≤ x := by
    have := mul_le_mul_of_nonneg_right (Int.floor_le (x / g)) g0.le
    rwa [div_mul_cancel₀ _ g0.ne'] at this
  have ef' : x - g ≤ ⌊x / g⌋ * g := by
    have := mul_le_mul_of_nonneg_right (Int.lt_floor_add_one (x / g)).le g0.le
    rw [div_mul_cancel₀ _ g0.ne'] at this
    linarith
  have ec : x ≤ ⌈x / g⌉ * g := by
    have := mul_le_mul_of_nonneg_right (Int.le_ceil (x / g)) g0.le
    rwa [div_mul_cancel₀ _ g0.ne'] at this
  have ec' : ⌈x / g⌉ * g ≤ x + g := by
    have := mul_le_mul_of_nonneg_right (Int.ceil_lt_add_one (x / g)).le g0.le
    rw [add_mul, div_mul_cancel₀ _ g0.ne'] at this
    linarith
  refine le_trans ?_ hgx
  rcases h.2 with ⟨a, b⟩ | ⟨a, b⟩
  · rw [abs_of_nonneg (by linarith)]
    have := b _ hce ec
    linarith
  · rw [abs_of_nonpos (by linarith)]
    have := b _ hfl ef
    linarith

/-- Doubles are rounded to themselves. -/
theorem rounded_exact (x y : ℝ) (hx : IsDouble x) (h : Rounded x y) : y = x := by
  rcases h.2 with ⟨a, b⟩ | ⟨a, b⟩
  · exact le_antisymm (b x hx le_rfl) a
  · exact le_antisymm a (b x hx le_rfl)

theorem rounded_ge_one (x y : ℝ) (hx : 1 ≤ x) (h : Rounded x y) : 1 ≤ y := by
  rcases h.2 with ⟨a, _⟩ | ⟨_, b⟩
  · linarith
  · exact b 1 (by simpa using isDouble_nat 1 (by norm_num)) hx

theorem logb_pow_two (j : Nat) : Real.logb 2 ((2 ^ j : Nat) : ℝ) = j := by
  push_cast
  rw [Real.logb_pow, Real.logb_self_eq_one (by norm_num), mul_one]

/-- The power of two case. -/
theorem ceil_two (j k : Nat) (hj : j ≤ 5) (hk : k ≤ 2 ^ 20) (l p : ℝ) (hl : Rounded (Real.logb 2 ((2 ^ j : Nat) : ℝ)) l)
    (hp : Rounded (k * l) p) : ⌈p⌉₊ = Nat.clog 2 ((2 ^ j) ^ k) := by
  rw [logb_pow_two] at hl
  have e1 := rounded_exact _ _ (isDouble_nat j (by omega)) hl
  have hkj : k * j < 2 ^ 53 := by nlinarith
  rw [e1] at hp
  have e2 := rounded_exact _ _ (by exact_mod_cast isDouble_nat (k * j) hkj) hp
  rw [e2, ← pow_mul, Nat.clog_pow 2 _ (by decide), mul_comm j k]
  exact_mod_cast Nat.ceil_natCast (k * j)

/-- C97: for every radix and up to `2^20` digits, `(unsigned int) ceil(k * log2(radix))` with doubles, rounded in any mode, is the
number of bits of the numbers below `radix^k`. -/
theorem C97_ceil (lg : Nat → Nat → Nat) (h : FloatLg lg) (r k : Nat) (h2 : 2 ≤ r) (h36 : r ≤ 36) (hk : k ≤ 2 ^ 20) :
    lg r k = Nat.clog 2 (r ^ k) := by
  obtain ⟨l, p, hl, hp, e⟩ := h r k h2 h36 hk
  rw [e]
  by_cases hpow : r ∈ [2, 4, 8, 16, 32]
  · have : ∃ j, j ≤ 5 ∧ r = 2 ^ j := by
      simp only [List.mem_cons, List.not_mem_nil, or_false] at hpow
      rcases hpow with rfl | rfl | rfl | rfl | rfl
      · exact ⟨1, by decide, rfl⟩
      · exact ⟨2, by decide, rfl⟩
      · exact ⟨3, by decide, rfl⟩
      · exact ⟨4, by decide, rfl⟩
      · exact ⟨5, by decide, rfl⟩
    obtain ⟨j, hj, rfl⟩ := this
    exact ceil_two j k hj hk l p hl hp
  · rcases Nat.eq_zero_or_pos k with rfl | hk0
    · have : p = 0 := rounded_exact _ _ (by simpa using isDouble_nat 0 (by norm_num)) (by simpa using hp)
      rw [this]
      simp
    · obtain ⟨a, ha⟩ : ∃ a, a = Real.logb 2 r := ⟨_, rfl⟩
      have hr2 : (2 : ℝ) ≤ r := by exact_mod_cast h2
      have hr36 : (r : ℝ) ≤ 36 := by exact_mod_cast h36
      have a1 : 1 ≤ a := by
        rw [ha, Real.le_logb_iff_rpow_le (by norm_num) (by linarith)]
        simpa using hr2
      have a6 : a ≤ 6 := by
        rw [ha, Real.logb_le_iff_le_rpow (by norm_num) (by linarith)]
        norm_num
        linarith
      rw [← ha] at hl
      have l1 := rounded_ge_one _ _ a1 hl
      have el := rounded_err a l a1 (lt_of_le_of_lt a6 (by norm_num)) hl
      have l7 : l ≤ 7 := by
        have := (abs_le.mp el).2
        have : a / 2 ^ 52 ≤ 1 := by rw [div_le_one (by norm_num)]; linarith [show (6 : ℝ) ≤ 2 ^ 52 by norm_num]
        linarith
      have k1 : (1 : ℝ) ≤ k := by exact_mod_cast hk0
      have k20 : (k : ℝ) ≤ 2 ^ 20 := by exact_mod_cast hk
      have kl1 : 1 ≤ (k : ℝ) * l := by nlinarith
      have kl : (k : ℝ) * l ≤ 2 ^ 20 * 7 := by nlinarith
      have ep := rounded_err (k * l) p kl1 (lt_of_le_of_lt kl (by norm_num)) hp
      have hd := log_dist r h2 h36 hpow k hk0 hk
      rw [← ha] at hd
      have err : |p - k * a| ≤ 1 / 2 ^ 28 := by
        have t1 : |(k : ℝ) * l - k * a| ≤ 2 ^ 20 * (6 / 2 ^ 52) := by
          rw [← mul_sub, abs_mul, abs_of_nonneg (by positivity)]
          refine mul_le_mul k20 (el.trans ?_) (abs_nonneg _) (by norm_num)
          exact div_le_div_of_nonneg_right a6 (by norm_num)
        have t2 : |p - k * l| ≤ 2 ^ 20 * 7 / 2 ^ 52 := ep.trans (div_le_div_of_nonneg_right kl (by norm_num))
        calc |p - k * a| = |(p - k * l) + (k * l - k * a)| := by ring_nf
          _ ≤ |p - k * l| + |(k : ℝ) * l - k * a| := abs_add_le _ _
          _ ≤ 2 ^ 20 * 7 / 2 ^ 52 + 2 ^ 20 * (6 / 2 ^ 52) := add_le_add t2 t1
          _ ≤ 1 / 2 ^ 28 := by norm_num
      have hc : ⌈(k : ℝ) * a⌉₊ = Nat.clog 2 (r ^ k) := by
        have := Real.natCeil_logb_natCast 2 (r ^ k)
        push_cast at this
        rwa [Real.logb_pow, ← ha] at this
      have ka1 : 1 ≤ (k : ℝ) * a := by nlinarith
      obtain ⟨c, hcd⟩ : ∃ c, c = Nat.clog 2 (r ^ k) := ⟨_, rfl⟩
      rw [← hcd] at hc ⊢
      have c0 : c ≠ 0 := by
        rintro rfl
        rw [Nat.ceil_eq_zero] at hc
        linarith
      obtain ⟨u1, u2⟩ := (Nat.ceil_eq_iff c0).mp hc
      have d1 := hd (c : ℤ)
      have d2 := hd ((c : ℤ) - 1)
      push_cast at d1 d2
      have cm : ((c - 1 : Nat) : ℝ) = c - 1 := by
        rw [Nat.cast_sub (by omega)]
        norm_num
      rw [cm] at u1
      rw [abs_of_nonpos (by linarith)] at d1
      rw [abs_of_pos (by linarith)] at d2
      obtain ⟨e1, e2⟩ := abs_le.mp err
      have small : (1 : ℝ) / 2 ^ 28 < 1 / 2 ^ 27 := by norm_num
      refine (Nat.ceil_eq_iff c0).mpr ⟨?_, ?_⟩
      · rw [cm]; linarith
      · linarith

/-- Rounding down exists. -/
theorem exists_rounded (x : ℝ) (h1 : 1 ≤ x) (hx : x < 2 ^ 100) : ∃ y, Rounded x y := by
  obtain ⟨n, hn1, hn2⟩ := exists_nat_pow_near h1 (by norm_num : (1 : ℝ) < 2)
  have hn : n ≤ 100 := by
    by_contra hc
    have : (2 : ℝ) ^ 100 ≤ 2 ^ n := pow_le_pow_right₀ (by norm_num) (by omega)
    linarith
  obtain ⟨g, hg⟩ : ∃ g : ℝ, g = 2 ^ ((n : ℤ) - 52) := ⟨_, rfl⟩
  have g0 : 0 < g := by rw [hg]; positivity
  have gn : g * 2 ^ 52 = 2 ^ n := by
    rw [hg, zpow_sub₀ (by norm_num), zpow_natCast]
    norm_num
  have hb : x / g < 2 ^ 53 := by
    rw [div_lt_iff₀ g0]
    calc x < 2 ^ (n + 1) := hn2
      _ = 2 ^ 53 * g := by rw [pow_succ, ← gn]; ring
  have hpos : 0 ≤ x / g := by positivity
  have hfl : IsDouble (⌊x / g⌋ * g) := by
    rw [hg]
    refine isDouble_grid _ n hn (Int.floor_nonneg.mpr (by rw [← hg]; exact hpos)) ?_
    rw [← hg]
    have : (⌊x / g⌋ : ℝ) < 2 ^ 53 := lt_of_le_of_lt (Int.floor_le _) hb
    have : ⌊x / g⌋ < 2 ^ 53 := by exact_mod_cast this
    exact this.le
  have ef : ⌊x / g⌋ * g ≤ x := by
    have := mul_le_mul_of_nonneg_right (Int.floor_le (x / g)) g0.le
    rwa [div_mul_cancel₀ _ g0.ne'] at this
  refine ⟨⌊x / g⌋ * g, hfl, Or.inr ⟨ef, ?_⟩⟩
  rintro z ⟨m, e, hm, _, _, rfl⟩ hz
  by_cases he : (n : ℤ) - 52 ≤ e
  · obtain ⟨d, hd⟩ := Int.eq_ofNat_of_zero_le (sub_nonneg.mpr he)
    have ee : (m : ℝ) * 2 ^ e = ((m * 2 ^ d : ℤ) : ℝ) * g := by
      rw [hg, show e = (d : ℤ) + ((n : ℤ) - 52) by omega, zpow_add₀ (by norm_num), zpow_natCast]
      push_cast
      ring
    rw [ee] at hz ⊢
    refine mul_le_mul_of_nonneg_right ?_ g0.le
    exact_mod_cast Int.le_floor.mpr ((le_div_iff₀ g0).mpr hz)
  · have h52 : (2 : ℤ) ^ 52 ≤ ⌊x / g⌋ := by
      refine Int.le_floor.mpr ?_
      rw [le_div_iff₀ g0]
      have : g * 2 ^ 52 ≤ x := by rw [gn]; exact hn1
      norm_num at this ⊢
      linarith
    have h52' : (2 : ℝ) ^ 52 ≤ ⌊x / g⌋ := by exact_mod_cast h52
    have hm' : (m : ℝ) ≤ 2 ^ 53 := by
      have := (abs_lt.mp hm).2.le
      exact_mod_cast this
    have e2 : (2 : ℝ) ^ e * 2 ≤ g := by
      rw [hg, ← zpow_add_one₀ (by norm_num)]
      exact zpow_le_zpow_right₀ (by norm_num) (by omega)
    have z0 : (0 : ℝ) < 2 ^ e := by positivity
    calc (m : ℝ) * 2 ^ e ≤ 2 ^ 53 * 2 ^ e := mul_le_mul_of_nonneg_right hm' z0.le
      _ = 2 ^ 52 * (2 ^ e * 2) := by ring
      _ ≤ 2 ^ 52 * g := by linarith
      _ ≤ ⌊x / g⌋ * g := mul_le_mul_of_nonneg_right h52' g0.le

/-- There are such functions. -/
theorem exists_floatLg : ∃ lg, FloatLg lg := by
  have : ∀ r k : Nat, ∃ v : Nat, 2 ≤ r → r ≤ 36 → k ≤ 2 ^ 20 →
      ∃ l p : ℝ, Rounded (Real.logb 2 r) l ∧ Rounded (k * l) p ∧ v = ⌈p⌉₊ := by
    intro r k
    by_cases h : 2 ≤ r ∧ r ≤ 36 ∧ k ≤ 2 ^ 20
    · obtain ⟨h2, h36, hk⟩ := h
      have hr2 : (2 : ℝ) ≤ r := by exact_mod_cast h2
      have hr36 : (r : ℝ) ≤ 36 := by exact_mod_cast h36
      have a1 : 1 ≤ Real.logb 2 r := by
        rw [Real.le_logb_iff_rpow_le (by norm_num) (by linarith)]
        simpa using hr2
      have a6 : Real.logb 2 r ≤ 6 := by
        rw [Real.logb_le_iff_le_rpow (by norm_num) (by linarith)]
        norm_num
        linarith
      have k20 : (k : ℝ) ≤ 2 ^ 20 := by exact_mod_cast hk
      obtain ⟨l, hl⟩ := exists_rounded _ a1 (lt_of_le_of_lt a6 (by norm_num))
      have l1 := rounded_ge_one _ _ a1 hl
      have el := rounded_err _ l a1 (lt_of_le_of_lt a6 (by norm_num)) hl
      have l7 : l ≤ 7 := by
        have := (abs_le.mp el).2
        have : Real.logb 2 r / 2 ^ 52 ≤ 1 := by rw [div_le_one (by norm_num)]; linarith [show (6 : ℝ) ≤ 2 ^ 52 by norm_num]
        linarith
      rcases Nat.eq_zero_or_pos k with rfl | hk0
      · refine ⟨_, fun _ _ _ => ⟨l, 0, hl, ⟨by simpa using isDouble_nat 0 (by norm_num), Or.inl ⟨by simp, fun z _ hz => by simpa using hz⟩⟩, rfl⟩⟩
      · have k1 : (1 : ℝ) ≤ k := by exact_mod_cast hk0
        have kl1 : 1 ≤ (k : ℝ) * l := by nlinarith
        have kl : (k : ℝ) * l ≤ 2 ^ 20 * 7 := by nlinarith
        obtain ⟨p, hp⟩ := exists_rounded _ kl1 (lt_of_le_of_lt kl (by norm_num))
        exact ⟨_, fun _ _ _ => ⟨l, p, hl, hp, rfl⟩⟩
    · exact ⟨0, fun a b c => absurd ⟨a, b, c⟩ h⟩
  choose f hf using this
  exact ⟨f, hf⟩

example : ∃ lg, FloatLg lg ∧ lg 10 6 = Nat.clog 2 (10 ^ 6) :=
  exists_floatLg.imp fun lg h => ⟨h, C97_ceil lg h 10 6 (by decide) (by decide) (by decide)⟩

/-! ### The FPE functions -/

/-- All functions look at one value only. -/
theorem lg_congr (ctx : FpeCtx) (lg lg' : Nat → Nat → Nat) (junk : Nat → Block) (n : Nat)
    (h : lg ctx.radix ((n + 1) / 2) = lg' ctx.radix ((n + 1) / 2)) :
    ff1RoundY ctx lg n = ff1RoundY ctx lg' n ∧ ff3RoundS ctx lg n = ff3RoundS ctx lg' n ∧
    (fun i => cmacRoundY ctx lg (junk i) n i) = fun i => cmacRoundY ctx lg' (junk i) n i := by
  have e : n - n / 2 = (n + 1) / 2 := by omega
  refine ⟨?_, ?_, ?_⟩
  · funext i x
    unfold ff1RoundY ff1B
    simp only [floor2_eq, e, h]
  · funext i x
    unfold ff3RoundS
    simp only [ceil2_one, h]
  · funext i x
    unfold cmacRoundY ff1B
    simp only [floor2_eq, e, h]

theorem bind_cstr {α : Type} (input : List Byte) (f g : List Byte → Option α)
    (h : ∀ str, cstr input = some str → f str = g str) : (cstr input).bind f = (cstr input).bind g := by
  cases e : cstr input with
  | none => rfl
  | some str => exact h str e

/-- C97: with doubles, FF1, FF3 and their authenticated forms compute what they compute with exact byte counts, for every input of up to
`2^21` characters, defined or not.  So the theorems about exact byte counts hold for the compiled functions. -/
theorem C97_fpe (tweak : List Byte) (radix : Nat) (E : Block → Block) (ctx : FpeCtx) (hc : fpeInit tweak radix E = some ctx)
    (lg : Nat → Nat → Nat) (hlg : FloatLg lg) (junk : Nat → Block) (input out : List Byte)
    (hl : ∀ s, cstr input = some s → s.length ≤ 2 ^ 21) :
    ff1Encrypt ctx lg input out = ff1Encrypt ctx exactLg input out ∧
    ff1Decrypt ctx lg input out = ff1Decrypt ctx exactLg input out ∧
    ff3Encrypt ctx lg input out = ff3Encrypt ctx exactLg input out ∧
    ff3Decrypt ctx lg input out = ff3Decrypt ctx exactLg input out ∧
    cmacEncrypt ctx lg junk input out = cmacEncrypt ctx exactLg junk input out ∧
    cmacDecrypt ctx lg junk input out = cmacDecrypt ctx exactLg junk input out ∧
    gmacEncrypt ctx lg input out = gmacEncrypt ctx exactLg input out ∧
    gmacDecrypt ctx lg input out = gmacDecrypt ctx exactLg input out := by
  have hcr : ctx.radix = radix ∧ 2 ≤ radix ∧ radix ≤ 36 := by
    unfold fpeInit at hc
    split at hc
    · cases hc
    · injection hc with hc; rw [← hc]; exact ⟨rfl, by omega, by omega⟩
  have key : ∀ str, cstr input = some str → lg ctx.radix ((str.length + 1) / 2) = exactLg ctx.radix ((str.length + 1) / 2) := by
    intro str hs
    have := hl str hs
    rw [hcr.1]
    exact C97_ceil lg hlg _ _ hcr.2.1 hcr.2.2 (by omega)
  have keyB : ∀ str, cstr input = some str → ff1B lg ctx.radix (str.length - floor2 str.length 1) =
      ff1B exactLg ctx.radix (str.length - floor2 str.length 1) := by
    intro str hs
    rw [floor2_eq, show str.length - str.length / 2 = (str.length + 1) / 2 by omega]
    unfold ff1B
    rw [key str hs]
  refine ⟨?_, ?_, ?_, ?_, ?_, ?_, ?_, ?_⟩
  · unfold ff1Encrypt
    refine bind_cstr _ _ _ fun str hs => ?_
    have : ff1EncryptRound ctx lg str.length = ff1EncryptRound ctx exactLg str.length := by
      funext s i
      unfold ff1EncryptRound
      rw [(lg_congr ctx lg exactLg junk _ (key str hs)).1]
    simp only [this, keyB str hs]
  · unfold ff1Decrypt
    refine bind_cstr _ _ _ fun str hs => ?_
    have : ff1DecryptRound ctx lg str.length = ff1DecryptRound ctx exactLg str.length := by
      funext s i
      unfold ff1DecryptRound
      rw [(lg_congr ctx lg exactLg junk _ (key str hs)).1]
    simp only [this, keyB str hs]
  · unfold ff3Encrypt
    refine bind_cstr _ _ _ fun str hs => ?_
    have : ff3EncryptRound ctx lg str.length = ff3EncryptRound ctx exactLg str.length := by
      funext s i
      unfold ff3EncryptRound
      rw [(lg_congr ctx lg exactLg junk _ (key str hs)).2.1]
    simp only [this]
  · unfold ff3Decrypt
    refine bind_cstr _ _ _ fun str hs => ?_
    have : ff3DecryptRound ctx lg str.length = ff3DecryptRound ctx exactLg str.length := by
      funext s i
      unfold ff3DecryptRound
      rw [(lg_congr ctx lg exactLg junk _ (key str hs)).2.1]
    simp only [this]
  · unfold cmacEncrypt
    refine bind_cstr _ _ _ fun str hs => ?_
    have : cmacEncryptRound ctx lg junk str.length = cmacEncryptRound ctx exactLg junk str.length := by
      funext s i
      unfold cmacEncryptRound
      have := congrFun (lg_congr ctx lg exactLg junk _ (key str hs)).2.2 i
      rw [this]
    simp only [this, keyB str hs]
  · unfold cmacDecrypt
    refine bind_cstr _ _ _ fun str hs => ?_
    have : cmacDecryptRound ctx lg junk str.length = cmacDecryptRound ctx exactLg junk str.length := by
      funext s i
      unfold cmacDecryptRound
      have := congrFun (lg_congr ctx lg exactLg junk _ (key str hs)).2.2 i
      rw [this]
    simp only [this, keyB str hs]
  · unfold gmacEncrypt
    refine bind_cstr _ _ _ fun str hs => ?_
    have : gmacEncryptRound ctx lg str.length = gmacEncryptRound ctx exactLg str.length := by
      funext s i
      unfold gmacEncryptRound
      rw [(lg_congr ctx lg exactLg junk _ (key str hs)).2.1]
    simp only [this]
  · unfold gmacDecrypt
    refine bind_cstr _ _ _ fun str hs => ?_
    have : gmacDecryptRound ctx lg str.length = gmacDecryptRound ctx exactLg str.length := by
      funext s i
      unfold gmacDecryptRound
      rw [(lg_congr ctx lg exactLg junk _ (key str hs)).2.1]
    simp only [this]

/-- A six-character input. -/
example : cstr [49, 50, 51, 52, 53, 54, 0] = some [49, 50, 51, 52, 53, 54] := by decide

/-- The engines of the applications. -/
theorem engine_float (app : FpeApp) (lg : Nat → Nat → Nat) (hlg : FloatLg lg) (radix : Nat) (h2 : 2 ≤ radix) (h36 : radix ≤ 36)
    (tweak s out : List Byte) (h0 : ∀ c ∈ s, c ≠ 0) (hl : s.length ≤ 2 ^ 21) :
    encFn app lg ⟨app.E, radix, tweak⟩ (s ++ [0]) out = encFn app exactLg ⟨app.E, radix, tweak⟩ (s ++ [0]) out ∧
    decFn app lg ⟨app.E, radix, tweak⟩ (s ++ [0]) out = decFn app exactLg ⟨app.E, radix, tweak⟩ (s ++ [0]) out := by
  have hc : fpeInit tweak radix app.E = some ⟨app.E, radix, tweak⟩ := by
    unfold fpeInit
    rw [if_neg (by omega)]
  obtain ⟨a, b, c, d, _⟩ := C97_fpe tweak radix app.E _ hc lg hlg (fun _ => zeroBlock) (s ++ [0]) out (by
    intro t ht
    rw [cstr_append s [] h0] at ht
    rw [← Option.some.inj ht]
    exact hl)
  unfold encFn decFn
  cases app.ffx
  · exact ⟨a, b⟩
  · exact ⟨c, d⟩

/-- C97, phone numbers of up to `2^21` characters. -/
theorem C97_phone (app : FpeApp) (lg : Nat → Nat → Nat) (hlg : FloatLg lg) (mem : AppMem) (phone smp rest more after : List Byte)
    (hp : ∀ c ∈ phone, c ≠ 0) (h0 : ∀ c ∈ smp, c ≠ 0) (hs : smp = [] ∨ phone.length ≤ smp.length)
    (hl : phone.length ≤ 2 ^ 21) :
    encryptPhone app lg mem (phone ++ 0 :: rest) (smp ++ 0 :: more) after =
      encryptPhone app exactLg mem (phone ++ 0 :: rest) (smp ++ 0 :: more) after ∧
    decryptPhone app lg mem (phone ++ 0 :: rest) (smp ++ 0 :: more) after =
      decryptPhone app exactLg mem (phone ++ 0 :: rest) (smp ++ 0 :: more) after := by
  have hm := maskOf_length smp phone.length hs
  have hz : ∀ c ∈ pick false (maskOf smp phone.length) phone, c ≠ 0 := fun c hc => hp c (mem_pick _ _ _ c hc)
  have hn : (pick false (maskOf smp phone.length) phone).length ≤ 2 ^ 21 := by
    rw [length_pick _ _ _ hm]
    exact (List.count_le_length.trans (le_of_eq hm)).trans hl
  have := fun t o => engine_float app lg hlg 10 (by decide) (by decide) t _ o hz hn
  unfold encryptPhone decryptPhone
  simp only [auxPhone_eq app mem phone rest smp more after hp h0 hs, (this _ _).1, (this _ _).2, and_self]

/-- C97, identity cards. -/
theorem C97_idcard (app : FpeApp) (lg : Nat → Nat → Nat) (hlg : FloatLg lg) (mem : AppMem)
    (body tail smp rest more after : List Byte) (hform : CardForm body tail)
    (hp : ∀ c ∈ body, c ≠ 0) (h0 : ∀ c ∈ smp, c ≠ 0) (hs : smp = [] ∨ body.length ≤ smp.length)
    (hl : body.length ≤ 2 ^ 21) :
    encryptIdcard app lg mem (body ++ tail ++ 0 :: rest) (smp ++ 0 :: more) after =
      encryptIdcard app exactLg mem (body ++ tail ++ 0 :: rest) (smp ++ 0 :: more) after ∧
    decryptIdcard app lg mem (body ++ tail ++ 0 :: rest) (smp ++ 0 :: more) after =
      decryptIdcard app exactLg mem (body ++ tail ++ 0 :: rest) (smp ++ 0 :: more) after := by
  have hm := maskOf_length smp body.length hs
  have hz : ∀ c ∈ pick false (maskOf smp body.length) body, c ≠ 0 := fun c hc => hp c (mem_pick _ _ _ c hc)
  have hn : (pick false (maskOf smp body.length) body).length ≤ 2 ^ 21 := by
    rw [length_pick _ _ _ hm]
    exact (List.count_le_length.trans (le_of_eq hm)).trans hl
  have := fun t o => engine_float app lg hlg 10 (by decide) (by decide) t _ o hz hn
  unfold encryptIdcard decryptIdcard
  simp only [auxIdcard_eq app mem body tail rest smp more after hform hp h0 hs, (this _ _).1, (this _ _).2, and_self]

/-- C97, Chinese text of up to `2^19` characters. -/
theorem C97_cn (app : FpeApp) (lg : Nat → Nat → Nat) (hlg : FloatLg lg) (mem : AppMem) (cps : List Nat)
    (smp rest more after : List Byte) (mask : List Bool)
    (hr : ∀ cp ∈ cps, InCnRange cp) (hm : CnSample smp mask cps.length) (hl : cps.length ≤ 2 ^ 19) :
    encryptCn app lg mem (utf8Text cps ++ 0 :: rest) (smp ++ 0 :: more) after =
      encryptCn app exactLg mem (utf8Text cps ++ 0 :: rest) (smp ++ 0 :: more) after ∧
    decryptCn app lg mem (utf8Text cps ++ 0 :: rest) (smp ++ 0 :: more) after =
      decryptCn app exactLg mem (utf8Text cps ++ 0 :: rest) (smp ++ 0 :: more) after := by
  have hz : ∀ c ∈ duoText (pick false mask cps), c ≠ 0 := fun c hc => numeral_ne_zero c (duoText_numeral _ c hc)
  have hn : (duoText (pick false mask cps)).length ≤ 2 ^ 21 := by
    rw [length_duoText, length_pick _ _ _ hm.length]
    have := (List.count_le_length (a := false) (l := mask)).trans (le_of_eq hm.length)
    omega
  have := fun t o => engine_float app lg hlg 12 (by decide) (by decide) t _ o hz hn
  unfold encryptCn decryptCn
  simp only [auxCn_eq app mem cps smp rest more after mask hr hm, (this _ _).1, (this _ _).2, and_self]

/-- The hypotheses of the three are met by "13888888888" with a sample of its length, "11010519491231002X" without, and one character. -/
example : (∀ c ∈ ([49, 51, 56, 56, 56, 56, 56, 56, 56, 56, 56] : List Byte), c ≠ 0) ∧
    CardForm [49, 49, 48, 49, 48, 53, 49, 57, 52, 57, 49, 50, 51, 49, 48, 48, 50] [0x58] ∧ InCnRange 0x4E2D ∧
    CnSample [] [false] 1 := ⟨by decide, Or.inl rfl, by unfold InCnRange; decide, Or.inl ⟨rfl, rfl⟩⟩

end Verif.Props
