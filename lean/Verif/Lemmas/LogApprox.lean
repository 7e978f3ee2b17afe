import Verif.Spec.Float64

/-! Multiples of the logarithms of the radices to base 2 keep a distance from integers. -/
set_option autoImplicit false

namespace Verif
open Spec

/-- Between two fractions with neighbouring numerators and denominators on both sides of `a`, multiples of `a` below the second denominator
come no closer to an integer than the first. -/
theorem dist_ge (a : ℝ) (q p q' p' : ℤ) (hq : 0 < q) (hdet : q * p' - p * q' = 1) (h1 : 0 < q * a - p)
    (h2 : q' * a - p' < 0) (k m : ℤ) (hk0 : 0 < k) (hk : k < q') : q * a - p ≤ |k * a - m| := by
  obtain ⟨x, hx⟩ : ∃ x, x = k * p' - m * q' := ⟨_, rfl⟩
  obtain ⟨y, hy⟩ : ∃ y, y = m * q - k * p := ⟨_, rfl⟩
  have e1 : x * q + y * q' = k := by rw [hx, hy]; linear_combination k * hdet
  have e2 : x * p + y * p' = m := by rw [hx, hy]; linear_combination m * hdet
  have e : (k : ℝ) * a - m = x * (q * a - p) + y * (q' * a - p') := by
    rw [← e1, ← e2]; push_cast; ring
  rw [e]
  rcases le_or_gt y 0 with hy0 | hy0
  · have hx1 : 1 ≤ x := by
      by_contra h
      have : x * q ≤ 0 := by nlinarith
      have : y * q' ≤ 0 := by nlinarith
      omega
    have hx1' : (1 : ℝ) ≤ x := by exact_mod_cast hx1
    have hy0' : (y : ℝ) ≤ 0 := by exact_mod_cast hy0
    refine le_trans ?_ (le_abs_self _)
    nlinarith
  · have hx1 : x ≤ -1 := by
      by_contra h
      have : 0 ≤ x * q := by nlinarith
      have : q' ≤ y * q' := by nlinarith
      omega
    have hx1' : (x : ℝ) ≤ -1 := by exact_mod_cast hx1
    have hy0' : (0 : ℝ) < y := by exact_mod_cast hy0
    refine le_trans ?_ (neg_le_abs _)
    nlinarith

/-- A lower bound for the distance of the first fraction. -/
theorem first_ge (a : ℝ) (q p q' p' J : ℤ) (hq : 0 < q) (hdet : q * p' - p * q' = 1)
    (h3 : 0 < (q' + J * q) * a - (p' + J * p)) : 1 < (q * a - p) * (q' + J * q) := by
  have hdet' : (q : ℝ) * p' - p * q' = 1 := by exact_mod_cast hdet
  have hq0 : (0 : ℝ) < q := by exact_mod_cast hq
  have hj : (q : ℝ) * ((q' + J * q) * a - (p' + J * p)) = (q * a - p) * (q' + J * q) - 1 := by
    rw [← hdet']; ring
  have := mul_pos hq0 h3
  linarith

/-- A certificate for one radix: two fractions and a multiple. `up`: the first is below the logarithm. -/
structure Cert where
  r : Nat
  q : Nat
  p : Nat
  q' : Nat
  p' : Nat
  j : Nat
  up : Bool

/-- `2^b`, in steps of 64. -/
def twoPow (b : Nat) : Nat := (2 ^ 64) ^ (b / 64) * 2 ^ (b % 64)

theorem twoPow_eq (b : Nat) : twoPow b = 2 ^ b := by
  unfold twoPow
  rw [← pow_mul, ← pow_add, Nat.div_add_mod]

/-- `r^a < 2^b`, or the other way round. -/
def cmpPow (below : Bool) (r a b : Nat) : Bool :=
  if below then Nat.blt (r ^ a) (twoPow b) else Nat.blt (twoPow b) (r ^ a)

/-- What the certificate claims. -/
def Cert.check (c : Cert) : Bool :=
  (if c.up then c.q * c.p' == c.p * c.q' + 1 else c.q * c.p' + 1 == c.p * c.q') && Nat.blt 0 c.q &&
  Nat.blt (2 ^ 20) c.q' && Nat.ble (c.q' + c.j * c.q) (2 ^ 27) &&
  cmpPow (!c.up) c.r c.q c.p && cmpPow c.up c.r c.q' c.p' && cmpPow (!c.up) c.r (c.q' + c.j * c.q) (c.p' + c.j * c.p)

theorem cmpPow_true (r a b : Nat) (hr : 2 ≤ r) (h : cmpPow true r a b = true) : (a : ℝ) * Real.logb 2 r < b := by
  unfold cmpPow at h
  rw [if_pos rfl, twoPow_eq] at h
  have h' : r ^ a < 2 ^ b := by simpa [Nat.blt_eq] using h
  have h2 : ((r : ℝ) ^ a) < 2 ^ b := by exact_mod_cast h'
  have := Real.logb_lt_logb (b := 2) (by norm_num) (by positivity) h2
  rwa [Real.logb_pow, Real.logb_pow, Real.logb_self_eq_one (by norm_num), mul_one] at this

theorem cmpPow_false (r a b : Nat) (h : cmpPow false r a b = true) : (b : ℝ) < a * Real.logb 2 r := by
  unfold cmpPow at h
  rw [if_neg (by decide), twoPow_eq] at h
  have h' : 2 ^ b < r ^ a := by simpa [Nat.blt_eq] using h
  have h2 : (2 : ℝ) ^ b < (r : ℝ) ^ a := by exact_mod_cast h'
  have := Real.logb_lt_logb (b := 2) (by norm_num) (by positivity) h2
  rwa [Real.logb_pow, Real.logb_pow, Real.logb_self_eq_one (by norm_num), mul_one] at this

/-- A checked certificate keeps multiples of the logarithm away from integers. -/
theorem Cert.dist (c : Cert) (hr : 2 ≤ c.r) (h : c.check = true) (k : Nat) (hk0 : 0 < k) (hk : k ≤ 2 ^ 20) (m : ℤ) :
    1 / 2 ^ 27 < |k * Real.logb 2 c.r - m| := by
  obtain ⟨r, q, p, q', p', j, up⟩ := c
  unfold Cert.check at h
  simp only [Bool.and_eq_true, Nat.blt_eq, Nat.ble_eq] at h
  obtain ⟨⟨⟨⟨⟨⟨hdet, hq⟩, hq'⟩, hN⟩, h1⟩, h2⟩, h3⟩ := h
  simp only at hr ⊢
  have fin : ∀ d : ℝ, 1 < d * ((q' : ℝ) + j * q) → d ≤ |k * Real.logb 2 r - m| → 1 / 2 ^ 27 < |k * Real.logb 2 r - m| := by
    intro d hd hle
    have hN' : (q' : ℝ) + j * q ≤ 2 ^ 27 := by exact_mod_cast hN
    have hpos : (0 : ℝ) < (q' : ℝ) + j * q := by
      have : (0 : ℝ) < q' := by exact_mod_cast (Nat.lt_of_le_of_lt (Nat.zero_le _) hq')
      positivity
    refine lt_of_lt_of_le ?_ hle
    rw [div_lt_iff₀ (by norm_num)]
    have hd0 : 0 < d := by
      by_contra hn
      nlinarith
    nlinarith
  cases up with
  | true =>
    simp only [if_true, beq_iff_eq, Bool.not_true] at hdet h1 h2 h3
    have g1 := cmpPow_false _ _ _ h1
    have g2 := cmpPow_true _ _ _ hr h2
    have g3 := cmpPow_false _ _ _ h3
    push_cast at g3
    have hdetZ : (q : ℤ) * p' - p * q' = 1 := by
      have : (q : ℤ) * p' = p * q' + 1 := by exact_mod_cast hdet
      omega
    have a1 := dist_ge (Real.logb 2 r) q p q' p' (by exact_mod_cast hq) hdetZ (by push_cast; linarith) (by push_cast; linarith)
      k m (by exact_mod_cast hk0) (by exact_mod_cast Nat.lt_of_le_of_lt hk hq')
    have a2 := first_ge (Real.logb 2 r) q p q' p' j (by exact_mod_cast hq) hdetZ (by push_cast; linarith)
    push_cast at a1 a2
    exact fin _ a2 a1
  | false =>
    simp only [Bool.false_eq_true, if_false, beq_iff_eq, Bool.not_false] at hdet h1 h2 h3
    have g1 := cmpPow_true _ _ _ hr h1
    have g2 := cmpPow_false _ _ _ h2
    have g3 := cmpPow_true _ _ _ hr h3
    push_cast at g3
    have hdetZ : (q : ℤ) * (-p') - (-p) * q' = 1 := by
      have : (q : ℤ) * p' + 1 = p * q' := by exact_mod_cast hdet
      linarith
    have a1 := dist_ge (-Real.logb 2 r) q (-p) q' (-p') (by exact_mod_cast hq) hdetZ (by push_cast; linarith) (by push_cast; linarith)
      k (-m) (by exact_mod_cast hk0) (by exact_mod_cast Nat.lt_of_le_of_lt hk hq')
    have a2 := first_ge (-Real.logb 2 r) q (-p) q' (-p') j (by exact_mod_cast hq) hdetZ (by push_cast; linarith)
    push_cast at a1 a2
    refine fin _ a2 (a1.trans (le_of_eq ?_))
    rw [← abs_neg]
    congr 1
    ring

/-- Certificates for the radices that are not powers of two. -/
def certs : List Cert := [
  ⟨3, 190537, 301994, 1063887, 1686221, 51, false⟩,
  ⟨5, 97879, 227268, 1055363, 2450477, 9, false⟩,
  ⟨6, 190537, 492531, 1063887, 2750108, 51, false⟩,
  ⟨7, 453601, 1273419, 1452116, 4076605, 6, true⟩,
  ⟨9, 190537, 603988, 1198823, 3800179, 22, false⟩,
  ⟨10, 97879, 325147, 1055363, 3505840, 9, false⟩,
  ⟨11, 417431, 1444074, 1268796, 4389313, 1, false⟩,
  ⟨12, 190537, 683068, 1063887, 3813995, 51, false⟩,
  ⟨13, 54353, 201130, 1092518, 4042797, 130, true⟩,
  ⟨14, 453601, 1727020, 1452116, 5528721, 6, true⟩,
  ⟨15, 416263, 1626294, 1156736, 4519241, 9, false⟩,
  ⟨17, 36667, 149875, 1059307, 4329878, 188, true⟩,
  ⟨18, 190537, 794525, 1198823, 4999002, 22, false⟩,
  ⟨19, 163451, 694328, 1065025, 4524149, 40, false⟩,
  ⟨20, 97879, 423026, 1055363, 4561203, 9, false⟩,
  ⟨21, 133601, 586818, 1053787, 4628567, 4, true⟩,
  ⟨22, 417431, 1861505, 1268796, 5658109, 1, false⟩,
  ⟨23, 785355, 3552602, 1160048, 5247549, 1, false⟩,
  ⟨24, 190537, 873605, 1063887, 4877882, 51, false⟩,
  ⟨25, 968137, 4495889, 1838395, 8537242, 14, false⟩,
  ⟨26, 54353, 255483, 1092518, 5135315, 130, true⟩,
  ⟨27, 190537, 905982, 1116777, 5310149, 13, false⟩,
  ⟨28, 453601, 2180621, 1452116, 6980837, 6, true⟩,
  ⟨29, 390321, 1896172, 1103296, 5359791, 1, false⟩,
  ⟨30, 416263, 2042557, 1156736, 5675977, 9, false⟩,
  ⟨31, 709397, 3514492, 1644671, 8148023, 1, false⟩,
  ⟨33, 622177, 3138506, 1081855, 5457303, 18, true⟩,
  ⟨34, 36667, 186542, 1059307, 5389185, 188, true⟩,
  ⟨35, 352993, 1810601, 1217337, 6244066, 3, true⟩,
  ⟨36, 190537, 985062, 1198823, 6197825, 22, false⟩]

theorem certs_ok : certs.all Cert.check = true := by decide +kernel

theorem certs_all : ∀ r : Nat, 2 ≤ r → r ≤ 36 → r ∈ [2, 4, 8, 16, 32] ∨ r ∈ certs.map Cert.r := by decide

/-- Multiples of the logarithm of a radix that is not a power of two keep away from integers. -/
theorem log_dist (r : Nat) (h2 : 2 ≤ r) (h36 : r ≤ 36) (hp : r ∉ [2, 4, 8, 16, 32]) (k : Nat) (hk0 : 0 < k) (hk : k ≤ 2 ^ 20)
    (m : ℤ) : 1 / 2 ^ 27 < |k * Real.logb 2 r - m| := by
  rcases certs_all r h2 h36 with h | h
  · exact absurd h hp
  · obtain ⟨c, hc, rfl⟩ := List.mem_map.mp h
    exact c.dist h2 (List.all_eq_true.mp certs_ok c hc) k hk0 hk m

end Verif
