import Verif.Lemmas.Gf2More

/-! Property C82 of `/repo/WBMatrix/src/WBMatrix.c`: the 128-bit functions, single bits, weights and concatenations. -/
set_option autoImplicit false
set_option linter.unusedSectionVars false

namespace Verif.Props
open Verif Spec Model

/-! ### single bits -/

section bit
variable {n : Nat} [WSize n] [LawfulWSize n]

theorem readbit_eq (M : Mat n) (i : Nat) {j : Nat} (hj : j < n) : readbitM M i j = if bits (M.row i) j then 1 else 0 := by
  unfold readbitM
  rw [has_eq M hj, mbit]

theorem bits_flip (M : Mat n) {i j : Nat} (hi : i < n) (hj : j < n) (a b : Nat) :
    bits ((flipbitM M i j).row a) b = (bits (M.row a) b ^^ decide (a = i ∧ b = j)) := by
  unfold flipbitM
  rw [row_set _ _ _ hi]
  by_cases ha : a = i
  · rw [if_pos ha, bits_xor, idRow_bits hj, ha]
    congr 1
    simp [eq_comm]
  · rw [if_neg ha]
    simp [ha]

theorem bits_setbit (M : Mat n) {i j : Nat} (hi : i < n) (hj : j < n) (v : Bool) (a b : Nat) :
    bits ((setbitM M i j (if v then 1 else 0)).row a) b = if a = i ∧ b = j then v else bits (M.row a) b := by
  unfold setbitM
  rw [readbit_eq M i hj]
  by_cases hv : bits (M.row i) j = v
  · rw [if_pos (by rw [hv]; cases v <;> rfl)]
    split
    · next h => rw [h.1, h.2, hv]
    · rfl
  · rw [if_neg (by cases v <;> cases h : bits (M.row i) j <;> simp_all), bits_flip M hi hj]
    by_cases h : a = i ∧ b = j
    · rw [if_pos h, h.1, h.2]
      cases v <;> cases h : bits (M.row i) j <;> simp_all
    · rw [if_neg h]
      simp [h]

theorem setbit_other (M : Mat n) (i j : Nat) (v : Int) (h0 : v ≠ 0) (h1 : v ≠ 1) : setbitM M i j v = flipbitM M i j := by
  unfold setbitM readbitM
  rw [if_neg]
  split
  · exact fun h => h1 h.symm
  · exact fun h => h0 h.symm

end bit

theorem readbit128_eq (M : Mat 128) (i : Nat) {j : Nat} (hj : j < 128) : readbit128 M i j = readbitM M i j := by
  have h64 : ∀ (x : BitVec 64) k, k < 64 → (x &&& idRow 64 k == idRow 64 k) = bits x k := by
    intro x k hk
    have h := has_eq (n := 64) (Vector.replicate 64 x) (i := 0) hk
    have e : Mat.row (Vector.replicate 64 x) 0 = x := by simp [Mat.row]
    rw [Mat.has, mbit, e] at h
    exact h
  rw [readbit_eq M i hj, readbit128, bits_words]
  split
  · next h => rw [h64 _ _ h]
  · next h => rw [h64 _ _ (by omega)]

theorem flipbit128_eq (M : Mat 128) (i : Nat) {j : Nat} (hj : j < 128) : flipbit128 M i j = flipbitM M i j := by
  unfold flipbit128 flipbitM
  have key : ∀ x : BitVec 128, (if j < 64 then (word0 x ^^^ idRow 64 j) ++ word1 x else word0 x ++ (word1 x ^^^ idRow 64 (j - 64)))
      = x ^^^ idRow 128 j := by
    intro x
    rw [idRow_128 hj]
    apply bits_ext
    intro b hb
    rw [bits_xor, bits_idRow128 hj (show b < 128 from hb)]
    split
    · next h =>
      refine (bits_append (word0 x ^^^ idRow 64 j) (word1 x) b).trans ?_
      rw [bits_words x b]
      split
      · rw [bits_xor, idRow_bits h]
      · have : ¬ j = b := by omega
        simp [this]
    · next h =>
      refine (bits_append (word0 x) (word1 x ^^^ idRow 64 (j - 64)) b).trans ?_
      rw [bits_words x b]
      split
      · have : ¬ j = b := by omega
        simp [this]
      · rw [bits_xor, idRow_bits (by omega)]
        congr 1
        have : j - 64 = b - 64 ↔ j = b := by omega
        simp [this]
  rw [← key]
  split <;> rfl

theorem setbit128_eq (M : Mat 128) (i : Nat) {j : Nat} (hj : j < 128) (v : Int) : setbit128 M i j v = setbitM M i j v := by
  unfold setbit128 setbitM
  rw [readbit128_eq M i hj, flipbit128_eq M i hj]

/-- C82: `readbit` gives the bit, `flipbit` changes that bit and no other, `setbit` with 0 or 1 sets that bit and no other, at
all sizes; with another value `setbit` always flips. -/
theorem C82_single_bits (n : Nat) [WSize n] [LawfulWSize n] (M : Mat n) (i j : Nat) (hi : i < n) (hj : j < n) :
    readbitM M i j = (if bits (M.row i) j then 1 else 0) ∧
    (∀ a b, bits ((flipbitM M i j).row a) b = if a = i ∧ b = j then !bits (M.row a) b else bits (M.row a) b) ∧
    (∀ v a b, bits ((setbitM M i j (if v then 1 else 0)).row a) b = if a = i ∧ b = j then v else bits (M.row a) b) ∧
    (∀ v, v ≠ 0 → v ≠ 1 → setbitM M i j v = flipbitM M i j) := by
  refine ⟨readbit_eq M i hj, fun a b => ?_, fun v a b => bits_setbit M hi hj v a b, fun v => setbit_other M i j v⟩
  rw [bits_flip M hi hj]
  split
  · next h => simp [h]
  · next h => simp [h]

/-- C82: the 128-bit functions on single bits, which work on 64-bit words, do the same. -/
theorem C82_single_bits128 (M : Mat 128) (i j : Nat) (hi : i < 128) (hj : j < 128) :
    readbit128 M i j = (if bits (M.row i) j then 1 else 0) ∧
    (∀ a b, bits ((flipbit128 M i j).row a) b = if a = i ∧ b = j then !bits (M.row a) b else bits (M.row a) b) ∧
    (∀ v a b, bits ((setbit128 M i j (if v then 1 else 0)).row a) b = if a = i ∧ b = j then v else bits (M.row a) b) := by
  obtain ⟨h1, h2, h3, -⟩ := C82_single_bits 128 M i j hi hj
  refine ⟨?_, ?_, ?_⟩
  · rw [readbit128_eq M i hj]; exact h1
  · intro a b; rw [flipbit128_eq M i hj]; exact h2 a b
  · intro v a b; rw [setbit128_eq M i hj]; exact h3 v a b

example := C82_single_bits128 (Vector.replicate 128 5) 100 127 (by decide) (by decide)
example : readbitM (n := 8) #v[0x80, 1, 2, 3, 4, 5, 6, 7] 0 0 = 1 ∧ readbitM (n := 8) #v[0x80, 1, 2, 3, 4, 5, 6, 7] 3 0 = 0 ∧
    setbitM (n := 4) #v[1, 2, 4, 8] 0 0 1 = #v[9, 2, 4, 8] := by decide +kernel

/-! ### comparison, sums, weights -/

/-- Number of set bits. -/
def weight {n : Nat} (x : BitVec n) : Nat := (List.range n).countP (bits x)

theorem weight_append {a b : Nat} (x : BitVec a) (y : BitVec b) : weight (x ++ y) = weight x + weight y := by
  unfold weight
  rw [List.range_add, List.countP_append, List.countP_map]
  congr 1
  · apply List.countP_congr
    intro i hi
    rw [bits_append, if_pos (List.mem_range.mp hi)]
  · apply List.countP_congr
    intro i _
    rw [Function.comp_apply, bits_append, if_neg (by omega), Nat.add_sub_cancel_left]

theorem weight_half (k : Nat) (x : BitVec (k + k)) : weight (x.truncate k) + weight ((x >>> k).truncate k) = weight x := by
  rw [Nat.add_comm, ← weight_append, ← half_append]

theorem hwU8_eq (x : BitVec 8) : hwU8 x = weight x := by
  have h : ∀ i : Fin 256, hwU8 (BitVec.ofFin i) = weight (BitVec.ofFin (w := 8) i) := by decide +kernel
  exact h x.toFin

theorem hwU16_eq (x : BitVec 16) : hwU16 x = weight x := by
  rw [hwU16, hwU8_eq, hwU8_eq]; exact weight_half 8 x

theorem hwU32_eq (x : BitVec 32) : hwU32 x = weight x := by
  rw [hwU32, hwU16_eq, hwU16_eq]; exact weight_half 16 x

theorem hwU64_eq (x : BitVec 64) : hwU64 x = weight x := by
  rw [hwU64, hwU32_eq, hwU32_eq]; exact weight_half 32 x

/-- C82: the Hamming weight functions count the set bits. -/
theorem C82_weights (a : BitVec 8) (b : BitVec 16) (c : BitVec 32) (d : BitVec 64) (e : BitVec 128) :
    hwU8 a = weight a ∧ hwU16 b = weight b ∧ hwU32 c = weight c ∧ hwU64 d = weight d ∧ hwU128 e = weight e := by
  refine ⟨hwU8_eq a, hwU16_eq b, hwU32_eq c, hwU64_eq d, ?_⟩
  rw [hwU128, hwU64_eq, hwU64_eq]
  conv => rhs; rw [← words_append e]
  exact (weight_append (word0 e) (word1 e)).symm

example : hwU32 0x80000103 = 4 := by decide +kernel

/-- C82: `isequal` decides equality; the sum of two matrices acts as the sum of the maps. -/
theorem C82_equal_sum (n : Nat) [WSize n] [LawfulWSize n] (A B : Mat n) (x : BitVec n) :
    (isequalM A B = true ↔ A = B) ∧ matMulNum (matAddMat A B) x = matMulNum A x ^^^ matMulNum B x := by
  constructor
  · unfold isequalM
    rw [Option.isNone_iff_eq_none, List.find?_eq_none]
    constructor
    · intro h
      apply mat_ext
      intro i j hi _
      have := h i (List.mem_range.mpr hi)
      rw [bne_iff_ne, ne_eq, Classical.not_not] at this
      rw [mbit, this, mbit]
    · rintro rfl i _
      simp
  · apply bits_ext
    intro i hi
    rw [bits_xor, bits_matMulNum _ _ hi, bits_matMulNum _ _ hi, bits_matMulNum _ _ hi, ← gsum_xor]
    apply gsum_congr
    intro k _
    rw [mbit, matAddMat, row_ofFn _ hi, bits_xor, Bool.and_xor_distrib_right]
    rfl

example := C82_equal_sum 128 (identityM 128) (Vector.replicate 128 3) 77

/-! ### concatenation -/

/-- Part `b` of `k` parts of `m` bits, counted from the most significant one. -/
def part (m k b : Nat) {N : Nat} (x : BitVec N) : BitVec m := x.extractLsb' (m * (k - 1 - b)) m

theorem bits_part {m k b N : Nat} (hN : N = k * m) (hb : b < k) (x : BitVec N) {j : Nat} (hj : j < m) :
    bits (part m k b x) j = bits x (m * b + j) := by
  subst hN
  have hk : k * m = m * b + m + m * (k - 1 - b) := by
    have : k = b + 1 + (k - 1 - b) := by omega
    conv => lhs; rw [this, Nat.mul_comm, Nat.mul_add, Nat.mul_add, Nat.mul_one]
  unfold bits part
  simp only [BitVec.getMsbD, BitVec.getLsbD_extractLsb']
  have h1 : m - 1 - j < m := by omega
  have h2 : m * b + j < k * m := by omega
  simp only [hj, h1, h2, decide_true, Bool.true_and]
  congr 1
  omega

theorem part_ext {m k N : Nat} (hN : N = k * m) {x y : BitVec N} (h : ∀ b, b < k → part m k b x = part m k b y) : x = y := by
  apply bits_ext
  intro i hi
  have hm : 0 < m := Nat.pos_of_ne_zero (by rintro rfl; subst hN; omega)
  have hb : i / m < k := by rw [Nat.div_lt_iff_lt_mul hm]; omega
  have hj := Nat.mod_lt i hm
  have e := Nat.div_add_mod i m
  rw [← e, ← bits_part hN hb x hj, ← bits_part hN hb y hj, h _ hb]

theorem bits_placed {m k b N : Nat} (hN : N = k * m) (hb : b < k) (r : BitVec m) (c : Nat) (hc : c < N) :
    bits (r.setWidth N <<< (m * (k - 1 - b))) c = (decide (m * b ≤ c ∧ c < m * b + m) && bits r (c - m * b)) := by
  subst hN
  have hk : k * m = m * b + m + m * (k - 1 - b) := by
    have : k = b + 1 + (k - 1 - b) := by omega
    conv => lhs; rw [this, Nat.mul_comm, Nat.mul_add, Nat.mul_add, Nat.mul_one]
  unfold bits
  simp only [BitVec.getMsbD, BitVec.getLsbD_shiftLeft, BitVec.getLsbD_setWidth, hc, decide_true, Bool.true_and]
  have h1 : k * m - 1 - c < k * m := by omega
  simp only [h1, decide_true, Bool.true_and]
  by_cases ha : m * b ≤ c
  · by_cases hd : c < m * b + m
    · have e1 : ¬ k * m - 1 - c < m * (k - 1 - b) := by omega
      have e2 : k * m - 1 - c - m * (k - 1 - b) < k * m := by omega
      have e3 : c - m * b < m := by omega
      simp only [ha, hd, e1, e2, e3, decide_true, decide_false, Bool.not_false, Bool.true_and, and_self]
      congr 1
      omega
    · have e1 : k * m - 1 - c < m * (k - 1 - b) := by omega
      simp [hd, e1]
  · have e1 : m ≤ k * m - 1 - c - m * (k - 1 - b) := by omega
    rw [BitVec.getLsbD_of_ge _ _ e1]
    simp [ha]

section blocks
variable {m N : Nat} [WSize N] [LawfulWSize N]

theorem com_inner (v : Nat → BitVec N) (base q : Nat) (hq : base + q ≤ N) (M : Mat N) (r : Nat) :
    Mat.row ((List.range q).foldl (fun M i => M.setIfInBounds (base + i) (v i)) M) r =
      if base ≤ r ∧ r < base + q then v (r - base) else M.row r := by
  induction q with
  | zero => rw [if_neg (by omega)]; rfl
  | succ q ih =>
    rw [List.range_succ, List.foldl_append, List.foldl_cons, List.foldl_nil, row_set _ _ _ (by omega), ih (by omega)]
    by_cases h : r = base + q
    · rw [if_pos h, if_pos (by omega), h, Nat.add_sub_cancel_left]
    · rw [if_neg h]
      by_cases h' : base ≤ r ∧ r < base + q
      · rw [if_pos h', if_pos (by omega)]
      · rw [if_neg h', if_neg (by omega)]

theorem com_outer (v : Nat → Nat → BitVec N) (q : Nat) (hq : m * q ≤ N) (M : Mat N) (b i : Nat) (hb : b < q) (hi : i < m) :
    Mat.row ((List.range q).foldl (fun M b => (List.range m).foldl (fun M i => M.setIfInBounds (m * b + i) (v b i)) M) M) (m * b + i) =
      v b i := by
  induction q with
  | zero => omega
  | succ q ih =>
    rw [Nat.mul_succ] at hq
    rw [List.range_succ, List.foldl_append, List.foldl_cons, List.foldl_nil, com_inner (v q) (m * q) m (by omega)]
    by_cases h : b = q
    · subst h
      rw [if_pos (by omega), Nat.add_sub_cancel_left]
    · have : m * b + m ≤ m * q := by
        have : b + 1 ≤ q := by omega
        have := Nat.mul_le_mul_left m this
        rwa [Nat.mul_succ] at this
      rw [if_neg (by omega)]
      exact ih (by omega) (by omega)

theorem bits_com (k : Nat) (hN : N = k * m) [WSize m] (ms : Nat → Mat m) (b i c : Nat) (hb : b < k) (hi : i < m) (hc : c < N) :
    bits (Mat.row (matrixcom (N := N) k ms) (m * b + i)) c =
      (decide (m * b ≤ c ∧ c < m * b + m) && bits ((ms b).row i) (c - m * b)) := by
  unfold matrixcom
  rw [com_outer (fun b i => ((ms b).row i).setWidth N <<< (m * (k - 1 - b))) k (by rw [hN, Nat.mul_comm]; exact Nat.le_refl _) _ b i hb hi,
    bits_placed hN hb _ c hc]

theorem gsum_window (a m z : Nat) (f : Nat → Bool) :
    gsum (a + m + z) (fun c => decide (a ≤ c ∧ c < a + m) && f c) = gsum m (fun j => f (a + j)) := by
  rw [gsum_add, gsum_add]
  have h1 : gsum a (fun c => decide (a ≤ c ∧ c < a + m) && f c) = false := by
    rw [← gsum_false a]
    apply gsum_congr
    intro i hi
    simp; omega
  have h2 : gsum z (fun i => decide (a ≤ a + m + i ∧ a + m + i < a + m) && f (a + m + i)) = false := by
    rw [← gsum_false z]
    apply gsum_congr
    intro i hi
    rw [decide_eq_false (by omega), Bool.false_and]
  rw [h1, h2, Bool.false_xor, Bool.xor_false]
  apply gsum_congr
  intro i hi
  simp [hi]

theorem part_com (k : Nat) (hN : N = k * m) [WSize m] [LawfulWSize m] (ms : Nat → Mat m) (x : BitVec N) (b : Nat) (hb : b < k) :
    part m k b (matMulNum (matrixcom (N := N) k ms) x) = matMulNum (ms b) (part m k b x) := by
  apply bits_ext
  intro i hi
  have hk : N = m * b + m + m * (k - 1 - b) := by
    have : k = b + 1 + (k - 1 - b) := by omega
    rw [hN]
    conv => lhs; rw [this, Nat.mul_comm, Nat.mul_add, Nat.mul_add, Nat.mul_one]
  have hlt : m * b + i < N := by omega
  rw [bits_part hN hb _ hi, bits_matMulNum _ _ hlt, bits_matMulNum _ _ hi]
  have e : gsum N (fun c => mbit (matrixcom (N := N) k ms) (m * b + i) c && bits x c) =
      gsum N (fun c => decide (m * b ≤ c ∧ c < m * b + m) && (bits ((ms b).row i) (c - m * b) && bits x c)) := by
    apply gsum_congr
    intro c hc
    rw [mbit, bits_com k hN ms b i c hb hi hc, Bool.and_assoc]
  rw [e]
  have w := gsum_window (m * b) m (m * (k - 1 - b)) (fun c => bits ((ms b).row i) (c - m * b) && bits x c)
  rw [← hk] at w
  rw [w]
  apply gsum_congr
  intro j hj
  rw [Nat.add_sub_cancel_left, mbit, bits_part hN hb x hj]

theorem part_vectorcom (k : Nat) (hN : N = k * m) (vs : Nat → BitVec m) (b : Nat) (hb : b < k) :
    part m k b (vectorcom (N := N) k vs) = vs b := by
  apply bits_ext
  intro j hj
  have hk : ∀ b, b < k → N = m * b + m + m * (k - 1 - b) := by
    intro b hb
    have : k = b + 1 + (k - 1 - b) := by omega
    rw [hN]
    conv => lhs; rw [this, Nat.mul_comm, Nat.mul_add, Nat.mul_add, Nat.mul_one]
  rw [bits_part hN hb _ hj]
  have key : ∀ q, q ≤ k → bits ((List.range q).foldl (fun v b => v ||| ((vs b).setWidth N <<< (m * (k - 1 - b)))) (0 : BitVec N)) (m * b + j) =
      (decide (b < q) && bits (vs b) j) := by
    intro q hq
    induction q with
    | zero => simp [bits]
    | succ q ih =>
      rw [List.range_succ, List.foldl_append, List.foldl_cons, List.foldl_nil]
      have hor : ∀ (x y : BitVec N) i, bits (x ||| y) i = (bits x i || bits y i) := by
        intro x y i
        simp [bits]
      have h1 := hk b hb
      rw [hor, ih (by omega), bits_placed hN (show q < k by omega) _ _ (by omega)]
      by_cases h : b = q
      · subst h
        simp [hj]
      · have hne : ¬ (m * q ≤ m * b + j ∧ m * b + j < m * q + m) := by
          rcases Nat.lt_or_ge b q with h' | h'
          · have := Nat.mul_le_mul_left m (show b + 1 ≤ q by omega)
            rw [Nat.mul_succ] at this
            omega
          · have := Nat.mul_le_mul_left m (show q + 1 ≤ b by omega)
            rw [Nat.mul_succ] at this
            omega
        have hd : decide (b < q + 1) = decide (b < q) := by
          simp only [decide_eq_decide]; omega
        rw [hd, decide_eq_false hne, Bool.false_and, Bool.or_false]
  have := key k (Nat.le_refl _)
  rw [decide_eq_true hb, Bool.true_and] at this
  exact this

end blocks

/-- C82: `k` matrices of `m` bits concatenated act on the `k` parts of a word one by one, and so do affine maps. With the parts
given the value is determined. -/
theorem C82_concatenation (m k N : Nat) [WSize m] [LawfulWSize m] [WSize N] [LawfulWSize N] (hN : N = k * m)
    (ms : Nat → Mat m) (as : Nat → Aff m) (x : BitVec N) (b : Nat) (hb : b < k) :
    part m k b (matMulNum (matrixcom k ms) x) = matMulNum (ms b) (part m k b x) ∧
    part m k b (affineU (affinecom k as) x) = affineU (as b) (part m k b x) := by
  refine ⟨part_com k hN ms x b hb, ?_⟩
  unfold affineU affinecom
  have hx : ∀ x y : BitVec N, part m k b (x ^^^ y) = part m k b x ^^^ part m k b y := by
    intro x y
    apply bits_ext
    intro j hj
    rw [bits_xor, bits_part hN hb _ hj, bits_part hN hb _ hj, bits_part hN hb _ hj, bits_xor]
  rw [hx, part_com k hN _ x b hb, part_vectorcom k hN _ b hb]

/- All five concatenations of the library. -/
example (x : BitVec 64) (a : Nat → Aff 16) := fun b hb => (C82_concatenation 16 4 64 rfl (fun b => (a b).mat) a x b hb)
example (x : BitVec 64) (a : Nat → Aff 8) := fun b hb => (C82_concatenation 8 8 64 rfl (fun b => (a b).mat) a x b hb)
example (x : BitVec 128) (a : Nat → Aff 32) := fun b hb => (C82_concatenation 32 4 128 rfl (fun b => (a b).mat) a x b hb)
example (x : BitVec 128) (a : Nat → Aff 8) := fun b hb => (C82_concatenation 8 16 128 rfl (fun b => (a b).mat) a x b hb)
example (x : BitVec 128) (a : Nat → Aff 16) := fun b hb => (C82_concatenation 16 8 128 rfl (fun b => (a b).mat) a x b hb)
example : part 16 4 1 (0x1111222233334444 : BitVec 64) = 0x2222 := by decide

/-- Rows of an `M4`: bytes with a zero high half. -/
def rows4 (M : Mat 4) : Vector Byte 4 := M.map fun r => r.setWidth 8

/-- Low halves of the rows. -/
def lo4 (m : Vector Byte 4) : Mat 4 := m.map fun r => BitVec.truncate 4 r

/-- High halves of the rows. -/
def hi4 (m : Vector Byte 4) : Mat 4 := m.map fun r : Byte => BitVec.truncate 4 (r >>> 4)

theorem nibble_action (m1 m2 : Vector Byte 4) (x y : BitVec 4) :
    matMulNum (matrixcom4to8 m1 m2) (x ++ y : Byte) =
      (matMulNum (lo4 m1) x ++
        (matMulNum (lo4 m2) y ^^^ matMulNum (hi4 m2) x) : Byte) := by
  have hand : ∀ a b c d : BitVec 4, (a ++ b) &&& (c ++ d) = (a &&& c) ++ (b &&& d) := by
    intro a b c d
    apply bits_ext
    intro i _
    rw [bits_and, bits_append, bits_append, bits_append]
    split <;> rw [bits_and]
  have hp : ∀ (r : Byte), parity (r &&& (x ++ y : Byte)) =
      (parity ((r >>> 4).truncate 4 &&& x) ^^ parity (r.truncate 4 &&& y)) := by
    intro r
    conv => lhs; rw [half_append 4 r]
    rw [show ((r >>> 4).truncate 4 ++ r.truncate 4 : BitVec (4 + 4)) &&& (x ++ y) =
      ((r >>> 4).truncate 4 &&& x) ++ (r.truncate 4 &&& y) from hand _ _ _ _, parity_append]
  have hi : ∀ r : Byte, (((r &&& 0x0f) <<< 4) >>> 4).truncate 4 = r.truncate 4 ∧ ((r &&& 0x0f) <<< 4 : Byte).truncate 4 = 0#4 := by
    intro r
    have h : ∀ i : Fin 256, (((BitVec.ofFin (w := 8) i &&& 0x0f) <<< 4) >>> 4).truncate 4 = (BitVec.ofFin (w := 8) i).truncate 4 ∧
      ((BitVec.ofFin (w := 8) i &&& 0x0f) <<< 4 : Byte).truncate 4 = 0#4 := by decide +kernel
    exact h r.toFin
  apply bits_ext
  intro i hi8
  rw [bits_matMulNum' _ _ hi8]
  refine Eq.trans ?_ (bits_append _ _ i).symm
  rw [matrixcom4to8, row_ofFn _ hi8, hp]
  by_cases h4 : i < 4
  · simp only [h4, dite_true, if_true]
    rw [(hi _).1, (hi _).2, bits_matMulNum' _ _ h4]
    have e : parity (0#4 &&& y) = false := by rw [BitVec.zero_and]; decide
    rw [e, Bool.xor_false]
    simp [lo4, Mat.row, h4]
  · have h4' : i - 4 < 4 := by omega
    simp only [h4, dite_false, if_false]
    rw [bits_xor, bits_matMulNum' _ _ h4', bits_matMulNum' _ _ h4', Bool.xor_comm]
    simp [lo4, hi4, Mat.row, h4']

/-- C82: `MatrixcomM4to8` acts on the two halves for all matrices the library makes, whose rows are below 16; for rows that are
arbitrary bytes it does so exactly if the high halves of the second argument are zero, those of the first do not matter. -/
theorem C82_concatenation4 (m1 m2 : Vector Byte 4) (A B : Mat 4) :
    (∀ x y : BitVec 4, matMulNum (matrixcom4to8 (rows4 A) (rows4 B)) (x ++ y : Byte) = (matMulNum A x ++ matMulNum B y : Byte)) ∧
    ((∀ x y : BitVec 4, matMulNum (matrixcom4to8 m1 m2) (x ++ y : Byte) =
        (matMulNum (lo4 m1) x ++ matMulNum (lo4 m2) y : Byte)) ↔
      ∀ i : Fin 4, m2[i].toNat < 16) := by
  have hz : ∀ (m : Vector Byte 4), (∀ i : Fin 4, m[i].toNat < 16) → ∀ x, matMulNum (hi4 m) x = 0#4 := by
    intro m hm x
    have e : hi4 m = Vector.replicate 4 0 := by
      apply Vector.ext
      intro i hi
      rw [hi4, Vector.getElem_map, Vector.getElem_replicate]
      apply BitVec.eq_of_toNat_eq
      have := hm ⟨i, hi⟩
      simp [Nat.shiftRight_eq_div_pow] at this ⊢
      omega
    rw [e]
    apply bits_ext
    intro i hi
    rw [bits_matMulNum _ _ hi, show (0#4 : BitVec 4) = 0 from rfl, bits_zero, ← gsum_false 4]
    apply gsum_congr
    intro j _
    rw [mbit_replicate, Bool.false_and]
  constructor
  · intro x y
    rw [nibble_action, hz]
    · have e : ∀ M : Mat 4, lo4 (rows4 M) = M := by
        intro M
        apply Vector.ext
        intro i hi
        simp [rows4, lo4]
      rw [e, e]
      congr 1
      exact BitVec.xor_zero
    · intro i
      have := (B[i]).isLt
      simp [rows4]
      omega
  · constructor
    · intro h i
      have hx : ∀ x, matMulNum (hi4 m2) x = 0#4 := by
        intro x
        have := h x 0
        rw [nibble_action] at this
        have hl : ∀ a b c : BitVec 4, (a ++ b : Byte) = (a ++ c : Byte) → b = c := by
          intro a b c habc
          apply bits_ext
          intro k hk
          have h1 := bits_append a b (4 + k)
          have h2 := bits_append a c (4 + k)
          rw [if_neg (by omega), Nat.add_sub_cancel_left] at h1 h2
          rw [← h1, ← h2]
          exact congrArg (fun v : Byte => bits v (4 + k)) habc
        have := hl _ _ _ this
        rw [matMulNum_zero] at this
        exact (BitVec.zero_xor).symm.trans this
      have hr : ∀ r : Byte, (∀ j : Fin 4, bits ((r >>> 4).truncate 4) j.1 = false) → r.toNat < 16 := by
        intro r
        have h : ∀ i : Fin 256, (∀ j : Fin 4, bits (((BitVec.ofFin (w := 8) i) >>> 4).truncate 4) j.1 = false) →
          (BitVec.ofFin (w := 8) i).toNat < 16 := by decide +kernel
        exact h r.toFin
      apply hr
      intro j
      have := congrArg (fun v => bits v i.1) (hx (idRow 4 j.1))
      simp only [bits_matMulNum _ _ i.2] at this
      rw [show (0#4 : BitVec 4) = 0 from rfl, bits_zero] at this
      rw [← this]
      have hd := gsum_delta 4 j.1 (fun k => mbit (hi4 m2) i.1 k)
      rw [decide_eq_true j.2, Bool.true_and] at hd
      have e2 : mbit (hi4 m2) i.1 j.1 = bits (((m2[i]) >>> 4).truncate 4) j.1 := by
        simp [mbit, hi4, Mat.row]
      rw [← e2, ← hd]
      apply gsum_congr
      intro k _
      rw [idRow_bits j.2, Bool.and_comm]
      congr 1
      simp [eq_comm]
    · intro h x y
      rw [nibble_action, hz m2 h]
      congr 1
      exact BitVec.xor_zero

/- A second argument with a stray bit mixes the halves. -/
example : ¬ ∀ i : Fin 4, (#v[8, 4, 2, 0x81] : Vector Byte 4)[i].toNat < 16 := by decide
example : matMulNum (matrixcom4to8 #v[8, 4, 2, 1] #v[8, 4, 2, 0x81]) 0x80 = 0x81 := by decide +kernel

/-! ### the 128-bit functions -/

/-- C82: the pair of 128-bit matrices generated is always inverse and the log of row operations never leaves its array; the
same for affine maps. -/
theorem C82_pairs128 (rnd : Nat → BitVec 32) (pos : Nat) :
    Inverse (matMulNum (genMatpair128 rnd pos).mat) (matMulNum (genMatpair128 rnd pos).inv) ∧
    (genMatpair128 rnd pos).times ≤ 16384 ∧
    Inverse (affineU (genaffinepair128 rnd pos).1) (affineU (genaffinepair128 rnd pos).2.1) := by
  rw [genMatpair128_eq, genaffinepair128_eq]
  exact ⟨(genMatpair_spec rnd pos).1, (genMatpair_spec rnd pos).2, C33_affine_pairs 128 rnd pos⟩

/-- C82: `isinvertM128` decides invertibility, `invsM128` inverts, the product and the transposition are those of linear
algebra, and affine maps compose, although the functions leave out half of the words of the working matrix. -/
theorem C82_laws128 (A B : Mat 128) (f g : Aff 128) (x : BitVec 128) :
    (isinvertM128 A = true ↔ ∃ h, Inverse (matMulNum A) h) ∧
    (isinvertM128 A = true → Inverse (matMulNum A) (matMulNum (invsM128 A))) ∧
    (∀ i j, i < 128 → j < 128 → bits ((mattrans128 A).row i) j = bits (A.row j) i) ∧
    (∀ i j, i < 128 → j < 128 → bits ((matMulMat128 A B).row i) j = gsum 128 (fun k => bits (A.row i) k && bits (B.row k) j)) ∧
    matMulNum (matMulMat128 A B) x = matMulNum A (matMulNum B x) ∧
    affineU (affinemix128 f g) x = affineU f (affineU g x) := by
  rw [isinvertM128_eq, invsM128_eq, mattrans128_eq, matMulMat128_eq, affinemix128_eq]
  obtain ⟨-, -, -, h4, h5, h6⟩ := C34_laws 128 A B f g x x
  exact ⟨(C64_matrix_inverse 128 A).1, (C64_matrix_inverse 128 A).2, fun i j hi hj => mbit_mattrans A hj hi, h4, h5, h6⟩

end Verif.Props
