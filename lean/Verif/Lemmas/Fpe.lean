import Verif.Model.Fpe
import Verif.Spec.Fpe
import Mathlib.Data.List.Induction
import Mathlib.Tactic.Positivity

/-! Numeral codecs and the Feistel structure shared by the FPE modes. -/
set_option autoImplicit false

namespace Verif
open Model Spec

/-! ### codecs -/

theorem str2num_append (r : Nat) (X : List Nat) (d : Nat) :
    str2num (X ++ [d]) r = str2num X r * r + d := by simp [str2num]

theorem str2num_eq (r : Nat) (X : List Nat) : str2num X r = numRadix r X := by
  unfold numRadix
  induction X using List.reverseRecOn with
  | nil => rfl
  | append_singleton X d ih =>
    rw [str2num_append, ih, List.reverse_append, List.reverse_singleton, List.singleton_append,
      Nat.ofDigits_cons, Nat.mul_comm, Nat.add_comm]

theorem str2numRev_eq (r : Nat) (X : List Nat) : str2numRev X r = str2num X.reverse r := by
  simp [str2num, str2numRev, List.foldl_reverse]

theorem length_num2str (r : Nat) (m : Nat) : ∀ x, (num2str x r m).length = m := by
  induction m with
  | zero => intro x; rfl
  | succ m ih => intro x; simp [num2str, ih]

theorem num2strRev_eq (r : Nat) (m : Nat) : ∀ x, num2strRev x r m = (num2str x r m).reverse := by
  induction m with
  | zero => intro x; rfl
  | succ m ih => intro x; simp [num2strRev, num2str, ih]

theorem length_num2strRev (r m x : Nat) : (num2strRev x r m).length = m := by
  rw [num2strRev_eq, List.length_reverse, length_num2str]

theorem num2str_lt (r : Nat) (hr : 0 < r) (m : Nat) : ∀ x, ∀ d ∈ num2str x r m, d < r := by
  induction m with
  | zero => intro x d h; simp [num2str] at h
  | succ m ih =>
    intro x d h
    simp only [num2str, List.mem_append, List.mem_singleton] at h
    rcases h with h | h
    · exact ih _ d h
    · rw [h]; exact Nat.mod_lt _ hr

theorem str2num_num2str (r : Nat) (m : Nat) : ∀ x, str2num (num2str x r m) r = x % r ^ m := by
  induction m with
  | zero => intro x; simp [num2str, str2num, Nat.mod_one]
  | succ m ih =>
    intro x
    rw [num2str, str2num_append, ih, Nat.pow_succ, Nat.mul_comm (r ^ m) r, Nat.mod_mul]
    rw [Nat.mul_comm, Nat.add_comm]

theorem str2num_lt (r : Nat) (X : List Nat) (h : ∀ d ∈ X, d < r) : str2num X r < r ^ X.length := by
  induction X using List.reverseRecOn with
  | nil => simp [str2num]
  | append_singleton X d ih =>
    have h1 := ih (fun e he => h e (by simp [he]))
    have h2 := h d (by simp)
    rw [str2num_append, List.length_append, List.length_singleton, Nat.pow_succ]
    calc str2num X r * r + d < str2num X r * r + r := by omega
      _ = (str2num X r + 1) * r := by rw [Nat.add_mul, Nat.one_mul]
      _ ≤ r ^ X.length * r := Nat.mul_le_mul_right r h1

theorem num2str_str2num (r : Nat) (X : List Nat) (h : ∀ d ∈ X, d < r) :
    num2str (str2num X r) r X.length = X := by
  induction X using List.reverseRecOn with
  | nil => rfl
  | append_singleton X d ih =>
    have h1 := ih (fun e he => h e (by simp [he]))
    have h2 := h d (by simp)
    have hr : 0 < r := by omega
    rw [str2num_append, List.length_append, List.length_singleton, num2str]
    rw [Nat.mul_comm, Nat.mul_add_div hr, Nat.mul_add_mod, Nat.div_eq_of_lt h2, Nat.mod_eq_of_lt h2,
      Nat.add_zero, h1]

theorem num2str_eq (r m : Nat) : ∀ x, num2str x r m = strRadix r m x := by
  induction m with
  | zero => intro x; rfl
  | succ m ih =>
    intro x
    rw [num2str, ih, strRadix, strRadix, List.range_succ, List.map_append, List.map_singleton]
    congr 1
    · apply List.map_congr_left
      intro i hi
      rw [List.mem_range] at hi
      rw [Nat.div_div_eq_div_mul, ← Nat.pow_succ', show (m - 1 - i).succ = m + 1 - 1 - i by omega]
    · simp

/-! ### bytes -/

theorem length_bytesBE (m : Nat) : ∀ x, (bytesBE x m).length = m := by
  induction m with
  | zero => intro x; rfl
  | succ m ih => intro x; simp [bytesBE, ih]

theorem bytesBE_eq (m : Nat) : ∀ x, bytesBE x m = bytesOf m x := by
  induction m with
  | zero => intro x; rfl
  | succ m ih =>
    intro x
    rw [bytesBE, ih, bytesOf, bytesOf, List.range_succ, List.map_append, List.map_singleton]
    congr 1
    · apply List.map_congr_left
      intro i hi
      rw [List.mem_range] at hi
      rw [Nat.div_div_eq_div_mul, ← Nat.pow_succ', show (m - 1 - i).succ = m + 1 - 1 - i by omega]
    · simp

theorem length_bytesOf (m x : Nat) : (bytesOf m x).length = m := by simp [bytesOf]

theorem bytesBE_zero (k : Nat) : bytesBE 0 k = List.replicate k 0 := by
  induction k with
  | zero => rfl
  | succ k ih => rw [bytesBE, Nat.zero_div, ih, List.replicate_succ']; rfl

theorem bytesBE_pad (m : Nat) : ∀ (k x : Nat), x < 256 ^ m →
    bytesBE x (k + m) = List.replicate k 0 ++ bytesBE x m := by
  induction m with
  | zero =>
    intro k x h
    obtain rfl : x = 0 := by simpa using h
    simp [bytesBE_zero, bytesBE]
  | succ m ih =>
    intro k x h
    rw [← Nat.add_assoc, bytesBE, bytesBE, ih k (x / 256) (by
      rw [Nat.div_lt_iff_lt_mul (by decide)]; rwa [Nat.pow_succ] at h), List.append_assoc]

theorem bnNumBytes_le_iff (x b : Nat) : bnNumBytes x ≤ b ↔ x < 256 ^ b := by
  unfold bnNumBytes
  have e : (256 : Nat) ^ b = 2 ^ (8 * b) := by rw [Nat.pow_mul]
  rw [e]
  by_cases h : x = 0
  · simp [h]
  · rw [if_neg h, ← Nat.log2_lt h]
    omega

theorem length_bn2bin (x : Nat) : (bn2bin x).length = bnNumBytes x := length_bytesBE _ _

/-- Filling with zero bytes on the left gives the `b`-byte encoding. -/
theorem pad_bn2bin (x b : Nat) (h : x < 256 ^ b) :
    List.replicate (b - (bn2bin x).length) 0 ++ bn2bin x = bytesOf b x := by
  have h1 := (bnNumBytes_le_iff x b).mpr h
  rw [length_bn2bin, bn2bin, ← bytesBE_pad _ _ _ ((bnNumBytes_le_iff x _).mp (Nat.le_refl _)),
    Nat.sub_add_cancel h1, bytesBE_eq]

theorem bin2bn_eq (l : List Byte) : bin2bn l = numBytes l := by
  unfold numBytes
  rw [← str2num_eq]
  simp [bin2bn, str2num, List.foldl_map]

/-! ### characters -/

theorem mapChar_numeral {radix : Nat} (c : Byte) (h : IsNumeral radix c) :
    mapChar c = numeralVal c ∧ numeralVal c < radix := by
  unfold mapChar numeralVal
  rcases h with h | h
  · rw [if_neg (by omega), if_pos (by omega)]
    omega
  · rw [if_pos (by omega), if_neg (by omega)]
    omega

theorem invMapChar_eq (d : Nat) : invMapChar d = numeralChar d := by
  unfold invMapChar numeralChar
  split
  · rw [Nat.add_comm]
  · rw [Nat.add_comm]

theorem numeralChar_isNumeral (radix d : Nat) (hr : radix ≤ 36) (h : d < radix) :
    IsNumeral radix (numeralChar d) := by
  unfold numeralChar IsNumeral
  split
  · left
    rw [BitVec.toNat_ofNat, Nat.mod_eq_of_lt (by omega)]
    omega
  · right
    rw [BitVec.toNat_ofNat, Nat.mod_eq_of_lt (by omega)]
    omega

theorem numeralVal_char (d : Nat) (h : d < 36) : numeralVal (numeralChar d) = d := by
  have e : (numeralChar d).toNat = if d < 10 then 48 + d else 97 + (d - 10) := by
    unfold numeralChar
    rw [BitVec.toNat_ofNat, Nat.mod_eq_of_lt]
    split <;> omega
  unfold numeralVal
  rw [e]
  by_cases h1 : d < 10
  · rw [if_pos h1, if_pos (by omega)]; omega
  · rw [if_neg h1, if_neg (by omega)]; omega

theorem numeralChar_val {radix : Nat} (c : Byte) (h : IsNumeral radix c) : numeralChar (numeralVal c) = c := by
  unfold numeralVal numeralChar
  apply BitVec.eq_of_toNat_eq
  rw [BitVec.toNat_ofNat]
  have := c.isLt
  rcases h with h | h
  · rw [if_pos (show c.toNat ≤ 57 by omega), if_pos (by omega), Nat.mod_eq_of_lt (by omega)]
    omega
  · rw [if_neg (show ¬ c.toNat ≤ 57 by omega), if_neg (by omega), Nat.mod_eq_of_lt (by omega)]
    omega

theorem numeral_ne_zero {radix : Nat} (c : Byte) (h : IsNumeral radix c) : c ≠ 0 := by
  rintro rfl
  rcases h with h | h <;> simp at h

theorem cstr_append (s rest : List Byte) (h : ∀ c ∈ s, c ≠ 0) : cstr (s ++ 0 :: rest) = some s := by
  unfold cstr
  rw [if_pos (by simp)]
  congr 1
  induction s with
  | nil => simp
  | cons c s ih =>
    have hc := h c (by simp)
    rw [List.cons_append, List.takeWhile_cons, if_pos (by simpa using hc), ih (fun d hd => h d (by simp [hd]))]

/-! ### Feistel rounds -/

section feistel
variable {α τ : Type}

/-- One encryption round in the form shared by the FPE functions. -/
def encR (n u : Nat) (q : Nat → Nat) (num : List Nat → Nat) (str : Nat → Nat → List Nat)
    (F : Nat → Nat → Option (Nat × τ)) (upd : α → τ → α) (sm : FpeSt × α) (i : Nat) :
    Option (FpeSt × α) :=
  let m := if i % 2 = 1 then n - u else u
  (rdDigits sm.1.out sm.1.b (n - m)).bind fun B =>
  (F i (num B)).bind fun yt =>
  (rdDigits sm.1.out sm.1.a m).bind fun A =>
  (swapPtrs sm.1).bind fun s =>
  (wrDigits s.out s.b (str ((num A + yt.1) % q i) m)).bind fun out =>
  some ({ s with out := out }, upd sm.2 yt.2)

/-- One decryption round in the form shared by the FPE functions. -/
def decR (n u : Nat) (q : Nat → Nat) (num : List Nat → Nat) (str : Nat → Nat → List Nat)
    (F : Nat → Nat → Option (Nat × τ)) (upd : α → τ → α) (sm : FpeSt × α) (i : Nat) :
    Option (FpeSt × α) :=
  let m := if i % 2 = 1 then n - u else u
  (rdDigits sm.1.out sm.1.a (n - m)).bind fun A =>
  (F i (num A)).bind fun yt =>
  (rdDigits sm.1.out sm.1.b m).bind fun B =>
  (swapPtrs sm.1).bind fun s =>
  (wrDigits s.out s.a (str (bnModSub (num B) yt.1 (q i)) m)).bind fun out =>
  some ({ s with out := out }, upd sm.2 yt.2)

/-- The digits in `out` when round `k` is next: the halves in place, exchanged for odd `k`. -/
def lay (u k : Nat) (AB : List Nat × List Nat) : FpeSt :=
  if k % 2 = 0 then ⟨AB.1 ++ AB.2, 0, u⟩ else ⟨AB.2 ++ AB.1, u, 0⟩

theorem rd_left (X Y : List Nat) (n : Nat) (h : X.length = n) : rdDigits (X ++ Y) 0 n = some X := by
  unfold rdDigits
  rw [if_pos (by simp; omega)]
  simp [← h]

theorem rd_right (X Y : List Nat) (u n : Nat) (hu : X.length = u) (h : Y.length = n) :
    rdDigits (X ++ Y) u n = some Y := by
  unfold rdDigits
  rw [if_pos (by simp; omega)]
  simp [← hu, ← h]

theorem wr_left (X Y Z : List Nat) (h : X.length = Z.length) : wrDigits (X ++ Y) 0 Z = some (Z ++ Y) := by
  unfold wrDigits
  rw [if_pos (by simp; omega)]
  simp [← h]

theorem wr_right (X Y Z : List Nat) (u : Nat) (hu : X.length = u) (h : Y.length = Z.length) :
    wrDigits (X ++ Y) u Z = some (X ++ Z) := by
  unfold wrDigits
  rw [if_pos (by simp; omega)]
  simp [← hu, ← h]

/-- Length of the half changed in round `k`. -/
def halfLen (n u k : Nat) : Nat := if k % 2 = 1 then n - u else u

theorem halfLen_succ (n u k : Nat) (hu : u ≤ n) : halfLen n u (k + 1) = n - halfLen n u k := by
  unfold halfLen
  rcases Nat.mod_two_eq_zero_or_one k with h | h
  · rw [if_pos (show (k + 1) % 2 = 1 by omega), if_neg (show ¬ k % 2 = 1 by omega)]
  · rw [if_neg (show ¬ (k + 1) % 2 = 1 by omega), if_pos h]; omega

theorem halfLen_le (n u k : Nat) (hu : u ≤ n) : halfLen n u k ≤ n := by
  unfold halfLen; split <;> omega

theorem encR_lay (n u : Nat) (hu : u ≤ n) (hu0 : 0 < u) (q num) (str : Nat → Nat → List Nat)
    (hstr : ∀ x m, (str x m).length = m)
    (F : Nat → Nat → Option (Nat × τ)) (upd : α → τ → α) (i : Nat) (AB : List Nat × List Nat) (acc : α)
    (hA : AB.1.length = halfLen n u i) (hB : AB.2.length = n - halfLen n u i) (y : Nat) (t : τ)
    (hF : F i (num AB.2) = some (y, t)) :
    encR n u q num str F upd (lay u i AB, acc) i =
      some (lay u (i + 1) (AB.2, str ((num AB.1 + y) % q i) (halfLen n u i)), upd acc t) := by
  obtain ⟨A, B⟩ := AB
  simp only at hA hB hF
  unfold encR
  rw [← halfLen]
  unfold lay
  rcases Nat.mod_two_eq_zero_or_one i with h | h
  · have hm : halfLen n u i = u := by unfold halfLen; rw [if_neg (by omega)]
    rw [if_pos h, if_neg (show ¬ (i + 1) % 2 = 0 by omega)]
    simp only [hm] at *
    rw [rd_right A B u _ hA hB]
    simp only [Option.bind_some, hF]
    rw [rd_left A B _ hA]
    simp only [Option.bind_some, swapPtrs]
    rw [if_neg (by omega)]
    simp only [Option.bind_some]
    rw [wr_left A B _ (by rw [hA, hstr])]
    rfl
  · have hm : halfLen n u i = n - u := by unfold halfLen; rw [if_pos h]
    rw [if_neg (show ¬ i % 2 = 0 by omega), if_pos (show (i + 1) % 2 = 0 by omega)]
    simp only [hm] at *
    rw [rd_left B A _ hB]
    simp only [Option.bind_some, hF]
    rw [rd_right B A u _ (by omega) hA]
    simp only [Option.bind_some, swapPtrs]
    rw [if_neg (by omega)]
    simp only [Option.bind_some]
    rw [wr_right B A _ u (by omega) (by rw [hA, hstr])]
    rfl

theorem decR_lay (n u : Nat) (hu : u ≤ n) (hu0 : 0 < u) (q num) (str : Nat → Nat → List Nat)
    (hstr : ∀ x m, (str x m).length = m)
    (F : Nat → Nat → Option (Nat × τ)) (upd : α → τ → α) (i : Nat) (AB : List Nat × List Nat) (acc : α)
    (hA : AB.1.length = n - halfLen n u i) (hB : AB.2.length = halfLen n u i) (y : Nat) (t : τ)
    (hF : F i (num AB.1) = some (y, t)) :
    decR n u q num str F upd (lay u (i + 1) AB, acc) i =
      some (lay u i (str (bnModSub (num AB.2) y (q i)) (halfLen n u i), AB.1), upd acc t) := by
  obtain ⟨A, B⟩ := AB
  simp only at hA hB hF
  unfold decR
  rw [← halfLen]
  unfold lay
  rcases Nat.mod_two_eq_zero_or_one i with h | h
  · have hm : halfLen n u i = u := by unfold halfLen; rw [if_neg (by omega)]
    rw [if_pos h, if_neg (show ¬ (i + 1) % 2 = 0 by omega)]
    simp only [hm] at *
    rw [rd_right B A u _ hB hA]
    simp only [Option.bind_some, hF]
    rw [rd_left B A _ hB]
    simp only [Option.bind_some, swapPtrs]
    rw [if_neg (by omega)]
    simp only [Option.bind_some]
    rw [wr_left B A _ (by rw [hB, hstr])]
    rfl
  · have hm : halfLen n u i = n - u := by unfold halfLen; rw [if_pos h]
    rw [if_neg (show ¬ i % 2 = 0 by omega), if_pos (show (i + 1) % 2 = 0 by omega)]
    simp only [hm] at *
    rw [rd_left A B _ hA]
    simp only [Option.bind_some, hF]
    rw [rd_right A B u _ (by omega) hB]
    simp only [Option.bind_some, swapPtrs]
    rw [if_neg (by omega)]
    simp only [Option.bind_some]
    rw [wr_right A B _ u (by omega) (by rw [hB, hstr])]
    rfl

theorem modSub_add (x y q : Nat) (h : x < q) : bnModSub ((x + y) % q) y q = x := by
  unfold bnModSub
  have : ((((x + y) % q : Nat) : Int) - y) % q = x := by
    push_cast
    rw [Int.emod_sub_emod, Int.add_sub_cancel]
    exact Int.emod_eq_of_lt (by omega) (by omega)
  rw [this]; rfl

theorem add_modSub (x y q : Nat) (h : x < q) : (bnModSub x y q + y) % q = x := by
  unfold bnModSub
  have hq : (0 : Int) < q := by omega
  have h0 := Int.emod_nonneg ((x : Int) - y) (show (q : Int) ≠ 0 by omega)
  have : (((((x : Int) - y) % q).toNat + y : Nat) : Int) % q = x := by
    push_cast
    rw [Int.toNat_of_nonneg h0, Int.emod_add_emod, Int.sub_add_cancel]
    exact Int.emod_eq_of_lt (by omega) (by omega)
  exact_mod_cast this

theorem modSub_lt (x y q : Nat) (h : 0 < q) : bnModSub x y q < q := by
  unfold bnModSub
  have h0 := Int.emod_nonneg ((x : Int) - y) (show (q : Int) ≠ 0 by omega)
  have h1 := Int.emod_lt_of_pos ((x : Int) - y) (show (0 : Int) < q by omega)
  omega

/-- What a Feistel network needs: numbers and digit strings correspond and the round function is
defined on every number of the right size. -/
structure FeistelOk (n u r : Nat) (q : Nat → Nat) (num : List Nat → Nat) (str : Nat → Nat → List Nat)
    (F : Nat → Nat → Option (Nat × τ)) (f : Nat → Nat → Nat × τ) : Prop where
  r2 : 2 ≤ r
  hu : u ≤ n
  hu0 : 0 < u
  hq : ∀ i, q i = r ^ halfLen n u i
  len : ∀ x m, (str x m).length = m
  dig : ∀ x m, ∀ d ∈ str x m, d < r
  num_lt : ∀ X, (∀ d ∈ X, d < r) → num X < r ^ X.length
  num_str : ∀ x m, x < r ^ m → num (str x m) = x
  str_num : ∀ X, (∀ d ∈ X, d < r) → str (num X) X.length = X
  hF : ∀ i x, i < 10 → x < r ^ (n - halfLen n u i) → F i x = some (f i x)

/-- The halves before round `k`. -/
def fseq (n u : Nat) (q : Nat → Nat) (num : List Nat → Nat) (str : Nat → Nat → List Nat)
    (f : Nat → Nat → Nat × τ) (AB : List Nat × List Nat) : Nat → List Nat × List Nat
  | 0 => AB
  | k + 1 =>
    let AB := fseq n u q num str f AB k
    (AB.2, str ((num AB.1 + (f k (num AB.2)).1) % q k) (halfLen n u k))

/-- Both halves have the right length and consist of digits. -/
def Halves (n u r k : Nat) (AB : List Nat × List Nat) : Prop :=
  AB.1.length = halfLen n u k ∧ AB.2.length = n - halfLen n u k ∧ (∀ d ∈ AB.1, d < r) ∧ (∀ d ∈ AB.2, d < r)

variable {n u r : Nat} {q : Nat → Nat} {num : List Nat → Nat} {str : Nat → Nat → List Nat}
  {F : Nat → Nat → Option (Nat × τ)} {f : Nat → Nat → Nat × τ}

theorem fseq_halves (ok : FeistelOk n u r q num str F f) (AB : List Nat × List Nat) (h : Halves n u r 0 AB)
    (k : Nat) : Halves n u r k (fseq n u q num str f AB k) := by
  induction k with
  | zero => exact h
  | succ k ih =>
    obtain ⟨h1, h2, h3, h4⟩ := ih
    refine ⟨by rw [halfLen_succ _ _ _ ok.hu]; exact h2, ?_, h4, fun d hd => ok.dig _ _ d hd⟩
    rw [halfLen_succ _ _ _ ok.hu]
    show (str _ _).length = _
    rw [ok.len]
    have := halfLen_le n u k ok.hu
    omega

/-- The contributions of the rounds to the accumulator. -/
def ftrace (n u : Nat) (q : Nat → Nat) (num : List Nat → Nat) (str : Nat → Nat → List Nat)
    (f : Nat → Nat → Nat × τ) (AB : List Nat × List Nat) (k : Nat) : τ :=
  (f k (num (fseq n u q num str f AB k).2)).2

theorem F_def (ok : FeistelOk n u r q num str F f) (i : Nat) (hi : i < 10) (B : List Nat)
    (hB : B.length = n - halfLen n u i) (hd : ∀ d ∈ B, d < r) :
    F i (num B) = some ((f i (num B)).1, (f i (num B)).2) := by
  rw [ok.hF i _ hi]
  rw [← hB]
  exact ok.num_lt _ hd

theorem feistel_enc (ok : FeistelOk n u r q num str F f) (upd : α → τ → α) (AB : List Nat × List Nat)
    (h : Halves n u r 0 AB) (acc : α) (k : Nat) (hk : k ≤ 10) :
    (List.range k).foldlM (encR n u q num str F upd) (lay u 0 AB, acc) =
      some (lay u k (fseq n u q num str f AB k),
        ((List.range k).map (ftrace n u q num str f AB)).foldl upd acc) := by
  induction k with
  | zero => rfl
  | succ k ih =>
    obtain ⟨h1, h2, h3, h4⟩ := fseq_halves ok AB h k
    rw [List.range_succ, List.foldlM_append, ih (by omega)]
    simp only [List.foldlM_cons, List.foldlM_nil, Option.bind_eq_bind, Option.bind_some]
    rw [encR_lay n u ok.hu ok.hu0 q num str ok.len F upd k _ _ h1 h2 _ _ (F_def ok k (by omega) _ h2 h4)]
    simp only [Option.bind_some, List.map_append, List.foldl_append, List.map_cons, List.map_nil,
      List.foldl_cons, List.foldl_nil]
    rfl

theorem feistel_dec (ok : FeistelOk n u r q num str F f) (upd : α → τ → α) (AB : List Nat × List Nat)
    (h : Halves n u r 0 AB) (k : Nat) (hk : k ≤ 10) : ∀ (acc : α),
    (List.range k).reverse.foldlM (decR n u q num str F upd) (lay u k (fseq n u q num str f AB k), acc) =
      some (lay u 0 AB, ((List.range k).reverse.map (ftrace n u q num str f AB)).foldl upd acc) := by
  induction k with
  | zero => intro acc; rfl
  | succ k ih =>
    intro acc
    obtain ⟨h1, h2, h3, h4⟩ := fseq_halves ok AB h k
    obtain ⟨g1, g2, g3, g4⟩ := fseq_halves ok AB h (k + 1)
    have hle := halfLen_le n u k ok.hu
    rw [List.range_succ, List.reverse_append, List.reverse_singleton, List.singleton_append, List.foldlM_cons]
    rw [decR_lay n u ok.hu ok.hu0 q num str ok.len F upd k _ _
      (by rw [g1, halfLen_succ _ _ _ ok.hu]) (by rw [g2, halfLen_succ _ _ _ ok.hu]; omega)
      _ _ (F_def ok k (by omega) _ h2 h4)]
    have hback : str (bnModSub (num (fseq n u q num str f AB (k + 1)).2)
        (f k (num (fseq n u q num str f AB (k + 1)).1)).1 (q k)) (halfLen n u k) = (fseq n u q num str f AB k).1 := by
      have hA := ok.num_lt _ h3
      rw [h1] at hA
      rw [show (fseq n u q num str f AB (k + 1)).1 = (fseq n u q num str f AB k).2 from rfl]
      show str (bnModSub (num (str _ _)) _ _) _ = _
      rw [ok.num_str _ _ (by rw [ok.hq]; exact Nat.mod_lt _ (by have := ok.r2; positivity)), ok.hq,
        modSub_add _ _ _ hA, ← h1, ok.str_num _ h3]
    rw [hback]
    simp only [Option.bind_eq_bind, Option.bind_some]
    rw [show ((fseq n u q num str f AB k).1, (fseq n u q num str f AB (k + 1)).1) = fseq n u q num str f AB k from rfl,
      ih (by omega)]
    simp only [List.map_cons, List.foldl_cons]
    rfl

/-- The halves after undoing rounds `k - 1, …, 0`. -/
def fdec (n u : Nat) (q : Nat → Nat) (num : List Nat → Nat) (str : Nat → Nat → List Nat)
    (f : Nat → Nat → Nat × τ) : Nat → List Nat × List Nat → List Nat × List Nat
  | 0, AB => AB
  | k + 1, AB =>
    fdec n u q num str f k (str (bnModSub (num AB.2) (f k (num AB.1)).1 (q k)) (halfLen n u k), AB.1)

theorem fdec_step_halves (ok : FeistelOk n u r q num str F f) (k : Nat) (AB : List Nat × List Nat)
    (h : Halves n u r (k + 1) AB) (x : Nat) : Halves n u r k (str x (halfLen n u k), AB.1) := by
  obtain ⟨g1, g2, g3, g4⟩ := h
  rw [halfLen_succ _ _ _ ok.hu] at g1
  exact ⟨ok.len _ _, g1, fun d hd => ok.dig _ _ d hd, g3⟩

theorem fdec_halves (ok : FeistelOk n u r q num str F f) (k : Nat) : ∀ (AB : List Nat × List Nat),
    Halves n u r k AB → Halves n u r 0 (fdec n u q num str f k AB) := by
  induction k with
  | zero => intro AB h; exact h
  | succ k ih =>
    intro AB h
    exact ih _ (fdec_step_halves ok k AB h _)

theorem feistel_dec' (ok : FeistelOk n u r q num str F f) (upd : α → τ → α) (k : Nat) (hk : k ≤ 10) :
    ∀ (AB : List Nat × List Nat), Halves n u r k AB → ∀ (acc : α), ∃ acc',
    (List.range k).reverse.foldlM (decR n u q num str F upd) (lay u k AB, acc) =
      some (lay u 0 (fdec n u q num str f k AB), acc') := by
  induction k with
  | zero => intro AB h acc; exact ⟨acc, rfl⟩
  | succ k ih =>
    intro AB h acc
    obtain ⟨g1, g2, g3, g4⟩ := h
    have hle := halfLen_le n u k ok.hu
    rw [halfLen_succ _ _ _ ok.hu] at g1 g2
    obtain ⟨acc', e⟩ := ih (by omega) _ (fdec_step_halves ok k AB ⟨by rw [halfLen_succ _ _ _ ok.hu]; exact g1,
      by rw [halfLen_succ _ _ _ ok.hu]; exact g2, g3, g4⟩
      (bnModSub (num AB.2) (f k (num AB.1)).1 (q k))) (upd acc (f k (num AB.1)).2)
    refine ⟨acc', ?_⟩
    rw [List.range_succ, List.reverse_append, List.reverse_singleton, List.singleton_append, List.foldlM_cons]
    rw [decR_lay n u ok.hu ok.hu0 q num str ok.len F upd k _ _ g1 (by omega) _ _ (F_def ok k (by omega) _ g1 g3)]
    exact e

theorem fseq_fdec (ok : FeistelOk n u r q num str F f) (k : Nat) :
    ∀ (AB : List Nat × List Nat), Halves n u r k AB →
    fseq n u q num str f (fdec n u q num str f k AB) k = AB := by
  induction k with
  | zero => intro AB _; rfl
  | succ k ih =>
    intro AB h
    obtain ⟨g1, g2, g3, g4⟩ := h
    have hle := halfLen_le n u k ok.hu
    have hb : AB.2.length = halfLen n u k := by rw [g2, halfLen_succ _ _ _ ok.hu]; omega
    have hlt := ok.num_lt _ g4
    rw [hb, ← ok.hq] at hlt
    have hq0 : 0 < q k := by omega
    have e := ih _ (fdec_step_halves ok k AB ⟨g1, g2, g3, g4⟩ (bnModSub (num AB.2) (f k (num AB.1)).1 (q k)))
    show ((fseq n u q num str f (fdec n u q num str f k _) k).2, str ((num
      (fseq n u q num str f (fdec n u q num str f k _) k).1 + (f k (num
      (fseq n u q num str f (fdec n u q num str f k _) k).2)).1) % q k) _) = AB
    rw [e]
    simp only
    rw [ok.num_str _ _ (by rw [← ok.hq]; exact modSub_lt _ _ _ hq0), add_modSub _ _ _ hlt, ← hb, ok.str_num _ g4]

theorem fdec_fseq (ok : FeistelOk n u r q num str F f) (AB : List Nat × List Nat) (h : Halves n u r 0 AB)
    (k : Nat) (hk : k ≤ 10) : lay u 0 (fdec n u q num str f k (fseq n u q num str f AB k)) = lay u 0 AB := by
  have h1 := feistel_dec ok (fun (_ : Unit) _ => ()) AB h k hk ()
  obtain ⟨a, h2⟩ := feistel_dec' ok (fun (_ : Unit) _ => ()) k hk _ (fseq_halves ok AB h k) ()
  rw [h1] at h2
  injection h2 with h2
  exact (congrArg Prod.fst h2).symm

/-! ### whole digit strings -/

/-- The digit string after `k` rounds. -/
def fenc (n u : Nat) (q : Nat → Nat) (num : List Nat → Nat) (str : Nat → Nat → List Nat)
    (f : Nat → Nat → Nat × τ) (k : Nat) (X : List Nat) : List Nat :=
  let AB := fseq n u q num str f (X.take u, X.drop u) k
  AB.1 ++ AB.2

/-- The digit string after undoing `k` rounds. -/
def fundo (n u : Nat) (q : Nat → Nat) (num : List Nat → Nat) (str : Nat → Nat → List Nat)
    (f : Nat → Nat → Nat × τ) (k : Nat) (X : List Nat) : List Nat :=
  let AB := fdec n u q num str f k (X.take u, X.drop u)
  AB.1 ++ AB.2

theorem start_lay (X : List Nat) (u : Nat) : fpeStart X u = lay u 0 (X.take u, X.drop u) := by
  simp [fpeStart, lay]

theorem lay_even (u k : Nat) (hk : k % 2 = 0) (AB : List Nat × List Nat) :
    lay u k AB = fpeStart (AB.1 ++ AB.2) u := by
  unfold lay; rw [if_pos hk]; rfl

theorem halves_split (ok : FeistelOk n u r q num str F f) (k : Nat) (hk : k % 2 = 0) (X : List Nat)
    (hX : X.length = n) (hd : ∀ d ∈ X, d < r) : Halves n u r k (X.take u, X.drop u) := by
  have e : halfLen n u k = u := by unfold halfLen; rw [if_neg (by omega)]
  have := ok.hu
  refine ⟨?_, ?_, fun d h => hd d (List.mem_of_mem_take h), fun d h => hd d (List.mem_of_mem_drop h)⟩
  · rw [e, List.length_take]; omega
  · rw [e, List.length_drop]; omega

theorem split_append (u : Nat) (A B : List Nat) (h : A.length = u) :
    ((A ++ B).take u, (A ++ B).drop u) = (A, B) := by simp [← h]

theorem halves_append {k : Nat} {AB : List Nat × List Nat} (h : Halves n u r k AB) (hu : u ≤ n) :
    (AB.1 ++ AB.2).length = n ∧ ∀ d ∈ AB.1 ++ AB.2, d < r := by
  obtain ⟨h1, h2, h3, h4⟩ := h
  have := halfLen_le n u k hu
  refine ⟨by rw [List.length_append]; omega, fun d hd => ?_⟩
  rcases List.mem_append.mp hd with hd | hd
  · exact h3 d hd
  · exact h4 d hd

theorem fenc_ok (ok : FeistelOk n u r q num str F f) (k : Nat) (X : List Nat)
    (hX : X.length = n) (hd : ∀ d ∈ X, d < r) :
    (fenc n u q num str f k X).length = n ∧ ∀ d ∈ fenc n u q num str f k X, d < r :=
  halves_append (fseq_halves ok _ (halves_split ok 0 rfl X hX hd) k) ok.hu

theorem fundo_ok (ok : FeistelOk n u r q num str F f) (k : Nat) (hk : k % 2 = 0) (X : List Nat)
    (hX : X.length = n) (hd : ∀ d ∈ X, d < r) :
    (fundo n u q num str f k X).length = n ∧ ∀ d ∈ fundo n u q num str f k X, d < r :=
  halves_append (fdec_halves ok k _ (halves_split ok k hk X hX hd)) ok.hu

theorem engine_enc (ok : FeistelOk n u r q num str F f) (upd : α → τ → α) (k : Nat) (hk : k ≤ 10)
    (h2 : k % 2 = 0) (X : List Nat) (hX : X.length = n) (hd : ∀ d ∈ X, d < r) (acc : α) :
    (List.range k).foldlM (encR n u q num str F upd) (fpeStart X u, acc) =
      some (fpeStart (fenc n u q num str f k X) u,
        ((List.range k).map (ftrace n u q num str f (X.take u, X.drop u))).foldl upd acc) := by
  rw [start_lay, feistel_enc ok upd _ (halves_split ok 0 rfl X hX hd) acc k hk, lay_even u k h2]
  rfl

theorem fenc_split (ok : FeistelOk n u r q num str F f) (k : Nat) (h2 : k % 2 = 0) (X : List Nat)
    (hX : X.length = n) (hd : ∀ d ∈ X, d < r) :
    ((fenc n u q num str f k X).take u, (fenc n u q num str f k X).drop u) =
      fseq n u q num str f (X.take u, X.drop u) k := by
  obtain ⟨h1, _⟩ := fseq_halves ok _ (halves_split ok 0 rfl X hX hd) k
  rw [show halfLen n u k = u by unfold halfLen; rw [if_neg (by omega)]] at h1
  exact split_append u _ _ h1

theorem engine_dec (ok : FeistelOk n u r q num str F f) (upd : α → τ → α) (k : Nat) (hk : k ≤ 10)
    (h2 : k % 2 = 0) (X : List Nat) (hX : X.length = n) (hd : ∀ d ∈ X, d < r) (acc : α) :
    (List.range k).reverse.foldlM (decR n u q num str F upd) (fpeStart (fenc n u q num str f k X) u, acc) =
      some (fpeStart X u,
        ((List.range k).reverse.map (ftrace n u q num str f (X.take u, X.drop u))).foldl upd acc) := by
  have h := feistel_dec ok upd _ (halves_split ok 0 rfl X hX hd) k hk acc
  rw [← start_lay, lay_even u k h2] at h
  exact h

theorem engine_undo (ok : FeistelOk n u r q num str F f) (upd : α → τ → α) (k : Nat) (hk : k ≤ 10)
    (h2 : k % 2 = 0) (X : List Nat) (hX : X.length = n) (hd : ∀ d ∈ X, d < r) (acc : α) : ∃ acc',
    (List.range k).reverse.foldlM (decR n u q num str F upd) (fpeStart X u, acc) =
      some (fpeStart (fundo n u q num str f k X) u, acc') := by
  obtain ⟨a, h⟩ := feistel_dec' ok upd k hk _ (halves_split ok k h2 X hX hd) acc
  refine ⟨a, ?_⟩
  rw [lay_even u k h2, List.take_append_drop, lay_even u 0 rfl] at h
  exact h

theorem fenc_fundo (ok : FeistelOk n u r q num str F f) (k : Nat) (h2 : k % 2 = 0) (X : List Nat)
    (hX : X.length = n) (hd : ∀ d ∈ X, d < r) :
    fenc n u q num str f k (fundo n u q num str f k X) = X := by
  have hh := halves_split ok k h2 X hX hd
  obtain ⟨g1, _⟩ := fdec_halves ok k _ hh
  rw [show halfLen n u 0 = u by unfold halfLen; rw [if_neg (by omega)]] at g1
  unfold fenc fundo
  simp only
  rw [split_append u _ _ g1, fseq_fdec ok k _ hh, List.take_append_drop]

theorem fundo_fenc (ok : FeistelOk n u r q num str F f) (k : Nat) (hk : k ≤ 10) (h2 : k % 2 = 0) (X : List Nat)
    (hX : X.length = n) (hd : ∀ d ∈ X, d < r) :
    fundo n u q num str f k (fenc n u q num str f k X) = X := by
  have h1 := engine_dec ok (fun (_ : Unit) _ => ()) k hk h2 X hX hd ()
  obtain ⟨l1, l2⟩ := fenc_ok ok k X hX hd
  obtain ⟨a, e⟩ := engine_undo ok (fun (_ : Unit) _ => ()) k hk h2 _ l1 l2 ()
  rw [h1] at e
  injection e with e
  exact (congrArg (fun s => s.1.out) e).symm

end feistel

/-! ### the pieces of the FPE contexts -/

theorem foldlM_drop_unit {S : Type} (g : S → Nat → Option S) (G : S × Unit → Nat → Option (S × Unit))
    (h : ∀ s i, g s i = (G (s, ()) i).map Prod.fst) (l : List Nat) : ∀ s,
    l.foldlM g s = (l.foldlM G (s, ())).map Prod.fst := by
  induction l with
  | nil => intro s; rfl
  | cons i l ih =>
    intro s
    rw [List.foldlM_cons, List.foldlM_cons, h]
    cases hg : G (s, ()) i with
    | none => rfl
    | some t =>
      obtain ⟨t, ⟨⟩⟩ := t
      exact ih t

theorem powUv_eq (x u v : Nat) (h1 : u ≤ v + 1) (h2 : v ≤ u + 1) : powUv x u v = (x ^ u, x ^ v) := by
  unfold powUv
  split
  · rw [show u = v + 1 by omega, Nat.pow_succ]
  · split
    · rename_i h; rw [h]
    · rw [show v = u + 1 by omega, Nat.pow_succ]

theorem ceil2_eq (x k : Nat) : ceil2 x k = (x + (2 ^ k - 1)) / 2 ^ k := by
  unfold ceil2
  have hp : 0 < 2 ^ k := Nat.two_pow_pos k
  rw [Nat.shiftRight_eq_div_pow]
  have h := Nat.div_add_mod x (2 ^ k)
  have hr := Nat.mod_lt x hp
  generalize x / 2 ^ k = a at *
  generalize x % 2 ^ k = c at *
  subst h
  rw [Nat.add_assoc, Nat.mul_add_div hp]
  congr 1
  split
  · rw [show c + (2 ^ k - 1) = (c - 1) + 2 ^ k by omega, Nat.add_div_right _ hp, Nat.div_eq_of_lt (by omega)]
  · rw [Nat.div_eq_of_lt (by omega)]

theorem floor2_eq (x : Nat) : floor2 x 1 = x / 2 := by
  simp [floor2, Nat.shiftRight_eq_div_pow]

/-- A number below `2^bits` fits `⌈bits/8⌉` bytes. -/
theorem bits_fit (x bits : Nat) (h : x < 2 ^ bits) : x < 256 ^ ceil2 bits 3 := by
  refine Nat.lt_of_lt_of_le h ?_
  rw [show (256 : Nat) = 2 ^ 8 from rfl, ← Nat.pow_mul]
  apply Nat.pow_le_pow_right (by decide)
  rw [ceil2_eq]
  omega

end Verif
