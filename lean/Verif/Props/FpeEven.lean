import Mathlib.GroupTheory.Perm.Sign
import Mathlib.Data.ZMod.Basic
import Verif.Props.Ff3SlideMore

/-! Property C117: with an odd radix FF1 and FF3 are even permutations. -/
set_option autoImplicit false

namespace Verif.Props
open Verif Spec Model

/-! ### rotations of one half -/

/-- Add to the first component a number that depends on the second. -/
def rotFst {p q : Nat} (f : ZMod q → ZMod p) : Equiv.Perm (ZMod p × ZMod q) where
  toFun x := (x.1 + f x.2, x.2)
  invFun x := (x.1 - f x.2, x.2)
  left_inv x := by simp
  right_inv x := by simp

/-- Add to the second component a number that depends on the first. -/
def rotSnd {p q : Nat} (g : ZMod p → ZMod q) : Equiv.Perm (ZMod p × ZMod q) where
  toFun x := (x.1, x.2 + g x.1)
  invFun x := (x.1, x.2 - g x.1)
  left_inv x := by simp
  right_inv x := by simp

theorem rotFst_pow {p q : Nat} (f : ZMod q → ZMod p) (k : Nat) (x : ZMod p × ZMod q) :
    (rotFst f ^ k) x = (x.1 + k * f x.2, x.2) := by
  induction k with
  | zero => simp
  | succ k ih =>
    rw [pow_succ', Equiv.Perm.mul_apply, ih]
    simp only [rotFst, Equiv.coe_fn_mk]
    ext <;> simp; ring

theorem rotSnd_pow {p q : Nat} (g : ZMod p → ZMod q) (k : Nat) (x : ZMod p × ZMod q) :
    (rotSnd g ^ k) x = (x.1, x.2 + k * g x.1) := by
  induction k with
  | zero => simp
  | succ k ih =>
    rw [pow_succ', Equiv.Perm.mul_apply, ih]
    simp only [rotSnd, Equiv.coe_fn_mk]
    ext <;> simp; ring

theorem sign_of_odd_pow {α : Type} [Fintype α] [DecidableEq α] (σ : Equiv.Perm α) (k : Nat) (hk : k % 2 = 1)
    (h : σ ^ k = 1) : Equiv.Perm.sign σ = 1 := by
  have h1 : (Equiv.Perm.sign σ) ^ k = 1 := by rw [← map_pow, h, map_one]
  rcases Int.units_eq_one_or (Equiv.Perm.sign σ) with e | e
  · exact e
  · rw [e] at h1 ⊢
    rw [Odd.neg_one_pow (Nat.odd_iff.mpr hk)] at h1
    exact h1

theorem sign_rotFst {p q : Nat} [NeZero p] [NeZero q] (hp : p % 2 = 1) (f : ZMod q → ZMod p) :
    Equiv.Perm.sign (rotFst f) = 1 := by
  refine sign_of_odd_pow _ p hp (Equiv.ext fun x => ?_)
  rw [rotFst_pow]
  simp

theorem sign_rotSnd {p q : Nat} [NeZero p] [NeZero q] (hq : q % 2 = 1) (g : ZMod p → ZMod q) :
    Equiv.Perm.sign (rotSnd g) = 1 := by
  refine sign_of_odd_pow _ q hq (Equiv.ext fun x => ?_)
  rw [rotSnd_pow]
  simp

/-- Two even permutations that agree on all but two points agree everywhere. -/
theorem even_agree {α : Type} [Fintype α] [DecidableEq α] (σ τ : Equiv.Perm α) (hs : Equiv.Perm.sign σ = 1)
    (ht : Equiv.Perm.sign τ = 1) (a b : α) (h : ∀ x, x ≠ a → x ≠ b → σ x = τ x) : σ = τ := by
  have hsign : Equiv.Perm.sign (τ⁻¹ * σ) = 1 := by rw [map_mul, map_inv, hs, ht]; rfl
  have hsup : (τ⁻¹ * σ).support ⊆ {a, b} := by
    intro x hx
    by_contra hn
    simp only [Finset.mem_insert, Finset.mem_singleton, not_or] at hn
    rw [Equiv.Perm.mem_support, Equiv.Perm.mul_apply, h x hn.1 hn.2] at hx
    simp at hx
  have hc := (Finset.card_le_card hsup).trans Finset.card_le_two
  have h1 : (τ⁻¹ * σ).support.card ≠ 1 := Equiv.Perm.card_support_ne_one _
  have h2 : (τ⁻¹ * σ).support.card ≠ 2 := by
    intro h2
    have := (Equiv.Perm.card_support_eq_two.mp h2).sign_eq
    rw [hsign] at this
    exact absurd this (by decide)
  have h0 : (τ⁻¹ * σ).support.card = 0 := by omega
  have e : τ⁻¹ * σ = 1 := Equiv.Perm.card_support_eq_zero.mp h0
  have := congrArg (τ * ·) e
  simpa using this

/-! ### the rounds -/

/-- A way to read digits as a number and back. -/
structure Codec (r : Nat) where
  num : List Nat → Nat
  str : Nat → Nat → List Nat
  num_lt : ∀ m l, DigitsOf r m l → num l < r ^ m
  str_num : ∀ m l, DigitsOf r m l → str m (num l) = l
  num_str : ∀ m x, num (str m x) = x % r ^ m
  str_ok : ∀ m x, DigitsOf r m (str m x)

/-- A round with halves of `u` and `v` digits and round values `y`. -/
def codecRound {r : Nat} (c : Codec r) (u v : Nat) (y : Nat → List Nat → Nat) (AB : List Nat × List Nat) (i : Nat) :
    List Nat × List Nat :=
  let m := if i % 2 = 0 then u else v
  (AB.2, c.str m ((c.num AB.1 + y i AB.2) % r ^ m))

/-- The two halves as numbers. -/
def pairOf {r : Nat} (c : Codec r) (u v : Nat) (AB : List Nat × List Nat) : ZMod (r ^ u) × ZMod (r ^ v) := (c.num AB.1, c.num AB.2)

theorem double_round {r : Nat} (hodd : r % 2 = 1) (c : Codec r) (u v : Nat) (y : Nat → List Nat → Nat) (i : Nat)
    (hi : i % 2 = 0) : haveI : NeZero r := ⟨by omega⟩; ∃ σ : Equiv.Perm (ZMod (r ^ u) × ZMod (r ^ v)), Equiv.Perm.sign σ = 1 ∧
      ∀ AB : List Nat × List Nat, DigitsOf r u AB.1 → DigitsOf r v AB.2 →
        let AB' := codecRound c u v y (codecRound c u v y AB i) (i + 1)
        DigitsOf r u AB'.1 ∧ DigitsOf r v AB'.2 ∧ pairOf c u v AB' = σ (pairOf c u v AB) := by
  have : NeZero r := ⟨by omega⟩
  have hpow : ∀ m, r ^ m % 2 = 1 := fun m => by rw [Nat.pow_mod, hodd, Nat.one_pow]
  refine ⟨rotSnd (fun a => (y (i + 1) (c.str u a.val) : ZMod (r ^ v))) * rotFst (fun b => (y i (c.str v b.val) : ZMod (r ^ u))),
    ?_, ?_⟩
  · rw [map_mul, sign_rotFst (hpow u), sign_rotSnd (hpow v)]; rfl
  · rintro ⟨A, B⟩ hA hB
    simp only [codecRound, hi, if_true, show (i + 1) % 2 = 1 by omega, if_neg (show ¬ (1 : Nat) = 0 by omega)]
    refine ⟨c.str_ok _ _, c.str_ok _ _, ?_⟩
    have eB : c.str v ((c.num B : ZMod (r ^ v))).val = B := by
      rw [ZMod.val_natCast, Nat.mod_eq_of_lt (c.num_lt v B hB), c.str_num v B hB]
    have e1 : ((c.num (c.str u ((c.num A + y i B) % r ^ u)) : Nat) : ZMod (r ^ u)) = c.num A + y i B := by
      rw [c.num_str, Nat.mod_mod, ZMod.natCast_mod, Nat.cast_add]
    have e2 : c.str u (((c.num A : ZMod (r ^ u)) + y i B).val) = c.str u ((c.num A + y i B) % r ^ u) := by
      rw [← Nat.cast_add, ZMod.val_natCast]
    rw [Equiv.Perm.mul_apply]
    simp only [pairOf, rotFst, rotSnd, Equiv.coe_fn_mk, eB, e1, e2]
    ext
    · rfl
    · simp only
      rw [c.num_str, Nat.mod_mod, ZMod.natCast_mod, Nat.cast_add]

theorem many_rounds {r : Nat} (hodd : r % 2 = 1) (c : Codec r) (u v : Nat) (y : Nat → List Nat → Nat) (k : Nat) :
    haveI : NeZero r := ⟨by omega⟩; ∃ σ : Equiv.Perm (ZMod (r ^ u) × ZMod (r ^ v)), Equiv.Perm.sign σ = 1 ∧
      ∀ AB : List Nat × List Nat, DigitsOf r u AB.1 → DigitsOf r v AB.2 →
        let AB' := (List.range (2 * k)).foldl (codecRound c u v y) AB
        DigitsOf r u AB'.1 ∧ DigitsOf r v AB'.2 ∧ pairOf c u v AB' = σ (pairOf c u v AB) := by
  have : NeZero r := ⟨by omega⟩
  induction k with
  | zero => exact ⟨1, map_one _, fun AB h1 h2 => ⟨h1, h2, rfl⟩⟩
  | succ k ih =>
    obtain ⟨σ, hs, h⟩ := ih
    obtain ⟨τ, ht, h'⟩ := double_round hodd c u v y (2 * k) (by omega)
    refine ⟨τ * σ, by rw [map_mul, hs, ht]; rfl, ?_⟩
    intro AB h1 h2
    have e : List.range (2 * (k + 1)) = List.range (2 * k) ++ [2 * k, 2 * k + 1] := by
      rw [show 2 * (k + 1) = 2 * k + 1 + 1 by ring, List.range_succ, List.range_succ, List.append_assoc]; rfl
    obtain ⟨a1, a2, a3⟩ := h AB h1 h2
    obtain ⟨b1, b2, b3⟩ := h' _ a1 a2
    simp only [e, List.foldl_append, List.foldl_cons, List.foldl_nil]
    exact ⟨b1, b2, by rw [b3, a3, Equiv.Perm.mul_apply]⟩

/-- Encryption of a string of digits by `2k` rounds. -/
def codecEnc {r : Nat} (c : Codec r) (u v : Nat) (y : Nat → List Nat → Nat) (k : Nat) (X : List Nat) : List Nat :=
  let AB := (List.range (2 * k)).foldl (codecRound c u v y) (X.take u, X.drop u)
  AB.1 ++ AB.2

theorem codec_agree {r : Nat} (hodd : r % 2 = 1) (c : Codec r) (u v k : Nat) (y y' : Nat → List Nat → Nat)
    (a b : List Nat) (h : ∀ X, DigitsOf r (u + v) X → X ≠ a → X ≠ b → codecEnc c u v y k X = codecEnc c u v y' k X) :
    ∀ X, DigitsOf r (u + v) X → codecEnc c u v y k X = codecEnc c u v y' k X := by
  have : NeZero r := ⟨by omega⟩
  obtain ⟨σ, hs, h1⟩ := many_rounds hodd c u v y k
  obtain ⟨τ, ht, h2⟩ := many_rounds hodd c u v y' k
  have split : ∀ X, DigitsOf r (u + v) X → DigitsOf r u (X.take u) ∧ DigitsOf r v (X.drop u) := fun X hX =>
    ⟨⟨by rw [List.length_take, hX.1]; omega, fun d hd => hX.2 d (List.mem_of_mem_take hd)⟩,
      ⟨by rw [List.length_drop, hX.1]; omega, fun d hd => hX.2 d (List.mem_of_mem_drop hd)⟩⟩
  have inj : ∀ AB CD : List Nat × List Nat, DigitsOf r u AB.1 → DigitsOf r v AB.2 → DigitsOf r u CD.1 → DigitsOf r v CD.2 →
      pairOf c u v AB = pairOf c u v CD → AB = CD := by
    rintro ⟨A, B⟩ ⟨C, D⟩ hA hB hC hD e
    have e1 := congrArg (fun x => x.1.val) e
    have e2 := congrArg (fun x => x.2.val) e
    simp only [pairOf, ZMod.val_natCast] at e1 e2
    rw [Nat.mod_eq_of_lt (c.num_lt _ _ hA), Nat.mod_eq_of_lt (c.num_lt _ _ hC)] at e1
    rw [Nat.mod_eq_of_lt (c.num_lt _ _ hB), Nat.mod_eq_of_lt (c.num_lt _ _ hD)] at e2
    rw [← c.str_num u A hA, ← c.str_num v B hB, e1, e2, c.str_num u C hC, c.str_num v D hD]
  have eq : σ = τ := by
    refine even_agree σ τ hs ht (pairOf c u v (a.take u, a.drop u)) (pairOf c u v (b.take u, b.drop u)) ?_
    intro x hxa hxb
    let A := c.str u x.1.val
    let B := c.str v x.2.val
    have hA : DigitsOf r u A := c.str_ok _ _
    have hB : DigitsOf r v B := c.str_ok _ _
    have hx : pairOf c u v (A, B) = x := by
      ext
      · simp only [pairOf, A]
        rw [c.num_str, ZMod.natCast_mod, ZMod.natCast_zmod_val]
      · simp only [pairOf, B]
        rw [c.num_str, ZMod.natCast_mod, ZMod.natCast_zmod_val]
    have hX : DigitsOf r (u + v) (A ++ B) := digitsOf_append hA hB rfl
    have tA : (A ++ B).take u = A := List.take_left' hA.1
    have dB : (A ++ B).drop u = B := List.drop_left' hA.1
    have hne : ∀ z, x ≠ pairOf c u v (z.take u, z.drop u) → A ++ B ≠ z := by
      rintro z hz rfl
      rw [tA, dB] at hz
      exact hz hx.symm
    have := h (A ++ B) hX (hne a hxa) (hne b hxb)
    unfold codecEnc at this
    simp only [tA, dB] at this
    obtain ⟨p1, p2, p3⟩ := h1 (A, B) hA hB
    obtain ⟨q1, q2, q3⟩ := h2 (A, B) hA hB
    obtain ⟨f1, f2⟩ := List.append_inj this (by rw [p1.1, q1.1])
    rw [← hx, ← p3, ← q3]
    simp only [pairOf, f1, f2]
  intro X hX
  obtain ⟨hA, hB⟩ := split X hX
  obtain ⟨p1, p2, p3⟩ := h1 (X.take u, X.drop u) hA hB
  obtain ⟨q1, q2, q3⟩ := h2 (X.take u, X.drop u) hA hB
  have := inj _ _ p1 p2 q1 q2 (by rw [p3, q3, eq])
  unfold codecEnc
  simp only [this]

/-! ### FF1 and FF3 -/

/-- Most significant digit first (FF1). -/
def codecFwd (r : Nat) (hr : 0 < r) : Codec r where
  num := numRadix r
  str := strRadix r
  num_lt m l h := by rw [← str2num_eq, ← h.1]; exact str2num_lt r l h.2
  str_num m l h := by rw [← str2num_eq, ← num2str_eq, ← h.1]; exact num2str_str2num r l h.2
  num_str m x := by rw [← str2num_eq, ← num2str_eq]; exact str2num_num2str _ _ _
  str_ok m x := digitsOf_str r m x hr

/-- Least significant digit first (FF3). -/
def codecRev (r : Nat) (hr : 0 < r) : Codec r where
  num l := numRadix r l.reverse
  str m x := (strRadix r m x).reverse
  num_lt m l h := (codecFwd r hr).num_lt m l.reverse (digitsOf_rev h)
  str_num m l h := by
    have := (codecFwd r hr).str_num m l.reverse (digitsOf_rev h)
    simp only [codecFwd] at this
    rw [this, List.reverse_reverse]
  num_str m x := by rw [List.reverse_reverse]; exact (codecFwd r hr).num_str m x
  str_ok m x := digitsOf_rev (digitsOf_str r m x hr)

theorem ff1Enc_codec (E : Block → Block) (r : Nat) (hr : 0 < r) (T : List Byte) (X : List Nat) :
    ff1Enc E r T X = codecEnc (codecFwd r hr) (X.length / 2) (X.length - X.length / 2) (ff1Y E r X.length T) 5 X := rfl

theorem ff3Enc_codec (E : Block → Block) (r : Nat) (hr : 0 < r) (T : List Byte) (X : List Nat) :
    ff3Enc E r T X = codecEnc (codecRev r hr) ((X.length + 1) / 2) (X.length - (X.length + 1) / 2) (ff3Y E r T) 4 X := rfl

/-- C117: FF1 with an odd radix.  If the encryptions under two keys or tweaks agree on all strings of a length but two, they
agree on these as well: all but two ciphertexts determine the others. -/
theorem C117_ff1 (ctx ctx' : FpeCtx) (tweak tweak' : List Byte) (radix : Nat) (E E' : Block → Block)
    (hc : fpeInit tweak radix E = some ctx) (hc' : fpeInit tweak' radix E' = some ctx') (hodd : radix % 2 = 1) (n : Nat)
    (hn : 2 ≤ n) (hn' : n < 2 ^ 30) (hT : QOk (fun r k => Nat.clog 2 (r ^ k)) tweak radix n)
    (hT' : QOk (fun r k => Nat.clog 2 (r ^ k)) tweak' radix n) (a b : List Byte)
    (h : ∀ s, NumStr radix n s → s ≠ a → s ≠ b →
      ff1Encrypt ctx exactLg (s ++ [0]) (List.replicate (n + 1) 0) = ff1Encrypt ctx' exactLg (s ++ [0]) (List.replicate (n + 1) 0)) :
    ∀ s rest out, NumStr radix n s → n < out.length →
      ff1Encrypt ctx exactLg (s ++ 0 :: rest) out = ff1Encrypt ctx' exactLg (s ++ 0 :: rest) out := by
  have hrr : 2 ≤ radix ∧ radix ≤ 36 := by
    unfold fpeInit at hc
    split at hc
    · cases hc
    · omega
  have hr0 : 0 < radix := by omega
  have e1 : ∀ s rest out, NumStr radix n s → n < out.length → ff1Encrypt ctx exactLg (s ++ 0 :: rest) out =
      some ((ff1Enc E radix tweak (s.map numeralVal)).map numeralChar ++ 0 :: out.drop (n + 1)) := by
    rintro s rest out ⟨hl, hs⟩ ho
    subst hl
    exact (C65_ff1_nist ctx tweak radix E hc s rest out hs hn hn' hT ho).1
  have e2 : ∀ s rest out, NumStr radix n s → n < out.length → ff1Encrypt ctx' exactLg (s ++ 0 :: rest) out =
      some ((ff1Enc E' radix tweak' (s.map numeralVal)).map numeralChar ++ 0 :: out.drop (n + 1)) := by
    rintro s rest out ⟨hl, hs⟩ ho
    subst hl
    exact (C65_ff1_nist ctx' tweak' radix E' hc' s rest out hs hn hn' hT' ho).1
  have vals36 : ∀ {l : List Nat} {m : Nat}, DigitsOf radix m l → vals (l.map numeralChar) = l := fun h =>
    vals_chars _ fun d hd => by have := h.2 d hd; omega
  have key := codec_agree hodd (codecFwd radix hr0) (n / 2) (n - n / 2) 5 (ff1Y E radix n tweak) (ff1Y E' radix n tweak')
    (vals a) (vals b) (by
      intro X hX hXa hXb
      rw [show n / 2 + (n - n / 2) = n by omega] at hX
      have hs := numStr_of_digits hrr.2 hX
      have hne : ∀ z : List Byte, X ≠ vals z → X.map numeralChar ≠ z := by
        rintro z hz rfl
        exact hz (vals36 hX).symm
      have := h _ hs (hne a hXa) (hne b hXb)
      rw [e1 _ _ _ hs (by simp), e2 _ _ _ hs (by simp)] at this
      have := congrArg vals (List.append_cancel_right (Option.some.inj this))
      have hv : (X.map numeralChar).map numeralVal = X := vals36 hX
      rw [hv, vals36 (digits_ff1Enc E radix tweak X hr0), vals36 (digits_ff1Enc E' radix tweak' X hr0)] at this
      rw [ff1Enc_codec E radix hr0, ff1Enc_codec E' radix hr0, hX.1] at this
      exact this)
  intro s rest out hs ho
  have hX : DigitsOf radix (n / 2 + (n - n / 2)) (s.map numeralVal) := by
    rw [show n / 2 + (n - n / 2) = n by omega]
    exact ⟨by rw [List.length_map, hs.1], vals_lt s hs.2⟩
  have hl : (s.map numeralVal).length = n := by rw [List.length_map, hs.1]
  have := key _ hX
  rw [e1 _ _ _ hs ho, e2 _ _ _ hs ho, ff1Enc_codec E radix hr0, ff1Enc_codec E' radix hr0, hl, this]

/-- C117: the same for FF3. -/
theorem C117_ff3 (ctx ctx' : FpeCtx) (tweak tweak' : List Byte) (radix : Nat) (E E' : Block → Block)
    (hc : fpeInit tweak radix E = some ctx) (hc' : fpeInit tweak' radix E' = some ctx') (hodd : radix % 2 = 1)
    (ht : 8 ≤ tweak.length) (ht' : 8 ≤ tweak'.length) (lg : Nat → Nat → Nat) (hlg : LgOk lg) (n : Nat) (hn : 1 ≤ n)
    (hmax : radix ^ ((n + 1) / 2) ≤ 2 ^ 96) (a b : List Byte)
    (h : ∀ s, NumStr radix n s → s ≠ a → s ≠ b →
      ff3Encrypt ctx lg (s ++ [0]) (List.replicate (n + 1) 0) = ff3Encrypt ctx' lg (s ++ [0]) (List.replicate (n + 1) 0)) :
    ∀ s rest out, NumStr radix n s → n < out.length →
      ff3Encrypt ctx lg (s ++ 0 :: rest) out = ff3Encrypt ctx' lg (s ++ 0 :: rest) out := by
  have hrr : 2 ≤ radix ∧ radix ≤ 36 := by
    unfold fpeInit at hc
    split at hc
    · cases hc
    · omega
  have hr0 : 0 < radix := by omega
  have e1 : ∀ s rest out, NumStr radix n s → n < out.length → ff3Encrypt ctx lg (s ++ 0 :: rest) out =
      some ((ff3Enc E radix (tweak.take 8) (s.map numeralVal)).map numeralChar ++ 0 :: out.drop (n + 1)) := by
    rintro s rest out ⟨hl, hs⟩ ho
    subst hl
    exact (C66_ff3_nist ctx tweak radix E hc ht lg hlg s rest out hs hn hmax ho).1
  have e2 : ∀ s rest out, NumStr radix n s → n < out.length → ff3Encrypt ctx' lg (s ++ 0 :: rest) out =
      some ((ff3Enc E' radix (tweak'.take 8) (s.map numeralVal)).map numeralChar ++ 0 :: out.drop (n + 1)) := by
    rintro s rest out ⟨hl, hs⟩ ho
    subst hl
    exact (C66_ff3_nist ctx' tweak' radix E' hc' ht' lg hlg s rest out hs hn hmax ho).1
  have vals36 : ∀ {l : List Nat} {m : Nat}, DigitsOf radix m l → vals (l.map numeralChar) = l := fun h =>
    vals_chars _ fun d hd => by have := h.2 d hd; omega
  have key := codec_agree hodd (codecRev radix hr0) ((n + 1) / 2) (n - (n + 1) / 2) 4 (ff3Y E radix (tweak.take 8))
    (ff3Y E' radix (tweak'.take 8)) (vals a) (vals b) (by
      intro X hX hXa hXb
      rw [show (n + 1) / 2 + (n - (n + 1) / 2) = n by omega] at hX
      have hs := numStr_of_digits hrr.2 hX
      have hne : ∀ z : List Byte, X ≠ vals z → X.map numeralChar ≠ z := by
        rintro z hz rfl
        exact hz (vals36 hX).symm
      have := h _ hs (hne a hXa) (hne b hXb)
      rw [e1 _ _ _ hs (by simp), e2 _ _ _ hs (by simp)] at this
      have := congrArg vals (List.append_cancel_right (Option.some.inj this))
      have hv : (X.map numeralChar).map numeralVal = X := vals36 hX
      rw [hv, vals36 (digits_ff3Enc E radix _ X hr0), vals36 (digits_ff3Enc E' radix _ X hr0)] at this
      rw [ff3Enc_codec E radix hr0, ff3Enc_codec E' radix hr0, hX.1] at this
      exact this)
  intro s rest out hs ho
  have hX : DigitsOf radix ((n + 1) / 2 + (n - (n + 1) / 2)) (s.map numeralVal) := by
    rw [show (n + 1) / 2 + (n - (n + 1) / 2) = n by omega]
    exact ⟨by rw [List.length_map, hs.1], vals_lt s hs.2⟩
  have hl : (s.map numeralVal).length = n := by rw [List.length_map, hs.1]
  have := key _ hX
  rw [e1 _ _ _ hs ho, e2 _ _ _ hs ho, ff3Enc_codec E radix hr0, ff3Enc_codec E' radix hr0, hl, this]

/-- The hypotheses are met by strings of three digits of radix 3. -/
example : fpeInit [] 3 id = some ⟨id, 3, []⟩ ∧ QOk (fun r k => Nat.clog 2 (r ^ k)) [] 3 3 := ⟨rfl, by decide⟩

/-- A cipher that is constant but for one block. -/
def oneBlock (x : Block) : Block :=
  if x = #v[0, 0, 0, 0, 0, 0, 0, 0, 0, 0, 0, 0, 0, 0, 9, 1] then #v[0, 0, 0, 0, 0, 0, 0, 1, 0, 0, 0, 0, 0, 0, 0, 0] else zeroBlock

/-- C117: with an even radix this fails, already for two binary digits (`⌈k·log₂ 2⌉ = k`): two ciphers for which exactly two of the
four ciphertexts agree. -/
theorem C117_even_radix : let enc := fun (E : Block → Block) (s : List Byte) => ff1Encrypt ⟨E, 2, []⟩ (fun _ k => k) (s ++ [0]) [0, 0, 0]
    enc oneBlock [48, 48] = enc (fun _ => zeroBlock) [48, 48] ∧ enc oneBlock [48, 49] = enc (fun _ => zeroBlock) [48, 49] ∧
    enc oneBlock [49, 48] ≠ enc (fun _ => zeroBlock) [49, 48] ∧ enc oneBlock [49, 49] ≠ enc (fun _ => zeroBlock) [49, 49] ∧
    (∀ s ∈ [[48, 48], [48, 49], [49, 48], [49, 49]], (enc oneBlock s).isSome) := by
  decide +kernel

end Verif.Props
