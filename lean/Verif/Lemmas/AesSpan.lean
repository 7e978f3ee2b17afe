import Verif.Spec.Aes
import Verif.Lemmas.Wb

/-! Differences of `t ↦ 1 / (1 / t + d)` in GF(2^8) span the whole space. -/
set_option autoImplicit false

namespace Verif
open Spec Model

/-- The inverses of the 256 elements, eight bits each. -/
def invPacked : Nat := 0x1c411acda07d9cdd8c0346683438235bb31e505de3d74e08adcf0ec6ebd60db16b90f89dd5c48b94eae2dbc563ae077ae6acfc1b045327a90fe4d4daa32f280b5786bcbd3d768ea571787511ef1fe00c62d2e7ce4a12c8264865b88fc32e7cfb9a89dcf9889f142a72848ad86d326adea4b902f7d9959e9b56be7396807f7e838281faa106d070b63cbab5108597b7793b219333df9147f44336a649d3af5e161761ec51f0223e18bf87244cca055ced09e9255413ab64a769f5312d6737fe1d1959bb776f2035f2426639f36c92452cc2a2443015980ac1c9a84d55f15a6e3ab2ee40ffccfd3f585f602b994baab474c7e5e1b0c0294fe8d17b52cbf68d0100

def invNat (x : Nat) : Nat := (invPacked >>> (8 * x)) % 256

theorem aesInv_table (x : Byte) : aesInv x = BitVec.ofNat 8 (invNat x.toNat) := by
  have h : ∀ x : BitVec 8, aesInv x = BitVec.ofNat 8 (invNat x.toNat) := by decide +kernel
  exact h x

theorem aesInv_inv (x : Byte) : aesInv (aesInv x) = x := by
  have h : ∀ x : BitVec 8, aesInv (aesInv x) = x := by decide +kernel
  exact h x

/-- Reduction by a list of numbers. -/
def redNat (x : Nat) : List Nat → Nat
  | [] => x
  | b :: bs => redNat (bif Nat.ble x (x ^^^ b) then x else x ^^^ b) bs

def insNat (x : Nat) : List Nat → List Nat
  | [] => [x]
  | b :: bs => bif Nat.ble b x then x :: b :: bs else b :: insNat x bs

/-- The difference for `d = 1` at `t`. -/
def diffNat (w t : Nat) : Nat := invNat (invNat t ^^^ 1) ^^^ invNat (invNat (t ^^^ w) ^^^ 1)

/-- A basis of the span of the differences at the numbers of a list. -/
def basisNat (w : Nat) : List Nat → List Nat → List Nat
  | [], bs => bs
  | t :: ts, bs =>
    let v := redNat (diffNat w t) bs
    basisNat w ts (bif Nat.beq v 0 then bs else insNat v bs)

def spansNat (w : Nat) : Bool :=
  let bs := basisNat w (List.range 24) []
  (List.range 8).all fun i => Nat.beq (redNat (2 ^ i) bs) 0

theorem spans_all : ∀ w : Fin 256, w.1 ≠ 0 → spansNat w.1 = true := by decide +kernel

section sound
variable (ψ : Nat → BitVec 4) (hψ : ∀ a b, ψ (a ^^^ b) = ψ a ^^^ ψ b)
include hψ

theorem psi_red (bs : List Nat) (hb : ∀ b ∈ bs, ψ b = 0) (x : Nat) : ψ (redNat x bs) = ψ x := by
  induction bs generalizing x with
  | nil => rfl
  | cons b bs ih =>
    rw [redNat, ih (fun c hc => hb c (List.mem_cons_of_mem _ hc))]
    cases Nat.ble x (x ^^^ b) with
    | true => rfl
    | false => rw [cond_false, hψ, hb b List.mem_cons_self]; exact BitVec.xor_zero

omit hψ in
theorem psi_ins (bs : List Nat) (hb : ∀ b ∈ bs, ψ b = 0) (x : Nat) (hx : ψ x = 0) : ∀ b ∈ insNat x bs, ψ b = 0 := by
  induction bs with
  | nil =>
    intro b h
    rw [insNat, List.mem_singleton] at h
    rw [h, hx]
  | cons c bs ih =>
    intro b h
    rw [insNat] at h
    cases hc : Nat.ble c x with
    | true =>
      rw [hc, cond_true, List.mem_cons] at h
      rcases h with rfl | h
      · exact hx
      · exact hb b h
    | false =>
      rw [hc, cond_false, List.mem_cons] at h
      rcases h with rfl | h
      · exact hb _ List.mem_cons_self
      · exact ih (fun d hd => hb d (List.mem_cons_of_mem _ hd)) b h

theorem psi_basis (w : Nat) (ts : List Nat) (ht : ∀ t ∈ ts, ψ (diffNat w t) = 0) (bs : List Nat) (hb : ∀ b ∈ bs, ψ b = 0) :
    ∀ b ∈ basisNat w ts bs, ψ b = 0 := by
  induction ts generalizing bs with
  | nil => exact hb
  | cons t ts ih =>
    rw [basisNat]
    apply ih fun s hs => ht s (List.mem_cons_of_mem _ hs)
    cases Nat.beq (redNat (diffNat w t) bs) 0 with
    | true => exact hb
    | false =>
      rw [cond_false]
      apply psi_ins ψ bs hb
      rw [psi_red ψ hψ bs hb, ht t List.mem_cons_self]

theorem psi_spans (w : Nat) (h : spansNat w = true) (ht : ∀ t, t < 256 → ψ (diffNat w t) = 0) (i : Nat) (hi : i < 8) :
    ψ (2 ^ i) = 0 := by
  have hb := psi_basis ψ hψ w (List.range 24) (fun t hm => ht t (by rw [List.mem_range] at hm; omega)) [] (by simp)
  have := List.all_eq_true.1 h i (List.mem_range.2 hi)
  have h0 := Nat.eq_of_beq_eq_true this
  have h1 := psi_red ψ hψ _ hb (2 ^ i)
  rw [h0] at h1
  rw [← h1]
  have := hψ 0 0
  rw [Nat.xor_self, BitVec.xor_self] at this
  exact this

end sound

/-- `1 / (1 / t + d)`. -/
def mobius (d t : Byte) : Byte := aesInv (aesInv t ^^^ d)

/-- No additive map kills all differences in direction `w`, except zero. -/
def Spanning (d : Byte) : Prop := ∀ w : Byte, w ≠ 0 → ∀ φ : Byte → BitVec 4, (∀ x y, φ (x ^^^ y) = φ x ^^^ φ y) →
  (∀ t, φ (mobius d t ^^^ mobius d (t ^^^ w)) = 0) → ∀ z, φ z = 0

theorem spanning_one : Spanning 1 := by
  intro w hw φ hφ h
  have hψ : ∀ a b, φ (BitVec.ofNat 8 (a ^^^ b)) = φ (BitVec.ofNat 8 a) ^^^ φ (BitVec.ofNat 8 b) := by
    intro a b
    rw [BitVec.ofNat_xor, hφ]
  have hlt : ∀ x, invNat x < 256 := fun x => Nat.mod_lt _ (by decide)
  have hx : ∀ a b, a < 256 → b < 256 → a ^^^ b < 256 := fun a b ha hb => Nat.xor_lt_two_pow (n := 8) ha hb
  have hm : ∀ t, t < 256 → mobius 1 (BitVec.ofNat 8 t) = BitVec.ofNat 8 (invNat (invNat t ^^^ 1)) := by
    intro t ht
    rw [mobius, aesInv_table (BitVec.ofNat 8 t), BitVec.toNat_ofNat, Nat.mod_eq_of_lt ht]
    rw [show (1 : Byte) = BitVec.ofNat 8 1 from rfl, ← BitVec.ofNat_xor, aesInv_table, BitVec.toNat_ofNat,
      Nat.mod_eq_of_lt (hx _ _ (hlt t) (by decide))]
  have hs := spans_all w.toFin (by
    intro h0
    apply hw
    apply BitVec.eq_of_toNat_eq
    exact h0)
  have unit := psi_spans (fun a => φ (BitVec.ofNat 8 a)) hψ w.toNat hs (by
    intro t ht
    have := h (BitVec.ofNat 8 t)
    rw [show BitVec.ofNat 8 t ^^^ w = BitVec.ofNat 8 (t ^^^ w.toNat) by rw [BitVec.ofNat_xor, BitVec.ofNat_toNat, BitVec.setWidth_eq],
      hm t ht, hm _ (hx _ _ ht w.isLt), ← BitVec.ofNat_xor] at this
    exact this)
  have h0 : φ 0 = 0 := by
    have := hφ 0 0
    rw [BitVec.xor_self, BitVec.xor_self] at this
    exact this
  intro z
  have := additive_ext (n := 8) (fun z => (φ z).zeroExtend 8) (fun _ => 0)
    (fun x y => by rw [hφ]; exact BitVec.setWidth_xor ..) (fun _ _ => (BitVec.xor_self).symm) (by
      intro i
      have : idRow 8 i.1 = BitVec.ofNat 8 (2 ^ (7 - i.1)) := by
        revert i; decide +kernel
      simp only [this]
      rw [unit (7 - i.1) (by omega)]
      rfl) z
  apply BitVec.eq_of_toNat_eq
  have h2 := congrArg BitVec.toNat this
  simp only [BitVec.toNat_setWidth] at h2
  rw [Nat.mod_eq_of_lt (by have := (φ z).isLt; omega)] at h2
  exact h2

/-- Multiplication by 3, a generator, and by its inverse. -/
def mulGen (x : Byte) : Byte := xtime x ^^^ x
def divGen (x : Byte) : Byte := aesMul x 0xf6

theorem xtime_xor (x y : Byte) : xtime (x ^^^ y) = xtime x ^^^ xtime y := by
  unfold xtime
  rw [BitVec.msb_xor, BitVec.shiftLeft_xor_distrib]
  have h : ∀ a b : Byte, ∀ p q : Bool, a ^^^ b ^^^ (if (p ^^ q) = true then 0x1b else 0) =
      a ^^^ (if p = true then 0x1b else 0) ^^^ (b ^^^ (if q = true then 0x1b else 0)) := by
    intro a b p q
    have e : (if (p ^^ q) = true then (0x1b : Byte) else 0) = (if p = true then 0x1b else 0) ^^^ (if q = true then 0x1b else 0) := by
      cases p <;> cases q <;> rfl
    rw [e]
    ac_rfl
  exact h _ _ _ _

theorem mulGen_xor (x y : Byte) : mulGen (x ^^^ y) = mulGen x ^^^ mulGen y := by
  unfold mulGen
  rw [xtime_xor]
  ac_rfl

theorem div_mul (x : Byte) : divGen (mulGen x) = x := by
  have h : ∀ x : BitVec 8, divGen (mulGen x) = x := by decide +kernel
  exact h x

theorem mul_div (x : Byte) : mulGen (divGen x) = x := by
  have h : ∀ x : BitVec 8, mulGen (divGen x) = x := by decide +kernel
  exact h x

theorem divGen_xor (x y : Byte) : divGen (x ^^^ y) = divGen x ^^^ divGen y := by
  rw [← mul_div x, ← mul_div y, ← mulGen_xor, div_mul, div_mul, div_mul]

theorem inv_mul (x : Byte) : aesInv (mulGen x) = divGen (aesInv x) := by
  have h : ∀ x : BitVec 8, aesInv (mulGen x) = divGen (aesInv x) := by decide +kernel
  exact h x

theorem mobius_mul (d t : Byte) : mobius (mulGen d) t = divGen (mobius d (mulGen t)) := by
  unfold mobius
  rw [← inv_mul, inv_mul t, mulGen_xor, mul_div]

theorem spanning_mul (d : Byte) (h : Spanning d) : Spanning (mulGen d) := by
  intro w hw φ hφ hk z
  have := h (mulGen w) (by
    intro h0
    apply hw
    rw [← div_mul w, h0]
    decide +kernel) (fun x => φ (divGen x)) (fun x y => by rw [divGen_xor, hφ]) (by
    intro t
    have := hk (divGen t)
    rw [mobius_mul, mobius_mul, mulGen_xor, mul_div, ← divGen_xor] at this
    exact this) (mulGen z)
  rwa [div_mul] at this

/-- `d`, `3 d`, `9 d`, ... -/
def genOrbit (d : Byte) : Nat → List Byte
  | 0 => []
  | n + 1 => d :: genOrbit (mulGen d) n

theorem spanning_iter (n : Nat) (d : Byte) (h : Spanning d) : ∀ e ∈ genOrbit d n, Spanning e := by
  induction n generalizing d with
  | zero => intro e he; simp [genOrbit] at he
  | succ n ih =>
    intro e he
    rw [genOrbit, List.mem_cons] at he
    rcases he with rfl | he
    · exact h
    · exact ih (mulGen d) (spanning_mul d h) e he

theorem gen_orbit : ∀ d : BitVec 8, d ≠ 0 → (genOrbit 1 255).contains d = true := by decide +kernel

theorem spanning_all (d : Byte) (hd : d ≠ 0) : Spanning d :=
  spanning_iter 255 1 spanning_one d (List.contains_iff_mem.1 (gen_orbit d hd))

end Verif
