import Verif.Lemmas.GcmMult

/-! Helper lemmas: absorb loops, counter increment, stream loops. -/
set_option autoImplicit false

namespace Verif
open Spec Model

theorem xorInto_eq (b : Block) (p : List Byte) :
    xorInto b p = b ^^^ (Vector.ofFn fun i => p.getD i.1 0 : Block) := by
  apply Vector.ext
  intro i hi
  simp only [xorInto, Vector.getElem_ofFn, Vec.getElem_xor]
  split
  · next h => simp [h]
  · next h => simp [show p.length ≤ i by omega]

theorem toBV_xorInto (b : Block) (p : List Byte) : toBV (xorInto b p) = toBV b ^^^ padBV p := by
  rw [xorInto_eq, toBV_xor, padBV]

theorem foldl_absorb {HL HH h} (ok : TabOk HL HH h) (ps : List (List Byte)) : ∀ b : Block,
    toBV (ps.foldl (fun b p => gcmMult HL HH (xorInto b p)) b) = ghashFrom h (toBV b) (ps.map padBV) := by
  induction ps with
  | nil => intro b; rfl
  | cons p ps ih =>
    intro b
    rw [List.foldl_cons, ih, gcmMult_eq ok, toBV_xorInto]
    rfl

theorem absorb_eq {HL HH h} (ok : TabOk HL HH h) (b : Block) (data : List Byte) :
    toBV (absorb HL HH b data) = ghashFrom h (toBV b) ((chunks data).map padBV) :=
  foldl_absorb ok _ b

theorem ghashFrom_append (h y : BitVec 128) (a b : List (BitVec 128)) :
    ghashFrom h y (a ++ b) = ghashFrom h (ghashFrom h y a) b := by
  simp [ghashFrom]

/-! ### counter increment -/

theorem toNat_append' {v w : Nat} (a : BitVec v) (b : BitVec w) :
    (a ++ b).toNat = a.toNat * 2 ^ w + b.toNat := by
  rw [BitVec.toNat_append, ← Nat.shiftLeft_add_eq_or_of_lt b.isLt, Nat.shiftLeft_eq]

theorem append_succ {v w : Nat} (hw : 0 < w) (a : BitVec v) (b : BitVec w) :
    (a ++ b) + 1#(v + w) = if b + 1#w = 0#w then (a + 1#v) ++ (b + 1#w) else a ++ (b + 1#w) := by
  have hb := b.isLt
  have ha := a.isLt
  have h1 : (1 : Nat) < 2 ^ w := Nat.one_lt_two_pow (by omega)
  have h1' : (1 : Nat) < 2 ^ (v + w) := Nat.one_lt_two_pow (by omega)
  have hpos : 0 < 2 ^ w := by omega
  have hp : 2 ^ (v + w) = 2 ^ v * 2 ^ w := Nat.pow_add ..
  split
  · next h =>
    have hz : (b.toNat + 1) % 2 ^ w = 0 := by
      have := congrArg BitVec.toNat h
      simpa [BitVec.toNat_add, Nat.mod_eq_of_lt h1] using this
    have hb' : b.toNat + 1 = 2 ^ w := by
      rcases Nat.lt_or_ge (b.toNat + 1) (2 ^ w) with h' | h'
      · rw [Nat.mod_eq_of_lt h'] at hz; omega
      · omega
    apply BitVec.eq_of_toNat_eq
    rw [h, BitVec.toNat_add, toNat_append', toNat_append']
    simp only [BitVec.toNat_ofNat, Nat.zero_mod, Nat.mod_eq_of_lt h1', Nat.add_zero, BitVec.toNat_add]
    have e : a.toNat * 2 ^ w + b.toNat + 1 = (a.toNat + 1) * 2 ^ w := by rw [Nat.add_mul]; omega
    rw [e, hp, Nat.mul_mod_mul_right]
    congr 1
    simp
  · next h =>
    have hne : b.toNat + 1 ≠ 2 ^ w := by
      intro h'
      apply h
      apply BitVec.eq_of_toNat_eq
      simp [BitVec.toNat_add, Nat.mod_eq_of_lt h1, h']
    have hlt : b.toNat + 1 < 2 ^ w := by omega
    apply BitVec.eq_of_toNat_eq
    rw [BitVec.toNat_add, toNat_append', toNat_append', BitVec.toNat_add]
    simp only [BitVec.toNat_ofNat, Nat.mod_eq_of_lt h1, Nat.mod_eq_of_lt h1', Nat.mod_eq_of_lt hlt]
    rw [Nat.mod_eq_of_lt]
    · omega
    · rw [hp]
      calc a.toNat * 2 ^ w + b.toNat + 1 < a.toNat * 2 ^ w + 2 ^ w := by omega
        _ = (a.toNat + 1) * 2 ^ w := by rw [Nat.add_mul]; omega
        _ ≤ 2 ^ v * 2 ^ w := Nat.mul_le_mul_right _ ha

/-- Last four bytes as a 32-bit number. -/
def lo32 (y : Block) : BitVec 32 := y[12] ++ y[13] ++ y[14] ++ y[15]

/-- First twelve bytes as a 96-bit string. -/
def hi96 (y : Block) : BitVec 96 :=
  y[0] ++ y[1] ++ y[2] ++ y[3] ++ y[4] ++ y[5] ++ y[6] ++ y[7] ++ y[8] ++ y[9] ++ y[10] ++ y[11]

theorem toBV_split (y : Block) : toBV y = (hi96 y ++ lo32 y : BitVec 128) := by
  have e : toBV y = (hi96 y ++ y[12] ++ y[13] ++ y[14] ++ y[15] : BitVec 128) := rfl
  rw [e, lo32]
  generalize hi96 y = h
  generalize y[12] = a
  generalize y[13] = b
  generalize y[14] = c
  generalize y[15] = d
  apply BitVec.eq_of_toNat_eq
  simp only [toNat_append']
  omega

theorem inc32_append (h : BitVec 96) (l : BitVec 32) : inc32 (h ++ l : BitVec 128) = (h ++ (l + 1#32) : BitVec 128) := by
  have e1 : (h ++ l : BitVec 128).extractLsb' 32 96 = h := by
    apply BitVec.eq_of_getLsbD_eq
    intro i hi
    simp only [BitVec.getLsbD_extractLsb', BitVec.getLsbD_append]
    simp [hi]
  have e2 : (h ++ l : BitVec 128).extractLsb' 0 32 = l := by
    apply BitVec.eq_of_getLsbD_eq
    intro i hi
    simp only [BitVec.getLsbD_extractLsb', BitVec.getLsbD_append]
    simp [hi]
  rw [inc32, e1, e2]

theorem incCtr_eq (y : Block) : toBV (incCtr y 4 (by decide)) = inc32 (toBV y) := by
  obtain ⟨x0, x1, x2, x3, x4, x5, x6, x7, x8, x9, x10, x11, x12, x13, x14, x15, rfl⟩ := block_cases y
  rw [toBV_split, toBV_split, inc32_append]
  have el : ∀ p q r s : Byte, lo32 #v[x0, x1, x2, x3, x4, x5, x6, x7, x8, x9, x10, x11, p, q, r, s] =
      (p ++ q ++ r ++ s : BitVec 32) := fun _ _ _ _ => rfl
  have eh : ∀ p q r s : Byte, hi96 #v[x0, x1, x2, x3, x4, x5, x6, x7, x8, x9, x10, x11, p, q, r, s] =
      hi96 #v[x0, x1, x2, x3, x4, x5, x6, x7, x8, x9, x10, x11, 0, 0, 0, 0] := fun _ _ _ _ => rfl
  have s15 : ∀ p q r s t : Byte, (#v[x0, x1, x2, x3, x4, x5, x6, x7, x8, x9, x10, x11, p, q, r, s] : Block).set (12 + 3) t
     = #v[x0, x1, x2, x3, x4, x5, x6, x7, x8, x9, x10, x11, p, q, r, t] := fun _ _ _ _ _ => rfl
  have s14 : ∀ p q r s t : Byte, (#v[x0, x1, x2, x3, x4, x5, x6, x7, x8, x9, x10, x11, p, q, r, s] : Block).set (12 + 2) t
     = #v[x0, x1, x2, x3, x4, x5, x6, x7, x8, x9, x10, x11, p, q, t, s] := fun _ _ _ _ _ => rfl
  have s13 : ∀ p q r s t : Byte, (#v[x0, x1, x2, x3, x4, x5, x6, x7, x8, x9, x10, x11, p, q, r, s] : Block).set (12 + 1) t
     = #v[x0, x1, x2, x3, x4, x5, x6, x7, x8, x9, x10, x11, p, t, r, s] := fun _ _ _ _ _ => rfl
  have s12 : ∀ p q r s t : Byte, (#v[x0, x1, x2, x3, x4, x5, x6, x7, x8, x9, x10, x11, p, q, r, s] : Block).set (12 + 0) t
     = #v[x0, x1, x2, x3, x4, x5, x6, x7, x8, x9, x10, x11, t, q, r, s] := fun _ _ _ _ _ => rfl
  have g15 : ∀ p q r s : Byte, (#v[x0, x1, x2, x3, x4, x5, x6, x7, x8, x9, x10, x11, p, q, r, s] : Block)[12 + 3] = s := fun _ _ _ _ => rfl
  have g14 : ∀ p q r s : Byte, (#v[x0, x1, x2, x3, x4, x5, x6, x7, x8, x9, x10, x11, p, q, r, s] : Block)[12 + 2] = r := fun _ _ _ _ => rfl
  have g13 : ∀ p q r s : Byte, (#v[x0, x1, x2, x3, x4, x5, x6, x7, x8, x9, x10, x11, p, q, r, s] : Block)[12 + 1] = q := fun _ _ _ _ => rfl
  have g12 : ∀ p q r s : Byte, (#v[x0, x1, x2, x3, x4, x5, x6, x7, x8, x9, x10, x11, p, q, r, s] : Block)[12 + 0] = p := fun _ _ _ _ => rfl
  simp only [incCtr, s15, s14, s13, s12, g15, g14, g13, g12]
  rw [el x12 x13 x14 x15, eh x12 x13 x14 x15]
  rw [show (x12 ++ x13 ++ x14 ++ x15 : BitVec 32) + 1#32 =
    ((x12 ++ x13 ++ x14) ++ x15 : BitVec (24 + 8)) + 1#(24 + 8) from rfl, append_succ (by decide),
    show (x12 ++ x13 ++ x14 : BitVec 24) + 1#24 =
    ((x12 ++ x13) ++ x14 : BitVec (16 + 8)) + 1#(16 + 8) from rfl, append_succ (by decide),
    show (x12 ++ x13 : BitVec 16) + 1#16 =
    (x12 ++ x13 : BitVec (8 + 8)) + 1#(8 + 8) from rfl, append_succ (by decide)]
  have ofn : ∀ x : Byte, (x + 1 ≠ 0) = ¬ (x + 1#8 = 0#8) := fun _ => rfl
  simp only [ofn]
  by_cases h15 : x15 + 1#8 = 0#8
  · by_cases h14 : x14 + 1#8 = 0#8
    · by_cases h13 : x13 + 1#8 = 0#8
      · have h13' : x13 + 1 = 0#8 := h13
        have h14' : x14 + 1 = 0#8 := h14
        have h15' : x15 + 1 = 0#8 := h15
        simp only [h15, h14, h13, h15', h14', h13', not_true, if_true, if_false]
        split <;> (rw [el, eh]; rfl)
      · simp only [h15, h14, h13, not_true, not_false_eq_true, if_true, if_false]
        rw [el, eh, show x15 + 1 = 0#8 from h15, show x14 + 1 = 0#8 from h14]; rfl
    · simp only [h15, h14, not_true, not_false_eq_true, if_true, if_false]
      rw [el, eh, show x15 + 1 = 0#8 from h15]; rfl
  · simp only [h15, not_false_eq_true, if_true, if_false]
    rw [el, eh]; rfl

theorem incCtr_eq_ofBV (y : Block) : incCtr y 4 (by decide) = ofBV (inc32 (toBV y)) := by
  rw [← incCtr_eq, ofBV_toBV]

end Verif
