import Verif.Spec.Gcm
import Verif.Model.Gcm

/-! Linearity of `mulx`, Horner form of `gfMul`, and the 4-bit table method. -/
set_option autoImplicit false

namespace Verif
open Spec Model

theorem mulx_eq (v : BitVec 128) : mulx v = (v >>> 1) ^^^ (if v.getLsbD 0 then gfR else 0) := by
  unfold mulx; split <;> simp

theorem mulx_xor (a b : BitVec 128) : mulx (a ^^^ b) = mulx a ^^^ mulx b := by
  simp only [mulx_eq, BitVec.ushiftRight_xor_distrib, BitVec.getLsbD_xor]
  cases a.getLsbD 0 <;> cases b.getLsbD 0 <;> simp
  · ac_rfl
  · ac_rfl
  · have : ∀ p q r : BitVec 128, p ^^^ q = p ^^^ r ^^^ (q ^^^ r) := by
      intro p q r
      have : p ^^^ r ^^^ (q ^^^ r) = p ^^^ q ^^^ (r ^^^ r) := by ac_rfl
      rw [this]; simp
    exact this _ _ _

@[simp] theorem mulx_zero : mulx 0#128 = 0#128 := by decide

/-- Conditional value. -/
def sel (b : Bool) (v : BitVec 128) : BitVec 128 := if b then v else 0

theorem mulx_sel (b : Bool) (v : BitVec 128) : mulx (sel b v) = sel b (mulx v) := by
  cases b <;> simp [sel]

/-- Horner evaluation of the bit list `bits` (first bit = degree 0). -/
def horner (y : BitVec 128) (bits : List Bool) : BitVec 128 :=
  bits.foldr (fun b z => mulx z ^^^ sel b y) 0

theorem horner_mulx (y : BitVec 128) (bits : List Bool) : horner (mulx y) bits = mulx (horner y bits) := by
  induction bits with
  | nil => simp [horner]
  | cons b bits ih =>
    simp only [horner, List.foldr_cons] at ih ⊢
    rw [ih, mulx_xor, mulx_sel]

theorem foldl_gfMul (bits : List Bool) : ∀ (z v : BitVec 128),
    (bits.foldl (fun (zv : BitVec 128 × BitVec 128) b =>
      (if b then zv.1 ^^^ zv.2 else zv.1, mulx zv.2)) (z, v)).1 = z ^^^ horner v bits := by
  induction bits with
  | nil => intro z v; simp [horner]
  | cons b bits ih =>
    intro z v
    rw [List.foldl_cons, ih, horner_mulx]
    cases b <;> simp [horner, sel] <;> ac_rfl

/-- The bits of `x` from the left. -/
def msbBits (x : BitVec 128) : List Bool := (List.range 128).map x.getMsbD

theorem gfMul_eq_horner (x y : BitVec 128) : gfMul x y = horner y (msbBits x) := by
  have h := foldl_gfMul (msbBits x) 0 y
  rw [msbBits, List.foldl_map] at h
  rw [gfMul, h, msbBits]; simp

theorem horner_append (y : BitVec 128) (a b : List Bool) :
    horner y (a ++ b) = a.foldr (fun b z => mulx z ^^^ sel b y) (horner y b) := by
  simp [horner]

/-- The four bits of a nibble from the left. -/
def nibBits (n : BitVec 4) : List Bool := [n.getLsbD 3, n.getLsbD 2, n.getLsbD 1, n.getLsbD 0]

/-- Value of the table at `n`: the product of the four-bit polynomial `n` with `h`. -/
def nibVal (h : BitVec 128) (n : BitVec 4) : BitVec 128 := horner h (nibBits n)

def mulx4 (z : BitVec 128) : BitVec 128 := mulx (mulx (mulx (mulx z)))

theorem mulx4_xor (a b : BitVec 128) : mulx4 (a ^^^ b) = mulx4 a ^^^ mulx4 b := by
  simp [mulx4, mulx_xor]

theorem horner_nib (y : BitVec 128) (n : BitVec 4) (rest : List Bool) :
    horner y (nibBits n ++ rest) = mulx4 (horner y rest) ^^^ nibVal y n := by
  rw [horner_append, nibVal]
  generalize horner y rest = r
  simp [nibBits, horner, mulx4, mulx_xor]
  ac_rfl

/-- Bits of a byte list. -/
def nibsOf (b : Byte) : List (BitVec 4) := [(b >>> 4).truncate 4, b.truncate 4]

theorem msbBits_byte (b : Byte) :
    nibBits ((b >>> 4).truncate 4) ++ nibBits (b.truncate 4) =
      [b.getLsbD 7, b.getLsbD 6, b.getLsbD 5, b.getLsbD 4, b.getLsbD 3, b.getLsbD 2, b.getLsbD 1, b.getLsbD 0] := by
  simp [nibBits]

/-- Bits of a block from the left, byte by byte. -/
def blkBits (x : Block) : List Bool :=
  x.toList.flatMap fun b =>
    [b.getLsbD 7, b.getLsbD 6, b.getLsbD 5, b.getLsbD 4, b.getLsbD 3, b.getLsbD 2, b.getLsbD 1, b.getLsbD 0]

/-- Bit `8*i + j` (from the left) of the string of a block is bit `7 - j` of byte `i`. -/
theorem toBV_getLsbD (x : Block) (k : Nat) (h : k < 128) :
    (toBV x).getLsbD k = (x[15 - k / 8]).getLsbD (k % 8) := by
  unfold toBV
  simp only [BitVec.getLsbD_append]
  have hk : k / 8 < 16 := by omega
  obtain ⟨q, r, hr, rfl⟩ : ∃ q r, r < 8 ∧ k = 8 * q + r :=
    ⟨k / 8, k % 8, Nat.mod_lt _ (by decide), by omega⟩
  have hq : (8 * q + r) / 8 = q := by omega
  have hr' : (8 * q + r) % 8 = r := by omega
  have hx : ∀ (i : Nat) (hi : i < 16) (hi' : i = 15 - q), (x[15 - (8 * q + r) / 8]'(by omega)).getLsbD r
      = (x[i]).getLsbD r := by
    intro i hi hi'
    have : 15 - (8 * q + r) / 8 = i := by omega
    simp only [this]
  have hq16 : q < 16 := by omega
  rw [hr', hx (15 - q) (by omega) rfl]
  have hc : q = 0 ∨ q = 1 ∨ q = 2 ∨ q = 3 ∨ q = 4 ∨ q = 5 ∨ q = 6 ∨ q = 7 ∨ q = 8 ∨ q = 9 ∨ q = 10 ∨
      q = 11 ∨ q = 12 ∨ q = 13 ∨ q = 14 ∨ q = 15 := by omega
  rcases hc with rfl | rfl | rfl | rfl | rfl | rfl | rfl | rfl | rfl | rfl | rfl | rfl | rfl | rfl |
    rfl | rfl <;>
  · simp only [Nat.reduceMul, Nat.reduceSub, Nat.zero_add, hr, if_true]
    repeat (first
      | rw [if_neg (by omega)]
      | rw [if_pos (by omega)])
    try exact congrArg (BitVec.getLsbD _) (by omega)

theorem ofBV_toBV (x : Block) : ofBV (toBV x) = x := by
  apply Vector.ext
  intro i hi
  simp only [ofBV, Vector.getElem_ofFn]
  apply BitVec.eq_of_getLsbD_eq
  intro j hj
  simp only [BitVec.getLsbD_extractLsb', hj, decide_true, Bool.true_and]
  rw [toBV_getLsbD x _ (by omega)]
  have h1 : 15 - (120 - 8 * i + j) / 8 = i := by omega
  have h2 : (120 - 8 * i + j) % 8 = j := by omega
  simp only [h1, h2]

theorem toBV_ofBV (v : BitVec 128) : toBV (ofBV v) = v := by
  apply BitVec.eq_of_getLsbD_eq
  intro k hk
  rw [toBV_getLsbD _ k hk]
  simp only [ofBV, Vector.getElem_ofFn, BitVec.getLsbD_extractLsb']
  have h1 : k % 8 < 8 := Nat.mod_lt _ (by decide)
  have h2 : 120 - 8 * (15 - k / 8) + k % 8 = k := by omega
  simp [h1, h2]

theorem toBV_injective {x y : Block} (h : toBV x = toBV y) : x = y := by
  rw [← ofBV_toBV x, h, ofBV_toBV]

theorem toBV_xor (x y : Block) : toBV (x ^^^ y) = toBV x ^^^ toBV y := by
  apply BitVec.eq_of_getLsbD_eq
  intro k hk
  rw [BitVec.getLsbD_xor, toBV_getLsbD _ k hk, toBV_getLsbD _ k hk, toBV_getLsbD _ k hk,
    Vec.getElem_xor, BitVec.getLsbD_xor]

theorem ofBV_xor (x y : BitVec 128) : ofBV (x ^^^ y) = ofBV x ^^^ ofBV y := by
  apply toBV_injective; rw [toBV_xor]; simp [toBV_ofBV]

@[simp] theorem toBV_zero : toBV zeroBlock = 0 := by decide

/-- A block is its sixteen bytes. -/
theorem block_cases (x : Block) : ∃ x0 x1 x2 x3 x4 x5 x6 x7 x8 x9 x10 x11 x12 x13 x14 x15,
    x = #v[x0, x1, x2, x3, x4, x5, x6, x7, x8, x9, x10, x11, x12, x13, x14, x15] := by
  refine ⟨x[0], x[1], x[2], x[3], x[4], x[5], x[6], x[7], x[8], x[9], x[10], x[11], x[12], x[13],
    x[14], x[15], ?_⟩
  apply Vector.ext
  intro i hi
  match i, hi with
  | 0, _ | 1, _ | 2, _ | 3, _ | 4, _ | 5, _ | 6, _ | 7, _ | 8, _ | 9, _ | 10, _ | 11, _ | 12, _ | 13, _ | 14, _ | 15, _ => rfl
  | n + 16, h => omega

theorem msbBits_toBV (x : Block) : msbBits (toBV x) =
    ([15, 14, 13, 12, 11, 10, 9, 8, 7, 6, 5, 4, 3, 2, 1, 0] : List (Fin 16)).foldl (init := [])
      (fun acc (i : Fin 16) => nibBits ((x[i] >>> 4).truncate 4) ++ (nibBits (x[i].truncate 4) ++ acc)) := by
  have hm : ∀ k ∈ List.range 128,
      (toBV x).getMsbD k = (x.toList.getD (k / 8) 0).getLsbD (7 - k % 8) := by
    intro k hk
    have hk : k < 128 := List.mem_range.mp hk
    have hk8 : k / 8 < 16 := by omega
    rw [BitVec.getMsbD_eq_getLsbD, toBV_getLsbD _ _ (by omega)]
    have h1 : 15 - (128 - 1 - k) / 8 = k / 8 := by omega
    have h2 : (128 - 1 - k) % 8 = 7 - k % 8 := by omega
    simp [hk, h1, h2, hk8]
  rw [msbBits, List.map_congr_left hm]
  have hb : ∀ (b : Byte) (acc : List Bool),
      nibBits ((b >>> 4).truncate 4) ++ (nibBits (b.truncate 4) ++ acc) =
      b.getLsbD 7 :: b.getLsbD 6 :: b.getLsbD 5 :: b.getLsbD 4 :: b.getLsbD 3 :: b.getLsbD 2 ::
      b.getLsbD 1 :: b.getLsbD 0 :: acc := by
    intro b acc; rw [← List.append_assoc, msbBits_byte]; rfl
  simp only [hb]
  obtain ⟨x0, x1, x2, x3, x4, x5, x6, x7, x8, x9, x10, x11, x12, x13, x14, x15, rfl⟩ := block_cases x
  rfl

end Verif
