import Verif.Spec.WbaesExtract
import Verif.Lemmas.AesSpan
import Verif.Lemmas.AesEval
import Verif.Props.Wbaes
import Mathlib.Data.Fintype.Pigeonhole

/-! Property C81: the tables of white-box AES reveal the key. -/
set_option autoImplicit false

namespace Verif.Props
open Verif Spec Model

theorem mem_eachByte (b : Byte) : b ∈ eachByte := List.mem_map.2 ⟨b.toFin, List.mem_finRange _, rfl⟩

/-- The linear part of the S-box. -/
def aesLin (b : Byte) : Byte := b ^^^ b.rotateLeft 1 ^^^ b.rotateLeft 2 ^^^ b.rotateLeft 3 ^^^ b.rotateLeft 4

theorem rot8_xor (a b : Byte) (n : Nat) : (a ^^^ b).rotateLeft n = a.rotateLeft n ^^^ b.rotateLeft n := by
  ext i hi
  simp only [BitVec.getElem_xor, BitVec.getElem_rotateLeft]
  split <;> rfl

theorem aesLin_xor (a b : Byte) : aesLin (a ^^^ b) = aesLin a ^^^ aesLin b := by
  simp only [aesLin, rot8_xor]
  ac_rfl

theorem aesSbox_lin (a : Byte) : aesSbox a = aesLin (aesInv a) ^^^ 0x63 := rfl

theorem aesLin_one : aesLin 1 ≠ 0 := by decide

theorem aesMul_two_three (x : Byte) : aesMul 2 x = xtime x ∧ aesMul 3 x = xtime x ^^^ x := by
  have h : ∀ x : BitVec 8, aesMul 2 x = xtime x ∧ aesMul 3 x = xtime x ^^^ x := by decide +kernel
  exact h x

theorem tyi_xor (t : Fin 4) (x y : Byte) : tyi t (x ^^^ y) = tyi t x ^^^ tyi t y := by
  have e2 : ∀ x y, aesMul 2 (x ^^^ y) = aesMul 2 x ^^^ aesMul 2 y := by
    intro x y; simp only [(aesMul_two_three _).1, xtime_xor]
  have e3 : ∀ x y, aesMul 3 (x ^^^ y) = aesMul 3 x ^^^ aesMul 3 y := by
    intro x y; simp only [(aesMul_two_three _).2, xtime_xor]; ac_rfl
  have ha : ∀ a b c d a' b' c' d' : Byte, (((a ^^^ a') ++ (b ^^^ b')) ++ ((c ^^^ c') ++ (d ^^^ d')) : BitVec 32) =
      ((a ++ b) ++ (c ++ d) : BitVec 32) ^^^ ((a' ++ b') ++ (c' ++ d') : BitVec 32) := by
    intros
    rw [BitVec.xor_append, BitVec.xor_append, BitVec.xor_append]
  have h4 : t = 0 ∨ t = 1 ∨ t = 2 ∨ t = 3 := by omega
  rcases h4 with rfl | rfl | rfl | rfl
  · simp only [(tyi_append _).1, e2, e3, ha]
  · simp only [(tyi_append _).2.1, e2, e3, ha]
  · simp only [(tyi_append _).2.2.1, e2, e3, ha]
  · simp only [(tyi_append _).2.2.2, e2, e3, ha]

theorem tyi_ne_zero (t : Fin 4) (x : Byte) (h : tyi t x = 0) : x = 0 := by
  have z : ∀ s, wbyte (0 : BitVec 32) s = 0 := by decide
  have h4 : t = 0 ∨ t = 1 ∨ t = 2 ∨ t = 3 := by omega
  rcases h4 with rfl | rfl | rfl | rfl
  · rw [(tyi_append _).1] at h
    rw [← (wbyte_app (aesMul 2 x) x x (aesMul 3 x)).2.1, h, z]
  · rw [(tyi_append _).2.1] at h
    rw [← (wbyte_app (aesMul 3 x) (aesMul 2 x) x x).2.2.1, h, z]
  · rw [(tyi_append _).2.2.1] at h
    rw [← (wbyte_app x (aesMul 3 x) (aesMul 2 x) x).1, h, z]
  · rw [(tyi_append _).2.2.2] at h
    rw [← (wbyte_app x x (aesMul 3 x) (aesMul 2 x)).1, h, z]

/-- An additive map from eight bits to four has a period. -/
theorem additive_kernel (φ : Byte → BitVec 4) (hφ : ∀ x y, φ (x ^^^ y) = φ x ^^^ φ y) : ∃ w, w ≠ 0 ∧ φ w = 0 := by
  obtain ⟨i, j, hij, h⟩ := Fintype.exists_ne_map_eq_of_card_lt (fun i : Fin 17 => (φ (BitVec.ofNat 8 i.1)).toFin) (by simp)
  refine ⟨BitVec.ofNat 8 i.1 ^^^ BitVec.ofNat 8 j.1, ?_, ?_⟩
  · intro h0
    apply hij
    have := BitVec.xor_eq_zero_iff.1 h0
    have := congrArg BitVec.toNat this
    simp only [BitVec.toNat_ofNat] at this
    apply Fin.ext
    omega
  · have h' : φ (BitVec.ofNat 8 i.1) = φ (BitVec.ofNat 8 j.1) := BitVec.eq_of_toFin_eq h
    rw [hφ, h', BitVec.xor_self]
    rfl

/-- What the test says for a table `x ↦ P (M (S (x + key)))`. -/
theorem period_iff (M : Byte → BitVec 32) (hM : ∀ x y, M (x ^^^ y) = M x ^^^ M y) (h1 : ∀ x, M x = 0 → x = 0)
    (P : Fin 8 → NibPerm) (hP : ∀ k, (P k).Ok) (key k : Byte) (f : Byte → BitVec 32)
    (hf : ∀ x, f x = WbaesEnc.applyOut P (M (aesSbox (x ^^^ key)))) :
    (∀ m : Fin 8, ∃ w : Byte, w ≠ 0 ∧ ∀ t, nib (f (aesInv t ^^^ k)) m = nib (f (aesInv (t ^^^ w) ^^^ k)) m) ↔ k = key := by
  let φ : Fin 8 → Byte → BitVec 4 := fun m z => nib (M (aesLin z)) m
  have hφ : ∀ m x y, φ m (x ^^^ y) = φ m x ^^^ φ m y := by
    intro m x y
    simp only [φ, aesLin_xor, hM, nib_xor]
  have hn : ∀ m a b, nib (f a) m = nib (f b) m ↔ φ m (aesInv (a ^^^ key) ^^^ aesInv (b ^^^ key)) = 0 := by
    intro m a b
    rw [hf, hf]
    simp only [WbaesEnc.applyOut, nib_join]
    have inj : ∀ x y, (P m).fwd x = (P m).fwd y ↔ x = y := fun x y =>
      ⟨fun h => by rw [← (hP m).1 x, h, (hP m).1], fun h => by rw [h]⟩
    rw [inj, hφ, aesSbox_lin, aesSbox_lin, hM, hM, nib_xor, nib_xor, BitVec.xor_left_inj]
    exact BitVec.xor_eq_zero_iff.symm
  constructor
  · intro h
    rcases Classical.em (k = key) with e | e
    · exact e
    · exfalso
      have hd : k ^^^ key ≠ 0 := fun h0 => e (BitVec.xor_eq_zero_iff.1 h0)
      have hz : ∀ m z, φ m z = 0 := by
        intro m
        obtain ⟨w, hw, hp⟩ := h m
        apply spanning_all (k ^^^ key) hd w hw (φ m) (hφ m)
        intro t
        have := (hn m _ _).1 (hp t)
        rwa [BitVec.xor_assoc, BitVec.xor_assoc] at this
      have : M (aesLin 1) = 0 := by
        apply BitVec.eq_of_getLsbD_eq
        intro i hi
        have h2 := congrArg (fun v : BitVec 4 => v.getLsbD (i % 4)) (hz ⟨7 - i / 4, by omega⟩ 1)
        simp only [φ, nib_bit _ _ _ (Nat.mod_lt i (by decide : 0 < 4))] at h2
        rw [show 28 - 4 * (7 - i / 4) + i % 4 = i by omega] at h2
        simpa using h2
      exact aesLin_one (h1 _ this)
  · rintro rfl m
    obtain ⟨w, hw, h0⟩ := additive_kernel (φ m) (hφ m)
    refine ⟨w, hw, fun t => ?_⟩
    rw [hn, BitVec.xor_assoc, BitVec.xor_assoc, BitVec.xor_self, BitVec.xor_zero, BitVec.xor_zero, aesInv_inv, aesInv_inv,
      ← BitVec.xor_assoc, BitVec.xor_self, BitVec.zero_xor, h0]

theorem firstLook_eq (r : WbaesRnd) (out : Fin 16 → Byte → Byte) (key : Block) (j : Fin 16) (x : Byte) :
    firstLook (r.enc.tables (shiftKeys (expandKey r.junkKey key)) out) j x = WbaesEnc.applyOut (r.enc.outII 0 j)
      (matMulNum (r.enc.MB 0 (colOf j)).mat (tyi (rowOf j) (aesSbox (x ^^^ key[shiftTab[j]])))) := by
  have hd := typeIa_dec r.enc (enc_ok r) (shiftKeys (expandKey r.junkKey key)) out shiftTab[j] x
  have hk := shiftKeys_spec r.junkKey key 0 (by decide) j
  rw [roundKey_zero] at hk
  show (r.enc.tables _ _).typeII 0 j ((r.enc.tables _ _).typeIa shiftTab[j] x) = _
  rw [← hk, ← wbaesSbox_eq]
  conv => rhs; rw [← hd]
  rfl

theorem findKeyByte_eq (r : WbaesRnd) (out : Fin 16 → Byte → Byte) (key : Block) (j : Fin 16) :
    findKeyByte (r.enc.tables (shiftKeys (expandKey r.junkKey key)) out) j = key[shiftTab[j]] := by
  have hMB := (enc_ok r).MB 0 (colOf j)
  have key' : ∀ k : Byte, ((List.finRange 8).all fun m => hasPeriod (r.enc.tables (shiftKeys (expandKey r.junkKey key)) out) j k m) = true ↔
      k = key[shiftTab[j]] := by
    intro k
    rw [← period_iff (fun y => matMulNum (r.enc.MB 0 (colOf j)).mat (tyi (rowOf j) y)) (fun x y => by rw [tyi_xor, matMulNum_xor])
      (fun x hx => tyi_ne_zero (rowOf j) x (by
        have h0 : matMulNum (r.enc.MB 0 (colOf j)).mat 0 = 0 := by
          have := matMulNum_xor (r.enc.MB 0 (colOf j)).mat 0 0
          rw [BitVec.xor_self, BitVec.xor_self] at this
          exact this
        exact (hMB.1 (tyi (rowOf j) x)).symm.trans ((congrArg _ (hx.trans h0.symm)).trans (hMB.1 0))))
      (r.enc.outII 0 j) ((enc_ok r).outII 0 j) key[shiftTab[j]] k (firstLook (r.enc.tables (shiftKeys (expandKey r.junkKey key)) out) j) (firstLook_eq r out key j),
      List.all_eq_true]
    constructor
    · intro h m
      obtain ⟨w, -, hw⟩ := List.any_eq_true.1 (h m (List.mem_finRange _))
      rw [Bool.and_eq_true, bne_iff_ne] at hw
      exact ⟨w, hw.1, fun t => eq_of_beq (List.all_eq_true.1 hw.2 t (mem_eachByte t))⟩
    · intro h m _
      obtain ⟨w, hw, ht⟩ := h m
      refine List.any_eq_true.2 ⟨w, mem_eachByte w, ?_⟩
      rw [Bool.and_eq_true, bne_iff_ne]
      exact ⟨hw, List.all_eq_true.2 fun t _ => beq_iff_eq.2 (ht t)⟩
  unfold findKeyByte
  cases hf : eachByte.find? fun k => (List.finRange 8).all fun m => hasPeriod (r.enc.tables (shiftKeys (expandKey r.junkKey key)) out) j k m with
  | none => exact absurd ((key' _).2 rfl) (List.find?_eq_none.1 hf _ (mem_eachByte _))
  | some k =>
    have h := List.find?_some (p := fun k => (List.finRange 8).all fun m => hasPeriod (r.enc.tables (shiftKeys (expandKey r.junkKey key)) out) j k m) hf
    exact (key' k).1 h

theorem shift_unshift (s : Fin 16) : shiftTab[unshiftTab[s]] = s := by
  have h : ∀ s : Fin 16, shiftTab[unshiftTab[s]] = s := by decide
  exact h s

/-- The key is found whatever is done to the last round. -/
theorem extract_tables (r : WbaesRnd) (out : Fin 16 → Byte → Byte) (key : Block) :
    wbaesExtract (r.enc.tables (shiftKeys (expandKey r.junkKey key)) out) = key := by
  apply Vector.ext
  intro s hs
  rw [wbaesExtract, Vector.getElem_ofFn, findKeyByte_eq]
  have h := congrArg (fun i : Fin 16 => key[i]) (shift_unshift ⟨s, hs⟩)
  exact h

/-- C81: the tables of white-box AES give away the key, whatever the random numbers. -/
theorem C81_wbaes_key_extraction (r : WbaesRnd) (ro : Fin 16 → Fin 2 → Nat → BitVec 32) (key : Block) :
    wbaesExtract (wbaesGenTable r ro key).tab = key := extract_tables r _ key

/-- So two keys never give the same tables, whatever random numbers are used for each. -/
theorem C81_tables_differ (r r' : WbaesRnd) (ro ro' : Fin 16 → Fin 2 → Nat → BitVec 32) (key key' : Block)
    (h : wbaesGenTable r ro key = wbaesGenTable r' ro' key') : key = key' := by
  rw [← C81_wbaes_key_extraction r ro key, h, C81_wbaes_key_extraction]

end Verif.Props
