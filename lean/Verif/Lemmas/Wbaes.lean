import Verif.Model.Wbaes
import Verif.Spec.Aes
import Verif.Lemmas.Wb

/-! White-box AES: nibble words, AES arithmetic, key expansion and the table network. -/
set_option autoImplicit false
set_option linter.unusedSimpArgs false

namespace Verif
open Spec Model Props

/-! ### nibbles -/

theorem hiNib_join (h l : Nib) : hiNib (joinByte h l) = h := by
  have : ∀ h l : BitVec 4, hiNib (joinByte h l) = h := by decide +kernel
  exact this h l

theorem loNib_join (h l : Nib) : loNib (joinByte h l) = l := by
  have : ∀ h l : BitVec 4, loNib (joinByte h l) = l := by decide +kernel
  exact this h l

theorem join_nibs (x : Byte) : joinByte (hiNib x) (loNib x) = x := by
  have : ∀ x : BitVec 8, joinByte (hiNib x) (loNib x) = x := by decide +kernel
  exact this x

theorem nib_bit (x : BitVec 32) (k : Fin 8) (i : Nat) (hi : i < 4) : (nib x k).getLsbD i = x.getLsbD (28 - 4 * k.1 + i) := by
  simp [nib, hi]

theorem joinNib_bit (v : Fin 8 → Nib) (k : Fin 8) (i : Nat) (hi : i < 4) :
    (joinNib v).getLsbD (28 - 4 * k.1 + i) = (v k).getLsbD i := by
  have h8 : ∀ k : Fin 8, k = 0 ∨ k = 1 ∨ k = 2 ∨ k = 3 ∨ k = 4 ∨ k = 5 ∨ k = 6 ∨ k = 7 := by decide
  have h4 : i = 0 ∨ i = 1 ∨ i = 2 ∨ i = 3 := by omega
  rcases h8 k with rfl | rfl | rfl | rfl | rfl | rfl | rfl | rfl <;> rcases h4 with rfl | rfl | rfl | rfl <;>
    simp only [show (((0) : Fin 8) : Nat) = 0 from rfl, show (((1) : Fin 8) : Nat) = 1 from rfl, show (((2) : Fin 8) : Nat) = 2 from rfl, show (((3) : Fin 8) : Nat) = 3 from rfl, show (((4) : Fin 8) : Nat) = 4 from rfl, show (((5) : Fin 8) : Nat) = 5 from rfl, show (((6) : Fin 8) : Nat) = 6 from rfl, show (((7) : Fin 8) : Nat) = 7 from rfl] <;> simp [joinNib]

theorem nib_join (v : Fin 8 → Nib) (k : Fin 8) : nib (joinNib v) k = v k := by
  apply BitVec.eq_of_getLsbD_eq
  intro i hi
  rw [nib_bit _ _ _ hi, joinNib_bit _ _ _ hi]

theorem nib_xor (x y : BitVec 32) (k : Fin 8) : nib (x ^^^ y) k = nib x k ^^^ nib y k := by
  apply BitVec.eq_of_getLsbD_eq
  intro i hi
  rw [nib_bit _ _ _ hi, BitVec.getLsbD_xor, BitVec.getLsbD_xor, nib_bit _ _ _ hi, nib_bit _ _ _ hi]

/-- Byte `t` of a word, counted from the most significant. -/
def wbyte (x : BitVec 32) (t : Fin 4) : Byte := (x >>> (24 - 8 * t.1)).truncate 8

theorem join_nib_byte (x : BitVec 32) (t : Fin 4) : joinByte (nib x (nibHi t)) (nib x (nibLo t)) = wbyte x t := by
  rw [← join_nibs (wbyte x t)]
  have h4 : ∀ t : Fin 4, t = 0 ∨ t = 1 ∨ t = 2 ∨ t = 3 := by decide
  congr 1 <;> apply BitVec.eq_of_getLsbD_eq <;> intro i hi <;> rw [nib_bit _ _ _ hi] <;>
    rcases h4 t with rfl | rfl | rfl | rfl <;> simp only [show (((0) : Fin 4) : Nat) = 0 from rfl, show (((1) : Fin 4) : Nat) = 1 from rfl, show (((2) : Fin 4) : Nat) = 2 from rfl, show (((3) : Fin 4) : Nat) = 3 from rfl, nibHi, nibLo] <;> simp [hiNib, loNib, wbyte, nibHi, nibLo, hi] <;> grind

theorem wbyte_xor (x y : BitVec 32) (t : Fin 4) : wbyte (x ^^^ y) t = wbyte x t ^^^ wbyte y t := by
  rw [wbyte, shift_xor, trunc_xor]; rfl

theorem wbyte_app (a b c d : Byte) : wbyte ((a ++ b) ++ (c ++ d) : BitVec 32) 0 = a ∧ wbyte ((a ++ b) ++ (c ++ d) : BitVec 32) 1 = b ∧
    wbyte ((a ++ b) ++ (c ++ d) : BitVec 32) 2 = c ∧ wbyte ((a ++ b) ++ (c ++ d) : BitVec 32) 3 = d := by
  have h := extract_append4 a b c d
  unfold wordBytes at h
  have h0 := congrArg (fun v : Vector Byte 4 => v[0]) h
  have h1 := congrArg (fun v : Vector Byte 4 => v[1]) h
  have h2 := congrArg (fun v : Vector Byte 4 => v[2]) h
  have h3 := congrArg (fun v : Vector Byte 4 => v[3]) h
  simp only [wbyte, trunc_shift]
  exact ⟨h0, h1, h2, h3⟩

theorem word_of_bytes (x : BitVec 32) : ((wbyte x 0 ++ wbyte x 1) ++ (wbyte x 2 ++ wbyte x 3) : BitVec 32) = x := by
  simp only [wbyte, trunc_shift]
  exact append4_extract x

theorem wbyte_sum (x : BitVec 32) :
    ((wbyte x 0).zeroExtend 32 <<< (24 - 8 * (0 : Fin 4).1)) ^^^ ((wbyte x 1).zeroExtend 32 <<< (24 - 8 * (1 : Fin 4).1)) ^^^
      ((wbyte x 2).zeroExtend 32 <<< (24 - 8 * (2 : Fin 4).1)) ^^^ ((wbyte x 3).zeroExtend 32 <<< (24 - 8 * (3 : Fin 4).1)) = x := by
  have h : ((wbyte x 3).zeroExtend 32 <<< (24 - 8 * (3 : Fin 4).1) : BitVec 32) = (wbyte x 3).zeroExtend 32 := BitVec.shiftLeft_zero _
  rw [h]
  have := (or4_eq_xor (wbyte x 0) (wbyte x 1) (wbyte x 2) (wbyte x 3)).symm.trans (or4_eq_append _ _ _ _)
  rw [word_of_bytes] at this
  exact this

/-- Bytes of a block-diagonal matrix product. -/
theorem com_wbyte (M : Fin 4 → Mat 8) (x : BitVec 32) (t : Fin 4) :
    wbyte (matMulNum (matrixcom8to32 (M 0) (M 1) (M 2) (M 3)) x) t = matMulNum (M t) (wbyte x t) := by
  have hx := matMulNum_com (M 0) (M 1) (M 2) (M 3) (wbyte x 0) (wbyte x 1) (wbyte x 2) (wbyte x 3)
  rw [append4_assoc, append4_assoc, word_of_bytes] at hx
  rw [hx]
  obtain ⟨h0, h1, h2, h3⟩ := wbyte_app (matMulNum (M 0) (wbyte x 0)) (matMulNum (M 1) (wbyte x 1)) (matMulNum (M 2) (wbyte x 2))
    (matMulNum (M 3) (wbyte x 3))
  have h4 : ∀ t : Fin 4, t = 0 ∨ t = 1 ∨ t = 2 ∨ t = 3 := by decide
  rcases h4 t with rfl | rfl | rfl | rfl
  · exact h0
  · exact h1
  · exact h2
  · exact h3

/-! ### AES arithmetic -/

theorem gMul_two (x : Byte) : gMul 2 x = aesMul 2 x := by
  have : ∀ x : BitVec 8, gMul 2 x = aesMul 2 x := by decide +kernel
  exact this x

theorem gMul_three (x : Byte) : gMul 3 x = aesMul 3 x := by
  have : ∀ x : BitVec 8, gMul 3 x = aesMul 3 x := by decide +kernel
  exact this x

theorem wbaesSbox_eq (x : Byte) : WBAES_SBOX[x.toFin] = aesSbox x := by
  have : ∀ x : BitVec 8, WBAES_SBOX[x.toFin] = aesSbox x := by decide +kernel
  exact this x

theorem wbaesRcon_eq : ∀ i : Fin 10, (WBAES_RCON[i.1 + 1]?.getD 0) = (aesRcon (i.1 + 1))[0] := by decide +kernel

/-! ### key expansion -/

theorem expandStep_same (e : Nat → Byte) (i : Nat) (a : Nat) (h : a < 4 * i) : expandStep e i a = e a := by
  simp only [expandStep]
  rw [if_neg (by omega), if_neg (by omega), if_neg (by omega), if_neg (by omega)]

theorem aesWord_low (key : Block) (i : Nat) (h : i < 4) : aesWord key i = #v[key[4 * i], key[4 * i + 1], key[4 * i + 2], key[4 * i + 3]] := by
  rw [aesWord, dif_pos h]

theorem aesWord_high (key : Block) (i : Nat) (h : 4 ≤ i) : aesWord key i = (aesWord key (i - 4)).xor
    (if i % 4 = 0 then (subRot (aesWord key (i - 1))).xor (aesRcon (i / 4)) else aesWord key (i - 1)) := by
  rw [aesWord, dif_neg (by omega)]

theorem expand_spec (junk : Nat → Byte) (key : Block) (n : Nat) (hn : n ≤ 40) (i : Nat) (hi : i < 4 + n) (r : Fin 4) :
    (List.range' 4 n).foldl expandStep (fun a => if h : a < 16 then key[a] else junk a) (4 * i + r.1) = (aesWord key i)[r] := by
  have h4 : ∀ t : Fin 4, t = 0 ∨ t = 1 ∨ t = 2 ∨ t = 3 := by decide
  induction n generalizing i r with
  | zero =>
    simp only [List.range'_zero, List.foldl_nil]
    rw [dif_pos (by omega), aesWord_low key i (by omega)]
    rcases h4 r with rfl | rfl | rfl | rfl <;> rfl
  | succ n ih =>
    rw [List.range'_1_concat, List.foldl_append, List.foldl_cons, List.foldl_nil]
    replace ih := ih (by omega)
    generalize List.foldl expandStep _ (List.range' 4 n) = e at ih ⊢
    by_cases hlt : i < 4 + n
    · rw [expandStep_same _ _ _ (by omega)]
      exact ih i hlt r
    · have hin : i = 4 + n := by omega
      subst hin
      rw [aesWord_high key (4 + n) (by omega)]
      have p0 := ih (4 + n - 1) (by omega) 0
      have p1 := ih (4 + n - 1) (by omega) 1
      have p2 := ih (4 + n - 1) (by omega) 2
      have p3 := ih (4 + n - 1) (by omega) 3
      have q := ih (4 + n - 4) (by omega) r
      generalize aesWord key (4 + n - 1) = w at p0 p1 p2 p3 ⊢
      generalize aesWord key (4 + n - 4) = u at q ⊢
      replace p0 : e (4 * (4 + n - 1)) = w[0] := p0
      replace p1 : e (4 * (4 + n - 1) + 1) = w[1] := p1
      replace p2 : e (4 * (4 + n - 1) + 2) = w[2] := p2
      replace p3 : e (4 * (4 + n - 1) + 3) = w[3] := p3
      simp only [expandStep, p0, p1, p2, p3, wbaesSbox_eq]
      by_cases hm : (4 + n) % 4 = 0
      · rw [if_pos hm, if_pos hm]
        have hrc := wbaesRcon_eq ⟨(4 + n) / 4 - 1, by omega⟩
        have hq : (4 + n) / 4 - 1 + 1 = (4 + n) / 4 := by omega
        simp only [hq] at hrc
        rw [hrc]
        rcases h4 r with rfl | rfl | rfl | rfl
        · rw [if_pos (by simp [show ((3 : Fin 4) : Nat) = 3 from rfl])]
          simp only [AesWord.xor, subRot, Fin.getElem_fin, Vector.getElem_ofFn] at q ⊢
          rw [← q]; rfl
        · rw [if_neg (by simp [show ((3 : Fin 4) : Nat) = 3 from rfl]), if_pos (by simp [show ((3 : Fin 4) : Nat) = 3 from rfl])]
          simp only [AesWord.xor, subRot, Fin.getElem_fin, Vector.getElem_ofFn] at q ⊢
          rw [← q]
          exact congrArg _ BitVec.xor_zero.symm
        · rw [if_neg (by simp [show ((3 : Fin 4) : Nat) = 3 from rfl]), if_neg (by simp [show ((3 : Fin 4) : Nat) = 3 from rfl]), if_pos (by simp [show ((3 : Fin 4) : Nat) = 3 from rfl])]
          simp only [AesWord.xor, subRot, Fin.getElem_fin, Vector.getElem_ofFn] at q ⊢
          rw [← q]
          exact congrArg _ BitVec.xor_zero.symm
        · rw [if_neg (by simp [show ((3 : Fin 4) : Nat) = 3 from rfl]), if_neg (by simp [show ((3 : Fin 4) : Nat) = 3 from rfl]), if_neg (by simp [show ((3 : Fin 4) : Nat) = 3 from rfl]), if_pos (by simp [show ((3 : Fin 4) : Nat) = 3 from rfl])]
          simp only [AesWord.xor, subRot, Fin.getElem_fin, Vector.getElem_ofFn] at q ⊢
          rw [← q]
          exact congrArg _ BitVec.xor_zero.symm
      · rw [if_neg hm, if_neg hm]
        rcases h4 r with rfl | rfl | rfl | rfl
        · rw [if_pos (by simp [show ((3 : Fin 4) : Nat) = 3 from rfl])]
          simp only [AesWord.xor, Fin.getElem_fin, Vector.getElem_ofFn] at q ⊢
          rw [← q]; rfl
        · rw [if_neg (by simp [show ((3 : Fin 4) : Nat) = 3 from rfl]), if_pos (by simp [show ((3 : Fin 4) : Nat) = 3 from rfl])]
          simp only [AesWord.xor, Fin.getElem_fin, Vector.getElem_ofFn] at q ⊢
          rw [← q]; rfl
        · rw [if_neg (by simp [show ((3 : Fin 4) : Nat) = 3 from rfl]), if_neg (by simp [show ((3 : Fin 4) : Nat) = 3 from rfl]), if_pos (by simp [show ((3 : Fin 4) : Nat) = 3 from rfl])]
          simp only [AesWord.xor, Fin.getElem_fin, Vector.getElem_ofFn] at q ⊢
          rw [← q]; rfl
        · rw [if_neg (by simp [show ((3 : Fin 4) : Nat) = 3 from rfl]), if_neg (by simp [show ((3 : Fin 4) : Nat) = 3 from rfl]), if_neg (by simp [show ((3 : Fin 4) : Nat) = 3 from rfl]), if_pos (by simp [show ((3 : Fin 4) : Nat) = 3 from rfl])]
          simp only [AesWord.xor, Fin.getElem_fin, Vector.getElem_ofFn] at q ⊢
          rw [← q]; rfl

/-- `expandKey` computes the key schedule of the standard, whatever the array held before. -/
theorem expandKey_eq (junk : Nat → Byte) (key : Block) (i : Nat) (hi : i ≤ 10) (m : Fin 16) :
    expandKey junk key (16 * i + m.1) = (roundKey key i)[m] := by
  have h := expand_spec junk key 40 (by omega) (4 * i + m.1 / 4) (by omega) ⟨m.1 % 4, by omega⟩
  have hidx : 4 * (4 * i + m.1 / 4) + m.1 % 4 = 16 * i + m.1 := by omega
  simp only [hidx] at h
  rw [expandKey, h, roundKey, Fin.getElem_fin, Fin.getElem_fin, Vector.getElem_ofFn]

/-! ### the table network -/

/-- The nibble permutation is undone by its inverse table. -/
def Model.NibPerm.Ok (p : NibPerm) : Prop := (∀ x, p.inv (p.fwd x) = x) ∧ ∀ x, p.fwd (p.inv x) = x

def Model.MPair.Ok {n : Nat} [WSize n] (p : MPair n) : Prop := Inverse (matMulNum p.mat) (matMulNum p.inv)

/-- All encodings are invertible. -/
structure EncOk (E : WbaesEnc) : Prop where
  L : ∀ i j, (E.L i j).Ok
  MB : ∀ i j, (E.MB i j).Ok
  exIn : ∀ j, (E.exIn j).Ok
  exOut : ∀ j, (E.exOut j).Ok
  outII : ∀ i j k, (E.outII i j k).Ok
  outIII : ∀ i j k, (E.outIII i j k).Ok
  outIVII1 : ∀ i j k, (E.outIVII1 i j k).Ok
  outIVIII1 : ∀ i j k, (E.outIVIII1 i j k).Ok
  outIVII2 : ∀ i j k, (E.outIVII2 i j k).Ok
  outIVIII2 : ∀ i j k, (E.outIVIII2 i j k).Ok
  inII : ∀ j k, (E.inII j k).Ok

theorem genNib_ok (rnd : Nat → BitVec 32) (junk : Vector (Fin 16) 16) : (genNib rnd junk).Ok := by
  obtain ⟨h1, h2⟩ := genPermutation_spec rnd junk
  exact ⟨fun x => congrArg BitVec.ofFin (h1 x.toFin), fun x => congrArg BitVec.ofFin (h2 x.toFin)⟩

theorem genM8_ok (rnd : Nat → BitVec 32) : (genM 8 rnd).Ok := (C33_matrix_pairs rnd 0).1.1
theorem genM32_ok (rnd : Nat → BitVec 32) : (genM 32 rnd).Ok := (C33_matrix_pairs rnd 0).2.1

theorem enc_ok (r : WbaesRnd) : EncOk r.enc :=
  ⟨fun _ _ => genM8_ok _, fun _ _ => genM32_ok _, fun _ => genM8_ok _, fun _ => genM8_ok _, fun _ _ _ => genNib_ok _ _,
    fun _ _ _ => genNib_ok _ _, fun _ _ _ => genNib_ok _ _, fun _ _ _ => genNib_ok _ _, fun _ _ _ => genNib_ok _ _,
    fun _ _ _ => genNib_ok _ _, fun _ _ => genNib_ok _ _⟩

/-- Three stages of nibble tables add four encoded words. -/
theorem lookCombine_spec (T : Fin 4 → Byte → BitVec 32) (T4 : Fin 3 → Fin 8 → Nib → Nib → Nib) (s : Fin 4 → Byte)
    (P : Fin 4 → Fin 8 → NibPerm) (Q : Fin 2 → Fin 8 → NibPerm) (R : Fin 8 → NibPerm) (w : Fin 4 → BitVec 32)
    (hP : ∀ j k, (P j k).Ok) (hQ : ∀ j k, (Q j k).Ok)
    (hT : ∀ j, T j (s j) = WbaesEnc.applyOut (P j) (w j))
    (h0 : ∀ k x y, T4 0 k x y = (Q 0 k).fwd ((P 0 k).inv x ^^^ (P 1 k).inv y))
    (h1 : ∀ k x y, T4 1 k x y = (Q 1 k).fwd ((P 2 k).inv x ^^^ (P 3 k).inv y))
    (h2 : ∀ k x y, T4 2 k x y = (R k).fwd ((Q 0 k).inv x ^^^ (Q 1 k).inv y)) (t : Fin 4) :
    lookCombine T T4 s t =
      joinByte ((R (nibHi t)).fwd (nib (w 0 ^^^ w 1 ^^^ w 2 ^^^ w 3) (nibHi t)))
        ((R (nibLo t)).fwd (nib (w 0 ^^^ w 1 ^^^ w 2 ^^^ w 3) (nibLo t))) := by
  simp only [lookCombine, combineByte, combine, hT, WbaesEnc.applyOut, nib_join, h0, h1, h2, (hP _ _).1, (hQ _ _).1, nib_xor,
    BitVec.xor_assoc]

/-- Bytes of a `TypeII` word: one column of MixColumns. -/
theorem tyi_append (x : Byte) :
    tyi 0 x = (aesMul 2 x ++ x) ++ (x ++ aesMul 3 x) ∧ tyi 1 x = (aesMul 3 x ++ aesMul 2 x) ++ (x ++ x) ∧
    tyi 2 x = (x ++ aesMul 3 x) ++ (aesMul 2 x ++ x) ∧ tyi 3 x = (x ++ x) ++ (aesMul 3 x ++ aesMul 2 x) := by
  simp only [tyi, or4_eq_append, gMul_two, gMul_three, and_self]

theorem tyi_mix (y : Block) (j t : Fin 4) :
    wbyte (tyi 0 y[at4 j 0] ^^^ tyi 1 y[at4 j 1] ^^^ tyi 2 y[at4 j 2] ^^^ tyi 3 y[at4 j 3]) t = (mixColumns y)[at4 j t] := by
  have h4 : ∀ t : Fin 4, t = 0 ∨ t = 1 ∨ t = 2 ∨ t = 3 := by decide
  rw [(tyi_append _).1, (tyi_append _).2.1, (tyi_append _).2.2.1, (tyi_append _).2.2.2, wbyte_xor, wbyte_xor, wbyte_xor]
  have hm : (mixColumns y)[at4 j t] = aesMul 2 y[at4 j t] ^^^ aesMul 3 y[at4 j (t + 1)] ^^^ y[at4 j (t + 2)] ^^^ y[at4 j (t + 3)] := by
    rw [mixColumns, Fin.getElem_fin, Vector.getElem_ofFn]
    rcases h4 j with rfl | rfl | rfl | rfl <;> rcases h4 t with rfl | rfl | rfl | rfl <;> rfl
  rw [hm]
  obtain ⟨a0, a1, a2, a3⟩ := wbyte_app (aesMul 2 y[at4 j 0]) y[at4 j 0] y[at4 j 0] (aesMul 3 y[at4 j 0])
  obtain ⟨b0, b1, b2, b3⟩ := wbyte_app (aesMul 3 y[at4 j 1]) (aesMul 2 y[at4 j 1]) y[at4 j 1] y[at4 j 1]
  obtain ⟨c0, c1, c2, c3⟩ := wbyte_app y[at4 j 2] (aesMul 3 y[at4 j 2]) (aesMul 2 y[at4 j 2]) y[at4 j 2]
  obtain ⟨d0, d1, d2, d3⟩ := wbyte_app y[at4 j 3] y[at4 j 3] (aesMul 3 y[at4 j 3]) (aesMul 2 y[at4 j 3])
  rcases h4 t with rfl | rfl | rfl | rfl
  · rw [a0, b0, c0, d0]; rfl
  · rw [a1, b1, c1, d1]
    show y[at4 j 0] ^^^ aesMul 2 y[at4 j 1] ^^^ aesMul 3 y[at4 j 2] ^^^ y[at4 j 3] =
      aesMul 2 y[at4 j 1] ^^^ aesMul 3 y[at4 j 2] ^^^ y[at4 j 3] ^^^ y[at4 j 0]
    ac_rfl
  · rw [a2, b2, c2, d2]
    show y[at4 j 0] ^^^ y[at4 j 1] ^^^ aesMul 2 y[at4 j 2] ^^^ aesMul 3 y[at4 j 3] =
      aesMul 2 y[at4 j 2] ^^^ aesMul 3 y[at4 j 3] ^^^ y[at4 j 0] ^^^ y[at4 j 1]
    ac_rfl
  · rw [a3, b3, c3, d3]
    show aesMul 3 y[at4 j 0] ^^^ y[at4 j 1] ^^^ y[at4 j 2] ^^^ aesMul 2 y[at4 j 3] =
      aesMul 2 y[at4 j 3] ^^^ aesMul 3 y[at4 j 0] ^^^ y[at4 j 1] ^^^ y[at4 j 2]
    ac_rfl

theorem colOf_at4 : ∀ j k : Fin 4, colOf (at4 j k) = j := by decide
theorem rowOf_at4 : ∀ j k : Fin 4, rowOf (at4 j k) = k := by decide
theorem at4_cr : ∀ m : Fin 16, at4 (colOf m) (rowOf m) = m := by decide

/-- The two halves of a round on column `j`, given the unencoded S-box outputs `y`. -/
theorem column_spec (E : WbaesEnc) (hE : EncOk E) (ek : Nat → Byte) (last : Fin 16 → Byte → Byte) (i : Fin 9) (j : Fin 4)
    (s : Fin 4 → Byte) (y : Block)
    (hy : ∀ k : Fin 4, WBAES_SBOX[(E.dec i.1 shiftTab[at4 j k] (s k) ^^^ ek (16 * i.1 + (at4 j k).1)).toFin] = y[at4 j k]) (t : Fin 4) :
    E.decMid i (at4 j t)
      (lookCombine (fun k => (E.tables ek last).typeIII i (at4 j k)) ((E.tables ek last).typeIVIII i j)
        (lookCombine (fun k => (E.tables ek last).typeII i (at4 j k)) ((E.tables ek last).typeIVII i j) s) t) =
      (mixColumns y)[at4 j t] := by
  have hII := lookCombine_spec (fun k => (E.tables ek last).typeII i (at4 j k)) ((E.tables ek last).typeIVII i j) s
    (fun k => E.outII i (at4 j k)) (fun k => E.outIVII1 i (at2 j k)) (E.outIVII2 i j)
    (fun k => matMulNum (E.MB i j).mat (tyi k y[at4 j k]))
    (fun _ _ => hE.outII _ _ _) (fun _ _ => hE.outIVII1 _ _ _)
    (by intro k; simp only [WbaesEnc.tables, hy, colOf_at4, rowOf_at4])
    (fun _ _ _ => rfl) (fun _ _ _ => rfl) (fun _ _ _ => rfl)
  rw [← matMulNum_xor, ← matMulNum_xor, ← matMulNum_xor] at hII
  generalize hW : matMulNum (E.MB i j).mat (tyi 0 y[at4 j 0] ^^^ tyi 1 y[at4 j 1] ^^^ tyi 2 y[at4 j 2] ^^^ tyi 3 y[at4 j 3]) = W at hII
  generalize lookCombine (fun k => (E.tables ek last).typeII i (at4 j k)) ((E.tables ek last).typeIVII i j) s = u at hII
  have hIII := lookCombine_spec (fun k => (E.tables ek last).typeIII i (at4 j k)) ((E.tables ek last).typeIVIII i j) u
    (fun k => E.outIII i (at4 j k)) (fun k => E.outIVIII1 i (at2 j k)) (E.outIVIII2 i j)
    (fun k => matMulNum (E.outL i j) (matMulNum (E.MB i j).inv ((wbyte W k).zeroExtend 32 <<< (24 - 8 * k.1))))
    (fun _ _ => hE.outIII _ _ _) (fun _ _ => hE.outIVIII1 _ _ _)
    (by
      intro k
      simp only [WbaesEnc.tables, hII, colOf_at4, rowOf_at4, hiNib_join, loNib_join, (hE.outIVII2 _ _ _).1, join_nib_byte])
    (fun _ _ _ => rfl) (fun _ _ _ => rfl) (fun _ _ _ => rfl) t
  rw [← matMulNum_xor, ← matMulNum_xor, ← matMulNum_xor, ← matMulNum_xor, ← matMulNum_xor, ← matMulNum_xor, wbyte_sum, ← hW,
    (hE.MB i j).1] at hIII
  rw [hIII, WbaesEnc.decMid, hiNib_join, loNib_join, colOf_at4, rowOf_at4, (hE.outIVIII2 _ _ _).1, (hE.outIVIII2 _ _ _).1, join_nib_byte,
    WbaesEnc.outL, com_wbyte (fun k => (E.L i (at4 j k)).mat), (hE.L _ _).1, tyi_mix]

theorem shiftTab_spec : ∀ m : Fin 16, (shiftTab[m]).1 = 4 * ((m.1 / 4 + m.1 % 4) % 4) + m.1 % 4 := by decide

theorem aesShiftRows_get (s : Block) (m : Fin 16) : (aesShiftRows s)[m] = s[shiftTab[m]] := by
  rw [aesShiftRows, Fin.getElem_fin, Vector.getElem_ofFn, Fin.getElem_fin]
  simp only [shiftTab_spec]

theorem shiftKeys_spec (junk : Nat → Byte) (key : Block) (i : Nat) (hi : i ≤ 9) (j : Fin 16) :
    shiftKeys (expandKey junk key) (16 * i + j.1) = (roundKey key i)[shiftTab[j]] := by
  rw [shiftKeys, if_pos (by omega), show (16 * i + j.1) / 16 = i by omega, show (16 * i + j.1) % 16 = j.1 by omega,
    Vector.getElem?_eq_getElem j.2, Option.getD_some]
  exact expandKey_eq junk key i (by omega) _

theorem shiftKeys_last (junk : Nat → Byte) (key : Block) (j : Fin 16) :
    shiftKeys (expandKey junk key) (160 + j.1) = (roundKey key 10)[j] := by
  rw [shiftKeys, if_neg (by omega)]
  exact expandKey_eq junk key 10 (by omega) _

/-- One round on states whose bytes decode to `X`. -/
theorem round_spec (E : WbaesEnc) (hE : EncOk E) (junk : Nat → Byte) (key : Block) (last : Fin 16 → Byte → Byte) (i : Fin 9)
    (s X : Block) (h : ∀ m : Fin 16, E.dec i.1 m s[m] = X[m]) (m : Fin 16) :
    E.dec (i.1 + 1) m (wbaesRound (E.tables (shiftKeys (expandKey junk key)) last) s i)[m] =
      (mixColumns (aesShiftRows (subBytes (X ^^^ roundKey key i.1))))[m] := by
  rw [WbaesEnc.dec, dif_pos ⟨by omega, by omega⟩]
  obtain ⟨j, t, rfl⟩ : ∃ j t, m = at4 j t := ⟨_, _, (at4_cr m).symm⟩
  have hsub : ∀ a : Fin 16, WBAES_SBOX[(E.dec i.1 shiftTab[a] (wbShiftRows s)[a] ^^^
      shiftKeys (expandKey junk key) (16 * i.1 + a.1)).toFin] = (aesShiftRows (subBytes (X ^^^ roundKey key i.1)))[a] := by
    intro a
    rw [wbaesSbox_eq, shiftKeys_spec _ _ _ (by omega), aesShiftRows_get, wbShiftRows]
    simp only [Fin.getElem_fin, Vector.getElem_ofFn, subBytes]
    have := h shiftTab[a]
    simp only [Fin.getElem_fin] at this
    rw [this, Vec.getElem_xor]
  have hc := column_spec E hE (shiftKeys (expandKey junk key)) last i j (fun k => (wbShiftRows s)[at4 j k])
    (aesShiftRows (subBytes (X ^^^ roundKey key i.1))) (fun k => hsub _) t
  rw [← hc, wbaesRound, Fin.getElem_fin, Vector.getElem_ofFn]
  simp only [Nat.add_sub_cancel, Fin.eta, colOf_at4, rowOf_at4]

/-- The state after `n` rounds. -/
theorem rounds_spec (E : WbaesEnc) (hE : EncOk E) (junk : Nat → Byte) (key : Block) (last : Fin 16 → Byte → Byte)
    (s x : Block) (h : ∀ m : Fin 16, E.dec 0 m s[m] = x[m]) (n : Nat) (hn : n ≤ 9) (m : Fin 16) :
    E.dec n m (((List.finRange 9).take n).foldl (wbaesRound (E.tables (shiftKeys (expandKey junk key)) last)) s)[m] ^^^
      (roundKey key n)[m] = (aesRounds key x n)[m] := by
  induction n generalizing m with
  | zero => rw [List.take_zero, List.foldl_nil, h, aesRounds]; exact (Vec.getElem_xor _ _ _ _).symm
  | succ n ih =>
    have hl : (List.finRange 9).take (n + 1) = (List.finRange 9).take n ++ [⟨n, by omega⟩] := by
      rw [List.take_add_one, List.getElem?_eq_getElem (by simpa using by omega)]
      simp
    rw [hl, List.foldl_append, List.foldl_cons, List.foldl_nil]
    replace ih := ih (by omega)
    generalize List.foldl _ s ((List.finRange 9).take n) = u at ih ⊢
    have := round_spec E hE junk key last ⟨n, by omega⟩ u (Vector.ofFn fun m => E.dec n m u[m]) (by intro m; simp) m
    rw [this, aesRounds]
    have hx : (Vector.ofFn fun m => E.dec n m u[m]) ^^^ roundKey key n = aesRounds key x n := by
      apply Vector.ext
      intro k hk
      rw [Vec.getElem_xor]
      have := ih ⟨k, hk⟩
      simpa using this
    simp only [hx]
    exact (Vec.getElem_xor _ _ _ _).symm

/-- The encoded cipher: input bytes in the encoding `dec 0`, output bytes under `last` and the output matrices. -/
theorem aux_spec (E : WbaesEnc) (hE : EncOk E) (junk : Nat → Byte) (key : Block) (last : Fin 16 → Byte → Byte)
    (s x : Block) (h : ∀ m : Fin 16, E.dec 0 m s[m] = x[m]) (m : Fin 16) :
    (auxWbaesEncrypt (E.tables (shiftKeys (expandKey junk key)) last) s)[m] =
      last m (matMulNum (E.exOut m).mat (aes128 key x)[m]) := by
  have hr := rounds_spec E hE junk key last s x h 9 (by omega)
  rw [List.take_of_length_le (by simp)] at hr
  rw [auxWbaesEncrypt, Fin.getElem_fin, Vector.getElem_ofFn]
  generalize List.foldl _ s (List.finRange 9) = u at hr ⊢
  have ht : ∀ b : Byte, (b.zeroExtend 32 : BitVec 32).truncate 8 = b := by
    intro b; ext i hi; simp
  simp only [WbaesEnc.tables, ht]
  rw [wbaesSbox_eq, show 16 * 10 + m.1 = 160 + m.1 from rfl, shiftKeys_last, shiftKeys_spec _ _ 9 (by omega)]
  have := hr shiftTab[m]
  simp only [wbShiftRows, Fin.getElem_fin, Vector.getElem_ofFn] at this ⊢
  rw [this, aes128, Vec.getElem_xor]
  have h2 := aesShiftRows_get (subBytes (aesRounds key x 9)) m
  simp only [Fin.getElem_fin] at h2
  rw [h2, subBytes, Vector.getElem_ofFn]
  rfl

end Verif
