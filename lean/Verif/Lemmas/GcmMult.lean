import Verif.Lemmas.Gf128

/-! `gcm_mult` with the tables of `WBCRYPTO_gcm_init` multiplies in GF(2^128). -/
set_option linter.unusedSimpArgs false

set_option autoImplicit false

namespace Verif
open Spec Model

theorem mulx_even (v : BitVec 128) (h : v.getLsbD 0 = false) : mulx v = v >>> 1 := by
  rw [mulx, h]; rfl

theorem mulx4_split (z : BitVec 128) :
    mulx4 z = (z >>> 4) ^^^ mulx4 ((z.truncate 4).zeroExtend 128) := by
  have hz : z = ((z >>> 4) <<< 4) ^^^ (z.truncate 4).zeroExtend 128 := by
    apply BitVec.eq_of_getLsbD_eq
    intro i hi
    simp only [BitVec.getLsbD_xor, BitVec.getLsbD_shiftLeft, BitVec.getLsbD_ushiftRight,
      BitVec.getLsbD_setWidth]
    by_cases h4 : i < 4
    · simp [h4, hi]
    · have : 4 + (i - 4) = i := by omega
      simp [h4, hi, this]
  have hc : mulx4 ((z >>> 4) <<< 4) = z >>> 4 := by
    unfold mulx4
    have step : ∀ k, k < 4 → mulx ((z >>> 4) <<< (k + 1)) = (z >>> 4) <<< k := by
      intro k hk
      rw [mulx_even _ (by simp)]
      apply BitVec.eq_of_getLsbD_eq
      intro i hi
      simp only [BitVec.getLsbD_ushiftRight, BitVec.getLsbD_shiftLeft]
      by_cases hik : i < k
      · simp [hik, hi, show 1 + i < k + 1 by omega]
      · by_cases h127 : 1 + i < 128
        · simp [hik, hi, h127, show ¬ 1 + i < k + 1 by omega, show 1 + i - (k + 1) = i - k by omega]
        · have : i = 127 := by omega
          subst this
          simp only [h127]
          simp
          intro _
          apply BitVec.getLsbD_of_ge
          omega
    rw [step 3 (by omega), step 2 (by omega), step 1 (by omega), step 0 (by omega)]
    simp
  conv => lhs; rw [hz]
  rw [mulx4_xor, hc]

theorem last4_table : ∀ r : BitVec 4,
    mulx4 (r.zeroExtend 128) = (last4[r.toFin] <<< 48) ++ 0#64 := by decide

theorem append_xor (a b c d : BitVec 64) :
    ((a ^^^ b) ++ (c ^^^ d) : BitVec 128) = (a ++ c) ^^^ (b ++ d) := by
  apply BitVec.eq_of_getLsbD_eq
  intro i hi
  simp only [BitVec.getLsbD_xor, BitVec.getLsbD_append]
  split <;> rfl

theorem append_shift4 (zh zl : BitVec 64) :
    ((zh >>> 4) ++ ((zh <<< 60) ||| (zl >>> 4)) : BitVec 128) = (zh ++ zl : BitVec 128) >>> 4 := by
  apply BitVec.eq_of_getLsbD_eq
  intro i hi
  simp only [BitVec.getLsbD_append, BitVec.getLsbD_ushiftRight, BitVec.getLsbD_or,
    BitVec.getLsbD_shiftLeft]
  by_cases h : i < 60
  · simp [h, show i < 64 by omega, show 4 + i < 64 by omega]
  · by_cases h2 : i < 64
    · simp [h, h2, show ¬ 4 + i < 64 by omega, show 4 + i - 64 = i - 60 by omega,
        BitVec.getLsbD_of_ge zl (4 + i) (by omega)]
    · simp [h2, show ¬ 4 + i < 64 by omega, show 4 + i - 64 = 4 + (i - 64) by omega]

theorem append_shift1 (zh zl : BitVec 64) :
    ((zh >>> 1) ++ ((zh <<< 63) ||| (zl >>> 1)) : BitVec 128) = (zh ++ zl : BitVec 128) >>> 1 := by
  apply BitVec.eq_of_getLsbD_eq
  intro i hi
  simp only [BitVec.getLsbD_append, BitVec.getLsbD_ushiftRight, BitVec.getLsbD_or,
    BitVec.getLsbD_shiftLeft]
  by_cases h : i < 63
  · simp [h, show i < 64 by omega, show 1 + i < 64 by omega]
  · by_cases h2 : i < 64
    · simp [h, h2, show ¬ 1 + i < 64 by omega, show 1 + i - 64 = i - 63 by omega,
        BitVec.getLsbD_of_ge zl (1 + i) (by omega)]
    · simp [h2, show ¬ 1 + i < 64 by omega, show 1 + i - 64 = 1 + (i - 64) by omega]

theorem multStep_spec (HL HH : Vector (BitVec 64) 16) (zh zl : BitVec 64) (n : BitVec 4) :
    ((multStep HL HH zh zl n).1 ++ (multStep HL HH zh zl n).2 : BitVec 128) =
      mulx4 (zh ++ zl) ^^^ (HH[n.toFin] ++ HL[n.toFin]) := by
  have ht : (zh ++ zl : BitVec 128).truncate 4 = zl.truncate 4 := by
    apply BitVec.eq_of_getLsbD_eq
    intro i hi
    simp only [BitVec.truncate_eq_setWidth, BitVec.getLsbD_setWidth, BitVec.getLsbD_append]
    simp [show i < 64 by omega]
  rw [mulx4_split, ht, last4_table, ← append_shift4, ← append_xor, ← append_xor]
  simp [multStep]

/-- The tables hold the products of all four-bit polynomials with `h`. -/
def TabOk (HL HH : Vector (BitVec 64) 16) (h : BitVec 128) : Prop :=
  ∀ n : BitVec 4, (HH[n.toFin] ++ HL[n.toFin] : BitVec 128) = nibVal h n

theorem multStep_horner {HL HH h} (ok : TabOk HL HH h) (z : BitVec 64 × BitVec 64) (n : BitVec 4)
    (bits : List Bool) (hz : (z.1 ++ z.2 : BitVec 128) = horner h bits) :
    ((multStep HL HH z.1 z.2 n).1 ++ (multStep HL HH z.1 z.2 n).2 : BitVec 128) =
      horner h (nibBits n ++ bits) := by
  rw [multStep_spec, ok n, hz, horner_nib]

theorem multByte_horner {HL HH h} (ok : TabOk HL HH h) (x : Block) (i : Fin 16) (hi : i.1 ≠ 15)
    (z : BitVec 64 × BitVec 64) (bits : List Bool) (hz : (z.1 ++ z.2 : BitVec 128) = horner h bits) :
    ((multByte HL HH x z i).1 ++ (multByte HL HH x z i).2 : BitVec 128) =
      horner h (nibBits ((x[i] >>> 4).truncate 4) ++ (nibBits (x[i].truncate 4) ++ bits)) := by
  simp only [multByte, hi, ne_eq, not_false_eq_true, if_true]
  exact multStep_horner ok _ _ _ (multStep_horner ok _ _ _ hz)

theorem multBytes_horner {HL HH h} (ok : TabOk HL HH h) (x : Block) (is : List (Fin 16)) :
    ∀ (z : BitVec 64 × BitVec 64) (bits : List Bool), (∀ i ∈ is, i.1 ≠ 15) →
    (z.1 ++ z.2 : BitVec 128) = horner h bits →
    ((is.foldl (multByte HL HH x) z).1 ++ (is.foldl (multByte HL HH x) z).2 : BitVec 128) =
      horner h (is.foldl (init := bits) (fun acc (i : Fin 16) =>
        nibBits ((x[i] >>> 4).truncate 4) ++ (nibBits (x[i].truncate 4) ++ acc))) := by
  induction is with
  | nil => intro z bits _ hz; exact hz
  | cons i is ih =>
    intro z bits hi hz
    exact ih _ _ (fun j hj => hi j (List.mem_cons_of_mem _ hj))
      (multByte_horner ok x i (hi i List.mem_cons_self) z bits hz)

theorem extract_hi (zh zl : BitVec 64) (k : Nat) (hk : k ≤ 56) :
    (zh ++ zl : BitVec 128).extractLsb' (64 + k) 8 = (zh >>> k).truncate 8 := by
  apply BitVec.eq_of_getLsbD_eq
  intro j hj
  simp only [BitVec.getLsbD_extractLsb', hj, decide_true, Bool.true_and, BitVec.getLsbD_append,
    BitVec.truncate_eq_setWidth, BitVec.getLsbD_setWidth, BitVec.getLsbD_ushiftRight]
  rw [if_neg (by omega)]
  exact congrArg (BitVec.getLsbD _) (by omega)

theorem extract_lo (zh zl : BitVec 64) (k : Nat) (hk : k ≤ 56) :
    (zh ++ zl : BitVec 128).extractLsb' k 8 = (zl >>> k).truncate 8 := by
  apply BitVec.eq_of_getLsbD_eq
  intro j hj
  simp only [BitVec.getLsbD_extractLsb', hj, decide_true, Bool.true_and, BitVec.getLsbD_append,
    BitVec.truncate_eq_setWidth, BitVec.getLsbD_setWidth, BitVec.getLsbD_ushiftRight]
  rw [if_pos (by omega)]

theorem putBlock_eq (zh zl : BitVec 64) :
    putBlock (zh >>> 32) zh (zl >>> 32) zl = ofBV (zh ++ zl) := by
  have h1 : ∀ z : BitVec 128, ofBV z = #v[z.extractLsb' (64 + 56) 8, z.extractLsb' (64 + 48) 8,
    z.extractLsb' (64 + 40) 8, z.extractLsb' (64 + 32) 8, z.extractLsb' (64 + 24) 8,
    z.extractLsb' (64 + 16) 8, z.extractLsb' (64 + 8) 8, z.extractLsb' (64 + 0) 8,
    z.extractLsb' 56 8, z.extractLsb' 48 8, z.extractLsb' 40 8, z.extractLsb' 32 8,
    z.extractLsb' 24 8, z.extractLsb' 16 8, z.extractLsb' 8 8, z.extractLsb' 0 8] := fun z => rfl
  have h2 : ∀ a b c d : BitVec 64, putBlock a b c d =
    #v[(a >>> 24).truncate 8, (a >>> 16).truncate 8, (a >>> 8).truncate 8, a.truncate 8,
       (b >>> 24).truncate 8, (b >>> 16).truncate 8, (b >>> 8).truncate 8, b.truncate 8,
       (c >>> 24).truncate 8, (c >>> 16).truncate 8, (c >>> 8).truncate 8, c.truncate 8,
       (d >>> 24).truncate 8, (d >>> 16).truncate 8, (d >>> 8).truncate 8, d.truncate 8] :=
    fun a b c d => rfl
  rw [h1, h2]
  rw [extract_hi, extract_hi, extract_hi, extract_hi, extract_hi, extract_hi, extract_hi, extract_hi] <;>
  simp only [extract_lo, Nat.reduceLeDiff, ← BitVec.shiftRight_add, Nat.reduceAdd,
    BitVec.ushiftRight_zero]

theorem gcmMult_eq {HL HH h} (ok : TabOk HL HH h) (x : Block) :
    toBV (gcmMult HL HH x) = gfMul (toBV x) h := by
  rw [gfMul_eq_horner, msbBits_toBV]
  unfold gcmMult
  simp only []
  rw [putBlock_eq, toBV_ofBV, List.foldl_cons, List.foldl_cons (b := ([] : List Bool))]
  apply multBytes_horner ok
  · decide
  · simp only [multByte, Fin.isValue]
    rw [if_neg (by decide)]
    apply multStep_horner ok
    simp only [List.append_nil]
    exact ok _

theorem getU32_getLsbD (h : Block) (i : Nat) (hi : i + 4 ≤ 16) (k : Nat) :
    (getU32 h i hi).getLsbD k = (decide (k < 32) && (h[i + 3 - k / 8]'(by omega)).getLsbD (k % 8)) := by
  have hx : ∀ (j : Nat) (hj : j = i + 3 - k / 8),
      (h[i + 3 - k / 8]'(by omega)) = (h[j]'(by omega)) := by
    intro j hj; subst hj; rfl
  simp only [getU32, BitVec.getLsbD_or, BitVec.getLsbD_shiftLeft, BitVec.truncate_eq_setWidth,
    BitVec.getLsbD_setWidth]
  by_cases h8 : k < 8
  · rw [hx (i + 3) (by omega)]
    simp [h8, show k < 16 by omega, show k < 24 by omega, show k < 32 by omega, show k < 64 by omega,
      Nat.mod_eq_of_lt h8]
  by_cases h16 : k < 16
  · rw [hx (i + 2) (by omega)]
    simp [h8, h16, show k < 24 by omega, show k < 32 by omega, show k < 64 by omega,
      show k - 8 < 64 by omega, show k % 8 = k - 8 by omega, BitVec.getLsbD_of_ge h[i + 3] k (by omega)]
  by_cases h24 : k < 24
  · rw [hx (i + 1) (by omega)]
    simp [h8, h16, h24, show k < 32 by omega, show k < 64 by omega,
      show k - 8 < 64 by omega, show k - 16 < 64 by omega, show k % 8 = k - 16 by omega,
      BitVec.getLsbD_of_ge h[i + 3] k (by omega), BitVec.getLsbD_of_ge h[i + 2] (k - 8) (by omega)]
  by_cases h32 : k < 32
  · rw [hx i (by omega)]
    simp [h8, h16, h24, h32, show k < 64 by omega,
      show k - 8 < 64 by omega, show k - 16 < 64 by omega, show k - 24 < 64 by omega,
      show k % 8 = k - 24 by omega,
      BitVec.getLsbD_of_ge h[i + 3] k (by omega), BitVec.getLsbD_of_ge h[i + 2] (k - 8) (by omega),
      BitVec.getLsbD_of_ge h[i + 1] (k - 16) (by omega)]
  · simp [h32,
      BitVec.getLsbD_of_ge h[i + 3] k (by omega), BitVec.getLsbD_of_ge h[i + 2] (k - 8) (by omega),
      BitVec.getLsbD_of_ge h[i + 1] (k - 16) (by omega), BitVec.getLsbD_of_ge h[i] (k - 24) (by omega)]

theorem getU64_eq (h : Block) :
    ((getU32 h 0 <<< 32 ||| getU32 h 4) ++ (getU32 h 8 <<< 32 ||| getU32 h 12) : BitVec 128) = toBV h := by
  apply BitVec.eq_of_getLsbD_eq
  intro k hk
  have hx : ∀ (j : Nat) (hj : j = 15 - k / 8), h[15 - k / 8] = (h[j]'(by omega)) := by
    intro j hj; subst hj; rfl
  rw [toBV_getLsbD _ _ hk]
  simp only [BitVec.getLsbD_append, BitVec.getLsbD_or, BitVec.getLsbD_shiftLeft, getU32_getLsbD]
  by_cases h32 : k < 32
  · rw [hx (12 + 3 - k / 8) (by omega)]
    simp [h32, show k < 64 by omega]
  by_cases h64 : k < 64
  · rw [hx (8 + 3 - (k - 32) / 8) (by omega)]
    simp [h32, h64, show k - 32 < 32 by omega, show k % 8 = (k - 32) % 8 by omega]
  by_cases h96 : k < 96
  · rw [hx (4 + 3 - (k - 64) / 8) (by omega)]
    simp [h64, show k - 64 < 32 by omega, show k % 8 = (k - 64) % 8 by omega]
  · rw [hx (0 + 3 - (k - 64 - 32) / 8) (by omega)]
    simp [h64, show k - 64 < 64 by omega, show ¬ k - 64 < 32 by omega,
      show k - 64 - 32 < 32 by omega, show k % 8 = (k - 64 - 32) % 8 by omega]

theorem tab_T (vl : BitVec 64) :
    (((vl &&& 1).truncate 32 * 0xe1000000#32).zeroExtend 64 <<< 32 : BitVec 64) ++ 0#64 =
      if vl.getLsbD 0 then gfR else 0 := by
  have h : vl &&& 1 = if vl.getLsbD 0 then 1 else 0 := by
    apply BitVec.eq_of_getLsbD_eq
    intro i hi
    by_cases h0 : i = 0
    · subst h0
      rw [BitVec.getLsbD_and]
      cases hb : vl.getLsbD 0 <;> rfl
    · have : (1#64).getLsbD i = false := by simp [BitVec.getLsbD_one, h0]
      split <;> simp [this]
  rw [h]
  split <;> decide

theorem halve_eq (vh vl : BitVec 64) :
    (((vh >>> 1) ^^^ ((((vl &&& 1).truncate 32 * 0xe1000000#32).zeroExtend 64) <<< 32)) ++
      ((vh <<< 63) ||| (vl >>> 1)) : BitVec 128) = mulx (vh ++ vl) := by
  rw [mulx_eq, ← append_shift1]
  have h0 : (vh ++ vl : BitVec 128).getLsbD 0 = vl.getLsbD 0 := by
    rw [BitVec.getLsbD_append]; rfl
  rw [h0, ← tab_T, ← append_xor]
  simp

theorem tab_sets (d a b c : BitVec 64) :
    ((((Vector.replicate 16 0).set 8 d).setIfInBounds 4 a).setIfInBounds 2 b).setIfInBounds 1 c =
      #v[0, c, b, 0, a, 0, 0, 0, d, 0, 0, 0, 0, 0, 0, 0] := rfl

theorem combine_row (f : Vector (BitVec 64) 16 → BitVec 64 → Nat → Vector (BitVec 64) 16)
    (hf : f = fun t v i => (List.range' 1 (i - 1)).foldl
      (fun t j => t.setIfInBounds (i + j) (v ^^^ t.getD j 0)) t) (d a b c : BitVec 64) :
    f (f (f #v[0, c, b, 0, a, 0, 0, 0, d, 0, 0, 0, 0, 0, 0, 0] b 2) a 4) d 8 =
        #v[0, c, b, b ^^^ c, a, a ^^^ c, a ^^^ b, a ^^^ (b ^^^ c),
           d, d ^^^ c, d ^^^ b, d ^^^ (b ^^^ c), d ^^^ a, d ^^^ (a ^^^ c),
           d ^^^ (a ^^^ b), d ^^^ (a ^^^ (b ^^^ c))] := by
  have h2 : f #v[0, c, b, 0, a, 0, 0, 0, d, 0, 0, 0, 0, 0, 0, 0] b 2 =
      #v[0, c, b, b ^^^ c, a, 0, 0, 0, d, 0, 0, 0, 0, 0, 0, 0] := by subst hf; rfl
  have h4 : ∀ e, f #v[0, c, b, e, a, 0, 0, 0, d, 0, 0, 0, 0, 0, 0, 0] a 4 =
      #v[0, c, b, e, a, a ^^^ c, a ^^^ b, a ^^^ e, d, 0, 0, 0, 0, 0, 0, 0] := by
    intro e; subst hf; rfl
  have h8 : ∀ e p q r, f #v[0, c, b, e, a, p, q, r, d, 0, 0, 0, 0, 0, 0, 0] d 8 =
      #v[0, c, b, e, a, p, q, r, d, d ^^^ c, d ^^^ b, d ^^^ e, d ^^^ a, d ^^^ p, d ^^^ q, d ^^^ r] := by
    intro e p q r; subst hf; rfl
  rw [h2, h4, h8]

theorem tab_combine (d a b c d' a' b' c' x y : BitVec 64) :
    ([2, 4, 8].foldl tabCombine (#v[0, c, b, 0, a, 0, 0, 0, d, 0, 0, 0, 0, 0, 0, 0],
      #v[0, c', b', 0, a', 0, 0, 0, d', 0, 0, 0, 0, 0, 0, 0], x, y)).1 =
        #v[0, c, b, b ^^^ c, a, a ^^^ c, a ^^^ b, a ^^^ (b ^^^ c),
           d, d ^^^ c, d ^^^ b, d ^^^ (b ^^^ c), d ^^^ a, d ^^^ (a ^^^ c),
           d ^^^ (a ^^^ b), d ^^^ (a ^^^ (b ^^^ c))] ∧
    ([2, 4, 8].foldl tabCombine (#v[0, c, b, 0, a, 0, 0, 0, d, 0, 0, 0, 0, 0, 0, 0],
      #v[0, c', b', 0, a', 0, 0, 0, d', 0, 0, 0, 0, 0, 0, 0], x, y)).2.1 =
        #v[0, c', b', b' ^^^ c', a', a' ^^^ c', a' ^^^ b', a' ^^^ (b' ^^^ c'),
           d', d' ^^^ c', d' ^^^ b', d' ^^^ (b' ^^^ c'), d' ^^^ a', d' ^^^ (a' ^^^ c'),
           d' ^^^ (a' ^^^ b'), d' ^^^ (a' ^^^ (b' ^^^ c'))] :=
  ⟨combine_row _ rfl d a b c, combine_row _ rfl d' a' b' c'⟩

theorem tabOk (h : Block) : TabOk (gcmTables h).1 (gcmTables h).2 (toBV h) := by
  have key : ∀ (vh vl : BitVec 64), 
      let s := [2, 4, 8].foldl tabCombine ([4, 2, 1].foldl tabHalve
        ((Vector.replicate 16 0).set 8 vl, (Vector.replicate 16 0).set 8 vh, vh, vl))
      TabOk s.1 s.2.1 (vh ++ vl) := by
    intro vh vl
    let vh1 := (vh >>> 1) ^^^ ((((vl &&& 1).truncate 32 * 0xe1000000#32).zeroExtend 64) <<< 32)
    let vl1 := (vh <<< 63) ||| (vl >>> 1)
    let vh2 := (vh1 >>> 1) ^^^ ((((vl1 &&& 1).truncate 32 * 0xe1000000#32).zeroExtend 64) <<< 32)
    let vl2 := (vh1 <<< 63) ||| (vl1 >>> 1)
    let vh3 := (vh2 >>> 1) ^^^ ((((vl2 &&& 1).truncate 32 * 0xe1000000#32).zeroExtend 64) <<< 32)
    let vl3 := (vh2 <<< 63) ||| (vl2 >>> 1)
    have e1 : (vh1 ++ vl1 : BitVec 128) = mulx (vh ++ vl) := halve_eq vh vl
    have e2 : (vh2 ++ vl2 : BitVec 128) = mulx (mulx (vh ++ vl)) := by rw [← e1]; exact halve_eq vh1 vl1
    have e3 : (vh3 ++ vl3 : BitVec 128) = mulx (mulx (mulx (vh ++ vl))) := by
      rw [← e2]; exact halve_eq vh2 vl2
    have hh : [4, 2, 1].foldl tabHalve
        ((Vector.replicate 16 0).set 8 vl, (Vector.replicate 16 0).set 8 vh, vh, vl) =
        (((((Vector.replicate 16 0).set 8 vl).setIfInBounds 4 vl1).setIfInBounds 2 vl2).setIfInBounds 1 vl3,
         ((((Vector.replicate 16 0).set 8 vh).setIfInBounds 4 vh1).setIfInBounds 2 vh2).setIfInBounds 1 vh3,
         vh3, vl3) := rfl
    intro s
    have hs : s = [2, 4, 8].foldl tabCombine ([4, 2, 1].foldl tabHalve
        ((Vector.replicate 16 0).set 8 vl, (Vector.replicate 16 0).set 8 vh, vh, vl)) := rfl
    clear_value vh1 vl1 vh2 vl2 vh3 vl3 s
    rw [hh, tab_sets, tab_sets] at hs
    rw [hs, (tab_combine ..).1, (tab_combine ..).2]
    have hv : ∀ n, nibVal (vh ++ vl) n = sel (n.getLsbD 3) (vh ++ vl) ^^^
        (sel (n.getLsbD 2) (vh1 ++ vl1) ^^^ (sel (n.getLsbD 1) (vh2 ++ vl2) ^^^ 
        sel (n.getLsbD 0) (vh3 ++ vl3))) := by
      intro n
      simp only [nibVal, nibBits, horner, List.foldr_cons, List.foldr_nil, mulx_xor, mulx_sel, e1, e2, e3]
      simp
      ac_rfl
    intro n
    rw [hv]
    clear hv e1 e2 e3 hh
    have hn : n = 0 ∨ n = 1 ∨ n = 2 ∨ n = 3 ∨ n = 4 ∨ n = 5 ∨ n = 6 ∨ n = 7 ∨ n = 8 ∨ n = 9 ∨ n = 10 ∨
        n = 11 ∨ n = 12 ∨ n = 13 ∨ n = 14 ∨ n = 15 := by revert n; decide
    rcases hn with rfl | rfl | rfl | rfl | rfl | rfl | rfl | rfl |
      rfl | rfl | rfl | rfl | rfl | rfl | rfl | rfl
    · show ((0#64) ++ (0#64) : BitVec 128) = _
      simp [sel, append_xor]
    · show ((vh3) ++ (vl3) : BitVec 128) = _
      simp [sel, append_xor]
    · show ((vh2) ++ (vl2) : BitVec 128) = _
      simp [sel, append_xor]
    · show ((vh2 ^^^ vh3) ++ (vl2 ^^^ vl3) : BitVec 128) = _
      simp [sel, append_xor]
    · show ((vh1) ++ (vl1) : BitVec 128) = _
      simp [sel, append_xor]
    · show ((vh1 ^^^ vh3) ++ (vl1 ^^^ vl3) : BitVec 128) = _
      simp [sel, append_xor]
    · show ((vh1 ^^^ vh2) ++ (vl1 ^^^ vl2) : BitVec 128) = _
      simp [sel, append_xor]
    · show ((vh1 ^^^ (vh2 ^^^ vh3)) ++ (vl1 ^^^ (vl2 ^^^ vl3)) : BitVec 128) = _
      simp [sel, append_xor]
    · show ((vh) ++ (vl) : BitVec 128) = _
      simp [sel, append_xor]
    · show ((vh ^^^ vh3) ++ (vl ^^^ vl3) : BitVec 128) = _
      simp [sel, append_xor]
    · show ((vh ^^^ vh2) ++ (vl ^^^ vl2) : BitVec 128) = _
      simp [sel, append_xor]
    · show ((vh ^^^ (vh2 ^^^ vh3)) ++ (vl ^^^ (vl2 ^^^ vl3)) : BitVec 128) = _
      simp [sel, append_xor]
    · show ((vh ^^^ vh1) ++ (vl ^^^ vl1) : BitVec 128) = _
      simp [sel, append_xor]
    · show ((vh ^^^ (vh1 ^^^ vh3)) ++ (vl ^^^ (vl1 ^^^ vl3)) : BitVec 128) = _
      simp [sel, append_xor]
    · show ((vh ^^^ (vh1 ^^^ vh2)) ++ (vl ^^^ (vl1 ^^^ vl2)) : BitVec 128) = _
      simp [sel, append_xor]
    · show ((vh ^^^ (vh1 ^^^ (vh2 ^^^ vh3))) ++ (vl ^^^ (vl1 ^^^ (vl2 ^^^ vl3))) : BitVec 128) = _
      simp [sel, append_xor]
  have := key (getU32 h 0 <<< 32 ||| getU32 h 4) (getU32 h 8 <<< 32 ||| getU32 h 12)
  rw [getU64_eq] at this
  exact this

end Verif
