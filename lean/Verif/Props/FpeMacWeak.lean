import Verif.Props.FpeMac
import Verif.Lemmas.GfField
import Mathlib.Data.Finset.Powerset
import Mathlib.Data.Nat.Choose.Factorization

/-! C94: what the tags of the authenticated FPE variants authenticate and give away. -/
set_option autoImplicit false

namespace Verif.Props
open Verif Spec Model

/-! ### FF3-GMAC: the tweak bytes 8 to 15 -/

theorem ff3Fn_tweak (E : Block → Block) (radix : Nat) (t t' : List Byte) (h8 : 8 ≤ t.length) (h8' : 8 ≤ t'.length)
    (h : t.take 8 = t'.take 8) (lg : Nat → Nat → Nat) (n : Nat) :
    ff3Fn ⟨E, radix, t⟩ lg n = ff3Fn ⟨E, radix, t'⟩ lg n := by
  have hw : ∀ i, ff3W t i = ff3W t' i := by
    intro i
    rw [ff3W_some t i h8, ff3W_some t' i h8']
    have a : ∀ (w : List Byte) (k : Nat), k ≤ 4 → (w.drop k).take 4 = ((w.take 8).drop k).take 4 := by
      intro w k hk
      rw [List.drop_take, List.take_take, Nat.min_eq_left (by omega)]
    rw [a t _ (by split <;> omega), a t' _ (by split <;> omega), h]
  funext i x
  unfold ff3Fn ff3FOpt ff3RoundS ff3PBytes
  simp only [hw]

theorem ff3Out_tweak (E : Block → Block) (radix : Nat) (t t' : List Byte) (h8 : 8 ≤ t.length) (h8' : 8 ≤ t'.length)
    (h : t.take 8 = t'.take 8) (lg : Nat → Nat → Nat) (X : List Nat) :
    ff3Out ⟨E, radix, t⟩ lg X = ff3Out ⟨E, radix, t'⟩ lg X ∧
      gmacTrace ⟨E, radix, t⟩ lg X = gmacTrace ⟨E, radix, t'⟩ lg X := by
  have e := ff3Fn_tweak E radix t t' h8 h8' h lg X.length
  constructor
  · unfold ff3Out
    rw [e]
  · funext i
    unfold gmacTrace
    rw [e]

theorem gmacTag_bv (ctx : FpeCtx) (lg : Nat → Nat → Nat) (X : List Nat) : toBV (gmacTag ctx lg X) =
    gfMul (toBV (blockOf ctx.tweak)) (hashKey ctx.E) ^^^
      gfMul (toBV (xorBlocks ((List.range 8).map (gmacTrace ctx lg X)))) (hashKey ctx.E) := by
  unfold gmacTag
  rw [toBV_ofBV, toBV_xor, gfMul_xor]

/-- C94: two tweaks with the same first eight bytes give the same FF3-GMAC ciphertext, and tags whose difference is the
difference of the tweaks (bytes 8 to 15) times the hash key. -/
theorem C94_gmac_tweak (tweak tweak' : List Byte) (radix : Nat) (E : Block → Block) (ctx ctx' : FpeCtx)
    (hc : fpeInit tweak radix E = some ctx) (hc' : fpeInit tweak' radix E = some ctx') (ht : 16 ≤ tweak.length)
    (ht' : 16 ≤ tweak'.length) (h8 : tweak.take 8 = tweak'.take 8) (lg : Nat → Nat → Nat) (hlg : LgOk lg)
    (s rest out : List Byte) (hs : ∀ c ∈ s, IsNumeral radix c) (hn : 1 ≤ s.length) (ho : s.length < out.length) :
    ∃ o tag tag', gmacEncrypt ctx lg (s ++ 0 :: rest) out = some (o, tag) ∧
      gmacEncrypt ctx' lg (s ++ 0 :: rest) out = some (o, tag') ∧
      toBV tag ^^^ toBV tag' = gfMul (toBV (blockOf tweak) ^^^ toBV (blockOf tweak')) (hashKey E) := by
  unfold fpeInit at hc hc'
  split at hc
  · cases hc
  · rename_i hr
    rw [if_neg hr] at hc'
    injection hc with hc
    injection hc' with hc'
    subst hc hc'
    have hr2 : 2 ≤ radix := by omega
    obtain ⟨e1, e2⟩ := ff3Out_tweak E radix tweak tweak' (by omega) (by omega) h8 lg (vals s)
    refine ⟨_, _, gmacTag ⟨E, radix, tweak'⟩ lg (vals s), gmacEncrypt_eq _ lg hlg hr2 ht s rest out hs hn ho, ?_, ?_⟩
    · rw [gmacEncrypt_eq _ lg hlg hr2 ht' s rest out hs hn ho, e1]
    · rw [gmacTag_bv, gmacTag_bv, e2, gfMul_xor]
      generalize gfMul (toBV (xorBlocks _)) _ = w
      show gfMul (toBV (blockOf tweak)) (hashKey E) ^^^ w ^^^ (gfMul (toBV (blockOf tweak')) (hashKey E) ^^^ w) = _
      generalize gfMul _ _ = a
      generalize gfMul _ _ = b
      have : a ^^^ w ^^^ (b ^^^ w) = a ^^^ b ^^^ (w ^^^ w) := by ac_rfl
      rw [this, BitVec.xor_self, BitVec.xor_zero]

theorem gfMul_cancel (d h h' : BitVec 128) (hd : d ≠ 0#128) (e : gfMul d h = gfMul d h') : h = h' := by
  have h1 : (⟨d⟩ : Gf) * ⟨h⟩ = ⟨d⟩ * ⟨h'⟩ := by
    apply Gf.ext
    rw [Gf.val_mul, Gf.val_mul]
    exact e
  have h2 : (⟨d⟩ : Gf) ≠ 0 := by
    intro h
    have := congrArg Gf.val h
    rw [Gf.val_zero] at this
    exact hd this
  have h3 := mul_left_cancel₀ h2 h1
  exact congrArg Gf.val h3

theorem blockOf_take_ne (t t' : List Byte) (h : 16 ≤ t.length) (h' : 16 ≤ t'.length) (hne : t.take 16 ≠ t'.take 16) :
    toBV (blockOf t) ^^^ toBV (blockOf t') ≠ 0#128 := by
  intro e
  apply hne
  have e1 : toBV (blockOf t) = toBV (blockOf t') := BitVec.xor_eq_zero_iff.mp e
  have e2 := toBV_injective e1
  apply List.ext_getElem?
  intro i
  by_cases hi : i < 16
  · rw [List.getElem?_take_of_lt hi, List.getElem?_take_of_lt hi]
    have e3 := congrArg (fun b : Block => b[i]) e2
    simp only [blockOf, Vector.getElem_ofFn, List.getD_eq_getElem?_getD] at e3
    rw [List.getElem?_eq_getElem (by omega), List.getElem?_eq_getElem (by omega)] at e3 ⊢
    simpa using e3
  · rw [List.getElem?_eq_none (by simp; omega), List.getElem?_eq_none (by simp; omega)]

/-- C94: the hash key from two tags. One message encrypted under two tweaks that agree in the first eight bytes and differ in
the next eight: exactly one `h` explains the two tags, and it is the hash key of the cipher (the one GCM uses under the same
key). With it, the tag of every message under one tweak gives its tag under every other tweak with the same first eight
bytes. -/
theorem C94_gmac_hash_key (tweak tweak' : List Byte) (radix : Nat) (E : Block → Block) (ctx ctx' : FpeCtx)
    (hc : fpeInit tweak radix E = some ctx) (hc' : fpeInit tweak' radix E = some ctx') (ht : 16 ≤ tweak.length)
    (ht' : 16 ≤ tweak'.length) (h8 : tweak.take 8 = tweak'.take 8) (hne : tweak.take 16 ≠ tweak'.take 16)
    (lg : Nat → Nat → Nat) (hlg : LgOk lg)
    (s rest out : List Byte) (hs : ∀ c ∈ s, IsNumeral radix c) (hn : 1 ≤ s.length) (ho : s.length < out.length) :
    ∃ o tag tag', gmacEncrypt ctx lg (s ++ 0 :: rest) out = some (o, tag) ∧
      gmacEncrypt ctx' lg (s ++ 0 :: rest) out = some (o, tag') ∧
      (∀ h, gfMul (toBV (blockOf tweak) ^^^ toBV (blockOf tweak')) h = toBV tag ^^^ toBV tag' ↔ h = hashKey E) ∧
      ∀ h, gfMul (toBV (blockOf tweak) ^^^ toBV (blockOf tweak')) h = toBV tag ^^^ toBV tag' →
        ∀ (t t' : List Byte) (c c' : FpeCtx), fpeInit t radix E = some c → fpeInit t' radix E = some c' → 16 ≤ t.length →
          16 ≤ t'.length → t.take 8 = t'.take 8 → ∀ s' rest' out' : List Byte, (∀ d ∈ s', IsNumeral radix d) →
          1 ≤ s'.length → s'.length < out'.length → ∃ o' g g', gmacEncrypt c lg (s' ++ 0 :: rest') out' = some (o', g) ∧
            gmacEncrypt c' lg (s' ++ 0 :: rest') out' = some (o', g') ∧
            toBV g' = toBV g ^^^ gfMul (toBV (blockOf t) ^^^ toBV (blockOf t')) h := by
  obtain ⟨o, tag, tag', e1, e2, e3⟩ := C94_gmac_tweak tweak tweak' radix E ctx ctx' hc hc' ht ht' h8 lg hlg s rest out hs hn ho
  have hu : ∀ h, gfMul (toBV (blockOf tweak) ^^^ toBV (blockOf tweak')) h = toBV tag ^^^ toBV tag' ↔ h = hashKey E := by
    intro h
    constructor
    · intro hh
      rw [e3] at hh
      exact gfMul_cancel _ _ _ (blockOf_take_ne tweak tweak' ht ht' hne) hh
    · rintro rfl
      exact e3.symm
  refine ⟨o, tag, tag', e1, e2, hu, ?_⟩
  intro h hh t t' c c' i1 i2 l1 l2 h8' s' rest' out' hs' hn' ho'
  rw [(hu h).mp hh]
  obtain ⟨o', g, g', f1, f2, f3⟩ := C94_gmac_tweak t t' radix E c c' i1 i2 l1 l2 h8' lg hlg s' rest' out' hs' hn' ho'
  refine ⟨o', g, g', f1, f2, ?_⟩
  rw [← f3, ← BitVec.xor_assoc, BitVec.xor_self, BitVec.zero_xor]

/-- C94: tweak bytes from index 16 on are not authenticated. -/
theorem C94_gmac_long_tweak (tweak more more' : List Byte) (radix : Nat) (E : Block → Block) (ctx ctx' : FpeCtx)
    (hc : fpeInit (tweak ++ more) radix E = some ctx) (hc' : fpeInit (tweak ++ more') radix E = some ctx')
    (ht : tweak.length = 16) (lg : Nat → Nat → Nat) (hlg : LgOk lg)
    (s rest out : List Byte) (hs : ∀ c ∈ s, IsNumeral radix c) (hn : 1 ≤ s.length) (ho : s.length < out.length) :
    gmacEncrypt ctx lg (s ++ 0 :: rest) out = gmacEncrypt ctx' lg (s ++ 0 :: rest) out := by
  obtain ⟨o, tag, tag', e1, e2, e3⟩ := C94_gmac_tweak (tweak ++ more) (tweak ++ more') radix E ctx ctx' hc hc'
    (by simp; omega) (by simp; omega) (by rw [List.take_append_of_le_length (by omega), List.take_append_of_le_length (by omega)])
    lg hlg s rest out hs hn ho
  have hb : blockOf (tweak ++ more) = blockOf (tweak ++ more') := by
    unfold blockOf
    congr 1
    funext i
    have := i.2
    rw [List.getD_eq_getElem?_getD, List.getD_eq_getElem?_getD, List.getElem?_append_left (by omega),
      List.getElem?_append_left (by omega)]
  rw [hb, BitVec.xor_self, gf_zero_mul] at e3
  rw [e1, e2, toBV_injective (BitVec.xor_eq_zero_iff.mp e3)]

/-- Two tweaks of 16 bytes that differ in the last byte. -/
example : fpeInit (List.replicate 16 7) 10 id = some ⟨id, 10, List.replicate 16 7⟩ ∧
    fpeInit (List.replicate 15 7 ++ [8]) 10 id = some ⟨id, 10, List.replicate 15 7 ++ [8]⟩ ∧
    (List.replicate 16 7 : List Byte).take 8 = (List.replicate 15 7 ++ [8]).take 8 ∧
    (List.replicate 16 7 : List Byte).take 16 ≠ (List.replicate 15 7 ++ [8]).take 16 := by
  refine ⟨rfl, rfl, by decide, by decide⟩

/-! ### FF1-CMAC: few tags -/

/-- A sum of terms in characteristic two depends only on the terms that occur an odd number of times. -/
theorem sum_odd (G : Fin 256 → Gf) (ws : List (Fin 256)) : ∃ A : Finset (Fin 256), A.card ≤ ws.length ∧
    A.card % 2 = ws.length % 2 ∧ (ws.map G).sum = ∑ w ∈ A, G w := by
  induction ws with
  | nil => exact ⟨∅, by simp, by simp, by simp⟩
  | cons w ws ih =>
    obtain ⟨A, h1, h2, h3⟩ := ih
    by_cases hw : w ∈ A
    · refine ⟨A.erase w, ?_, ?_, ?_⟩
      · rw [Finset.card_erase_of_mem hw, List.length_cons]; omega
      · have := Finset.card_pos.mpr ⟨w, hw⟩
        rw [Finset.card_erase_of_mem hw, List.length_cons]; omega
      · rw [List.map_cons, List.sum_cons, h3, ← Finset.add_sum_erase A G hw, ← add_assoc, Gf.add_self, zero_add]
    · refine ⟨insert w A, ?_, ?_, ?_⟩
      · rw [Finset.card_insert_of_notMem hw, List.length_cons]; omega
      · rw [Finset.card_insert_of_notMem hw, List.length_cons]; omega
      · rw [List.map_cons, List.sum_cons, h3, Finset.sum_insert hw]

theorem xorBlocks_sum (l : List Block) : toBV (xorBlocks l) = ((l.map fun b => (⟨toBV b⟩ : Gf)).sum).val := by
  induction l with
  | nil => rw [show xorBlocks [] = zeroBlock from rfl, toBV_zero]; rfl
  | cons b l ih => rw [xorBlocks_cons, toBV_xor, ih, List.map_cons, List.sum_cons]; rfl

/-- The number of sets of 0, 2, 4, 6, 8 or 10 bytes. -/
def evenSets : Nat := Nat.choose 256 0 + Nat.choose 256 2 + Nat.choose 256 4 + Nat.choose 256 6 + Nat.choose 256 8 +
  Nat.choose 256 10

theorem evenSets_lt : evenSets < 2 ^ 58 := by
  unfold evenSets
  simp only [Nat.choose_eq_descFactorial_div_factorial]
  decide +kernel

/-- C94: for one block function, FF1-CMAC has fewer than `2^58` tags, over all tweaks, radices, inputs and contents of
uninitialised memory: the tag is the xor of ten values taken from 256, and equal values cancel. -/
theorem C94_cmac_tag_space (E : Block → Block) : ∃ S : Finset Block, S.card < 2 ^ 58 ∧
    ∀ (ctx : FpeCtx) (tweak : List Byte) (radix : Nat) (_ : fpeInit tweak radix E = some ctx)
      (lg : Nat → Nat → Nat) (_ : LgOk lg) (s rest out : List Byte) (_ : ∀ c ∈ s, IsNumeral radix c)
      (_ : 2 ≤ s.length) (_ : QOk lg tweak radix s.length) (_ : s.length < out.length) (junk : Nat → Block),
      ∃ o tag, cmacEncrypt ctx lg junk (s ++ 0 :: rest) out = some (o, tag) ∧ tag ∈ S := by
  let g : Fin 256 → Block := fun w => E (cmacKey1 E ^^^ Vector.replicate 16 (BitVec.ofNat 8 w.1))
  let G : Fin 256 → Gf := fun w => ⟨toBV (g w)⟩
  let U : Finset (Fin 256) := Finset.univ
  have hU : U.card = 256 := by simp [U]
  refine ⟨(U.powersetCard 0 ∪ U.powersetCard 2 ∪ U.powersetCard 4 ∪ U.powersetCard 6 ∪ U.powersetCard 8 ∪
    U.powersetCard 10).image fun A => ofBV (∑ w ∈ A, G w).val, ?_, ?_⟩
  · refine Nat.lt_of_le_of_lt Finset.card_image_le (Nat.lt_of_le_of_lt ?_ evenSets_lt)
    unfold evenSets
    have c : ∀ j, (U.powersetCard j).card = Nat.choose 256 j := fun j => by rw [Finset.card_powersetCard, hU]
    rw [← c, ← c, ← c, ← c, ← c, ← c]
    refine Nat.le_trans (Finset.card_union_le _ _) (Nat.add_le_add_right ?_ _)
    refine Nat.le_trans (Finset.card_union_le _ _) (Nat.add_le_add_right ?_ _)
    refine Nat.le_trans (Finset.card_union_le _ _) (Nat.add_le_add_right ?_ _)
    refine Nat.le_trans (Finset.card_union_le _ _) (Nat.add_le_add_right ?_ _)
    exact Finset.card_union_le _ _
  · intro ctx tweak radix hc lg hlg s rest out hs hn hT ho junk
    unfold fpeInit at hc
    split at hc
    · cases hc
    · rename_i hr
      injection hc with hc
      subst hc
      have hr2 : 2 ≤ radix := by omega
      refine ⟨_, _, cmacEncrypt_eq _ lg hlg hr2 junk s rest out hs hn ho hT, ?_⟩
      have hz := cmacTrace_byte ⟨E, radix, tweak⟩ lg hlg hr2 junk (vals s) (vals_lt s hs)
        (by rw [length_vals]; exact hn)
      have hws : ∀ l : List Nat, (∀ i ∈ l, i < 10) → ∃ ws : List (Fin 256), ws.length = l.length ∧
          l.map (cmacTrace ⟨E, radix, tweak⟩ lg junk (vals s)) = ws.map g := by
        intro l
        induction l with
        | nil => intro _; exact ⟨[], rfl, rfl⟩
        | cons i l ih =>
          intro hl
          obtain ⟨ws, e1, e2⟩ := ih (fun j hj => hl j (by simp [hj]))
          obtain ⟨b, hb⟩ := hz i (hl i (by simp))
          obtain ⟨w, rfl⟩ := byte_fin b
          exact ⟨w :: ws, by simp [e1], by rw [List.map_cons, e2, List.map_cons, hb]⟩
      obtain ⟨ws, e1, e2⟩ := hws (List.range 10) (fun i hi => List.mem_range.mp hi)
      obtain ⟨A, a1, a2, a3⟩ := sum_odd G ws
      rw [List.length_range] at e1
      rw [e1] at a1 a2
      simp only [Finset.mem_image, Finset.mem_union, Finset.mem_powersetCard]
      refine ⟨A, ?_, ?_⟩
      · have hA : A ⊆ U := Finset.subset_univ _
        simp only [hA, true_and]
        omega
      · rw [e2]
        apply toBV_injective
        rw [toBV_ofBV, xorBlocks_sum, List.map_map, ← a3]
        rfl

end Verif.Props
