import Verif.Spec.SeExtract
import Verif.Props.WbExtract
import Verif.Props.SeWbsm4

/-! Property C85: the tables of white-box SM4 from self-equivalences reveal the key. -/
set_option autoImplicit false

namespace Verif.Props
open Verif Spec Model

/-- A round cancels out for every byte `u` exactly if the guess is byte `j` of the round key, under any injective encoding. -/
theorem candidate_iff (f : Word → Word) (hf : ∀ x y, f x = f y → x = y) (w : Word) (j : Fin 4) (k : Byte) :
    (∀ u, f (sm4L (byteAt j (sm4Sbox (u ^^^ k))) ^^^ sm4T (byteAt j u ^^^ w)) =
      f (sm4L (byteAt j (sm4Sbox (0 ^^^ k))) ^^^ sm4T (byteAt j 0 ^^^ w))) ↔ k = byteOf j w := by
  obtain ⟨R, hR⟩ := tau_byte j w
  generalize byteOf j w = v at hR
  have hxor : ∀ a b : Byte, byteAt j a ^^^ byteAt j b = byteAt j (a ^^^ b) := by
    intro a b
    unfold byteAt
    rw [BitVec.zeroExtend, BitVec.setWidth_xor, BitVec.shiftLeft_xor_distrib]
  have hp : ∀ u, sm4L (byteAt j (sm4Sbox (u ^^^ k))) ^^^ sm4T (byteAt j u ^^^ w) =
      sm4L (byteAt j (sm4Sbox (u ^^^ k) ^^^ sm4Sbox (u ^^^ v)) ^^^ R) := by
    intro u
    rw [sm4T, hR, ← hxor, sm4L_xor, sm4L_xor, sm4L_xor, BitVec.xor_assoc]
  simp only [hp]
  constructor
  · intro h
    have hs : ∀ u, sm4Sbox (u ^^^ k) ^^^ sm4Sbox (u ^^^ v) = sm4Sbox k ^^^ sm4Sbox v := by
      intro u
      have h3 := BitVec.xor_left_inj _ |>.1 (sm4L_inj _ _ (hf _ _ (h u)))
      have h4 := byteAt_inj _ _ _ h3
      rwa [show (0 : Byte) ^^^ k = k from BitVec.zero_xor, show (0 : Byte) ^^^ v = v from BitVec.zero_xor] at h4
    rcases Classical.em (k = v) with e | e
    · exact e
    · exfalso
      obtain ⟨t, ht⟩ := sbox_derivative (k ^^^ v) (fun h0 => e (BitVec.xor_eq_zero_iff.1 h0))
      apply ht
      have e1 := hs (t ^^^ k)
      have e2 := hs k
      rw [BitVec.xor_self] at e2
      rw [BitVec.xor_assoc, BitVec.xor_assoc, BitVec.xor_self, BitVec.xor_zero] at e1
      exact e1.trans e2.symm
  · rintro rfl u
    rw [BitVec.xor_self, BitVec.xor_self]

theorem se_prefix (r : SeRnd) (mode : EncMode) (key : List Byte) (n : Nat) (hn : n ≤ 32) (X : Quad) :
    SeEnc r n (((sm4InitKey key mode).toList.take n).foldl sm4Round X) (sePrefix (seGenTable r mode key) n X) := by
  have h := se_rounds r mode key ((List.finRange 32).take n) 0 (by
    rw [List.map_take, show (List.finRange 32).map Fin.val = List.range' 0 32 by decide, List.length_take, List.length_finRange,
      Nat.min_eq_left hn]
    apply List.ext_getElem
    · simp; omega
    · intro i h1 h2; simp) X
    ⟨affineU (r.P 0) X.a, affineU (r.P 1) X.b, affineU (r.P 2) X.c, affineU (r.P 3) X.d⟩ ⟨rfl, rfl, rfl, rfl⟩
  have hl : ((List.finRange 32).take n).map (fun i => (sm4InitKey key mode)[i]) = (sm4InitKey key mode).toList.take n := by
    generalize sm4InitKey key mode = v
    apply List.ext_getElem
    · simp
    · intro i h1 h2
      simp
  rw [hl, List.length_take, List.length_finRange, Nat.min_eq_left hn, Nat.zero_add] at h
  exact h

theorem seProbe_eq (r : SeRnd) (mode : EncMode) (key : List Byte) (n : Nat) (hn : n < 32) (j : Fin 4) (k u : Byte) :
    seProbe (seGenTable r mode key) ((sm4InitKey key mode).toList.take n) j k u =
      affineU (r.P (n + 4)) (sm4L (byteAt j (sm4Sbox (u ^^^ k))) ^^^ sm4T (byteAt j u ^^^ (sm4InitKey key mode)[n])) := by
  generalize hrk : sm4InitKey key mode = rk
  have hlen : (rk.toList.take n).length = n := by simp; omega
  unfold seProbe
  rw [hlen]
  generalize hY : (⟨sm4L (byteIn j (sm4Sbox (u ^^^ k))), byteIn j u, 0, 0⟩ : Quad) = Y
  have h := se_prefix r mode key (n + 1) (by omega) ((rk.toList.take n).foldr sm4Unround Y)
  have ht : rk.toList.take (n + 1) = rk.toList.take n ++ [rk[n]] := by
    rw [List.take_add_one]
    simp [hn]
  rw [hrk, ht, List.foldl_append, unrounds] at h
  have h3 := h.2.2.2
  rw [show n + 1 + 3 = n + 4 by omega] at h3
  refine Eq.trans h3 ?_
  subst hY
  have z : ∀ v : BitVec 32, v ^^^ 0 = v := fun v => BitVec.xor_zero
  simp only [List.foldl_cons, List.foldl_nil, sm4Round, byteIn_eq, z]

theorem seFindByte_eq (r : SeRnd) (mode : EncMode) (key : List Byte) (n : Nat) (hn : n < 32) (j : Fin 4) :
    seFindByte (seGenTable r mode key) ((sm4InitKey key mode).toList.take n) j = byteOf j (sm4InitKey key mode)[n] := by
  have mem : ∀ b : Byte, b ∈ (List.finRange 256).map (BitVec.ofFin (w := 8)) := fun b =>
    List.mem_map.2 ⟨b.toFin, List.mem_finRange _, rfl⟩
  have hinj : ∀ x y, affineU (r.P (n + 4)) x = affineU (r.P (n + 4)) y → x = y := by
    intro x y h
    have h2 := congrArg (affineU (r.Pinv (n + 4))) h
    rwa [(se_P_inv r _).1, (se_P_inv r _).1] at h2
  have key' : ∀ k : Byte, (((List.finRange 256).map BitVec.ofFin).all fun u =>
      seProbe (seGenTable r mode key) ((sm4InitKey key mode).toList.take n) j k u ==
        seProbe (seGenTable r mode key) ((sm4InitKey key mode).toList.take n) j k 0) = true ↔
      k = byteOf j (sm4InitKey key mode)[n] := by
    intro k
    rw [← candidate_iff _ hinj, List.all_eq_true]
    simp only [← seProbe_eq r mode key n hn]
    constructor
    · intro h u
      exact eq_of_beq (h u (mem u))
    · intro h u _
      exact beq_iff_eq.2 (h u)
  unfold seFindByte
  cases hf : ((List.finRange 256).map (BitVec.ofFin (w := 8))).find? fun k => ((List.finRange 256).map BitVec.ofFin).all fun u =>
      seProbe (seGenTable r mode key) ((sm4InitKey key mode).toList.take n) j k u ==
        seProbe (seGenTable r mode key) ((sm4InitKey key mode).toList.take n) j k 0 with
  | none => exact absurd ((key' _).2 rfl) (List.find?_eq_none.1 hf _ (mem _))
  | some k =>
    have h := List.find?_some (p := fun k => ((List.finRange 256).map BitVec.ofFin).all fun u =>
      seProbe (seGenTable r mode key) ((sm4InitKey key mode).toList.take n) j k u ==
        seProbe (seGenTable r mode key) ((sm4InitKey key mode).toList.take n) j k 0) hf
    exact (key' k).1 h

theorem seFindRks_eq (r : SeRnd) (mode : EncMode) (key : List Byte) (n : Nat) (hn : n ≤ 32) :
    seFindRks (seGenTable r mode key) n = (sm4InitKey key mode).toList.take n := by
  induction n with
  | zero => rfl
  | succ n ih =>
    rw [seFindRks, ih (by omega), List.take_add_one]
    have h1 : seNextRk (seGenTable r mode key) ((sm4InitKey key mode).toList.take n) = (sm4InitKey key mode)[n] := by
      simp only [seNextRk, seFindByte_eq r mode key n (by omega)]
      exact append4_extract (sm4InitKey key mode)[n]
    rw [h1]
    simp [show n < 32 by omega]

/-- C85, keys of any length: a context of the self-equivalence scheme gives away the (padded) key, whatever the random numbers and
the mode. -/
theorem C85_padded_key (r : SeRnd) (mode : EncMode) (key : List Byte) : seExtract mode (seGenTable r mode key) = padKey key := by
  have hk := initKey_eq key
  generalize padKey key = pk at hk ⊢
  unfold seExtract
  rw [seFindRks_eq r mode key 4 (by decide)]
  cases mode with
  | encrypt =>
    rw [hk.1, show (sm4RoundKeys (quadOf pk)).take 4 = [sm4Rk (quadOf pk) 0, sm4Rk (quadOf pk) 1, sm4Rk (quadOf pk) 2, sm4Rk (quadOf pk) 3] from rfl]
    show (unschedule 4 (sm4KeyWindow (quadOf pk) 4)).toBlock = pk
    rw [unschedule_eq, toBlock_quadOf]
  | decrypt =>
    rw [hk.2, show (sm4RoundKeys (quadOf pk)).reverse.take 4 = [sm4Rk (quadOf pk) 31, sm4Rk (quadOf pk) 30, sm4Rk (quadOf pk) 29, sm4Rk (quadOf pk) 28] from rfl]
    show (unschedule 32 (sm4KeyWindow (quadOf pk) 32)).toBlock = pk
    rw [unschedule_eq, toBlock_quadOf]

/-- C85: a sixteen byte key is recovered exactly. -/
theorem C85_se_wbsm4_key_extraction (r : SeRnd) (mode : EncMode) (key : Block) :
    seExtract mode (seGenTable r mode key.toList) = key := by
  rw [C85_padded_key, padKey_16]

/-- C85: contexts of the same mode for two keys are never the same, whatever the random numbers. -/
theorem C85_contexts_differ (r r' : SeRnd) (mode : EncMode) (k k' : Block) (h : k ≠ k') :
    seGenTable r mode k.toList ≠ seGenTable r' mode k'.toList := by
  intro e
  apply h
  rw [← C85_se_wbsm4_key_extraction r mode k, e, C85_se_wbsm4_key_extraction]

example (r : SeRnd) : seExtract .decrypt (seGenTable r .decrypt (Vector.replicate 16 7).toList) = Vector.replicate 16 7 :=
  C85_se_wbsm4_key_extraction r .decrypt _

end Verif.Props
