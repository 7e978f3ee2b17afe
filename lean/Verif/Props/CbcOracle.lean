import Mathlib.Data.Fintype.Card
import Verif.Lemmas.GcmStream
import Verif.Props.CbcLen

/-! Property C102: what the length reported after CBC decryption tells about the plaintext. -/
set_option autoImplicit false

namespace Verif.Props
open Verif Verif.Model

/-- The length a caller is told for the ciphertext `cs` (output buffer of the same size). -/
def reported (D : Block → Block) (iv : Block) (cs : List Block) : Option (BitVec 64) :=
  (cbcDecryptWrapper D (fromBlocks cs) (16 * cs.length) (List.replicate (16 * cs.length) 0) (16 * cs.length) iv).bind (·.useOlen)

theorem padOf_le (b : Byte) : padOf b ≤ 16 := by
  unfold padOf
  split <;> omega

theorem specDec_append (D : Block → Block) (cs : List Block) (c : Block) : ∀ iv,
    Spec.cbcDecrypt D iv (cs ++ [c]) = Spec.cbcDecrypt D iv cs ++ [D c ^^^ cs.getLastD iv] := by
  induction cs with
  | nil => intro iv; rfl
  | cons x cs ih =>
    intro iv
    rw [List.cons_append, Spec.cbcDecrypt, ih, Spec.cbcDecrypt, List.getLastD_cons, List.cons_append]

theorem block_last (b : Block) (h : b.toList ≠ []) : b.toList.getLast h = b[15] := by
  rw [List.getLast_eq_getElem]
  simp

/-- C102: the length reported for whole blocks is theirs less 1 to 16 if the last byte of the plaintext is 1 to 16. So it
depends on one byte of the plaintext only. -/
theorem C102_length (D : Block → Block) (iv : Block) (cs : List Block) (c : Block) (h : 16 * (cs.length + 1) < 2 ^ 31)
    (rest out : List Byte) (maxOlen : Nat) (hcap : 16 * (cs.length + 1) ≤ maxOlen) (hout : maxOlen ≤ out.length) :
    ∃ r, cbcDecryptWrapper D (fromBlocks (cs ++ [c]) ++ rest) (16 * (cs.length + 1)) out maxOlen iv = some r ∧ r.ret = 1 ∧
      r.useOlen = some (BitVec.ofNat 64 (16 * (cs.length + 1) - padOf ((D c)[15] ^^^ (cs.getLastD iv)[15]))) := by
  have hl : (cs ++ [c]).length = cs.length + 1 := by simp
  have hd := cbcDecrypt_aligned D (cs ++ [c]) rest out maxOlen iv (by rwa [hl]) (by rwa [hl]) hout
  rw [hl, specDec_append] at hd
  have hlen : (fromBlocks (Spec.cbcDecrypt D iv cs ++ [D c ^^^ cs.getLastD iv])).length = 16 * (cs.length + 1) := by
    rw [length_fromBlocks, List.length_append, length_specCbcDecrypt, List.length_singleton]
  have htake : (fromBlocks (Spec.cbcDecrypt D iv cs ++ [D c ^^^ cs.getLastD iv]) ++ out.drop (16 * (cs.length + 1))).take
      (16 * (cs.length + 1)) = fromBlocks (Spec.cbcDecrypt D iv cs ++ [D c ^^^ cs.getLastD iv]) := by
    rw [← hlen, List.take_left]
  have hne : fromBlocks (Spec.cbcDecrypt D iv cs ++ [D c ^^^ cs.getLastD iv]) ≠ [] := by
    rw [← List.length_pos_iff, hlen]
    omega
  have hb : (D c ^^^ cs.getLastD iv).toList ≠ [] := by
    rw [← List.length_pos_iff]
    simp
  have hlast : (fromBlocks (Spec.cbcDecrypt D iv cs ++ [D c ^^^ cs.getLastD iv])).getLast hne =
      (D c)[15] ^^^ (cs.getLastD iv)[15] := by
    have e : fromBlocks (Spec.cbcDecrypt D iv cs ++ [D c ^^^ cs.getLastD iv]) =
        fromBlocks (Spec.cbcDecrypt D iv cs) ++ (D c ^^^ cs.getLastD iv).toList := by
      rw [fromBlocks_append, fromBlocks_cons, fromBlocks_nil, List.append_nil]
    rw [List.getLast_congr _ (by simp) e, List.getLast_append_of_ne_nil _ hb, block_last, Vec.getElem_xor]
  have hp := padOf_le ((D c)[15] ^^^ (cs.getLastD iv)[15])
  have hs : separateLength (fromBlocks (Spec.cbcDecrypt D iv cs ++ [D c ^^^ cs.getLastD iv])) =
      some (BitVec.ofNat 64 (16 * (cs.length + 1) - padOf ((D c)[15] ^^^ (cs.getLastD iv)[15]))) := by
    rw [separateLength, dif_pos hne, hlast, hlen]
    show some ((BitVec.ofNat 32 _ - BitVec.ofNat 32 (padOf _)).signExtend 64) = _
    generalize padOf _ = p at hp ⊢
    have h32 : (BitVec.ofNat 32 (16 * (cs.length + 1)) - BitVec.ofNat 32 p) = BitVec.ofNat 32 (16 * (cs.length + 1) - p) := by
      apply BitVec.eq_of_toNat_eq
      simp only [BitVec.toNat_sub, BitVec.toNat_ofNat]
      omega
    congr 1
    apply BitVec.eq_of_toNat_eq
    rw [h32, BitVec.toNat_signExtend, BitVec.msb_eq_decide]
    simp only [BitVec.toNat_setWidth, BitVec.toNat_ofNat]
    rw [if_neg (by simp; omega)]
    omega
  refine ⟨⟨1, fromBlocks (Spec.cbcDecrypt D iv cs ++ [D c ^^^ cs.getLastD iv]) ++ out.drop (16 * (cs.length + 1)),
    some (BitVec.ofNat 64 (16 * (cs.length + 1) - padOf ((D c)[15] ^^^ (cs.getLastD iv)[15]))), (cs ++ [c]).getLastD iv⟩,
    ?_, rfl, rfl⟩
  rw [cbcDecryptWrapper, hd]
  simp only [Option.bind_eq_bind, Option.bind_some]
  rw [if_neg (by decide), if_neg (by rw [List.length_append, hlen]; omega), htake, hs]
  rfl

theorem reported_eq (D : Block → Block) (iv : Block) (cs : List Block) (c : Block) (h : 16 * (cs.length + 1) < 2 ^ 31) :
    reported D iv (cs ++ [c]) = some (BitVec.ofNat 64 (16 * (cs.length + 1) - padOf ((D c)[15] ^^^ (cs.getLastD iv)[15]))) := by
  obtain ⟨r, h1, -, h2⟩ := C102_length D iv cs c h [] (List.replicate (16 * (cs.length + 1)) 0) (16 * (cs.length + 1)) le_rfl (by simp)
  rw [List.append_nil] at h1
  rw [reported, List.length_append, List.length_singleton, h1]
  exact h2

theorem reported_one (D : Block → Block) (iv c : Block) :
    reported D iv [c] = some (BitVec.ofNat 64 (16 - padOf ((D c)[15] ^^^ iv[15]))) := by
  have := reported_eq D iv [] c (by simp)
  simpa using this

theorem sixteen_table : ∀ d : Byte, ∃ j : Fin 16, padOf (d ^^^ BitVec.ofNat 8 (16 * j.1)) ≠ 0 ∧
    d = BitVec.ofNat 8 (16 * j.1) ^^^ BitVec.ofNat 8 (padOf (d ^^^ BitVec.ofNat 8 (16 * j.1))) ∧
    ∀ i : Fin 16, i ≠ j → padOf (d ^^^ BitVec.ofNat 8 (16 * i.1)) = 0 := by
  have : ∀ d : Fin 256, ∃ j : Fin 16, padOf (BitVec.ofFin (w := 8) d ^^^ BitVec.ofNat 8 (16 * j.1)) ≠ 0 ∧
    BitVec.ofFin (w := 8) d = BitVec.ofNat 8 (16 * j.1) ^^^ BitVec.ofNat 8 (padOf (BitVec.ofFin (w := 8) d ^^^ BitVec.ofNat 8 (16 * j.1))) ∧
    ∀ i : Fin 16, i ≠ j → padOf (BitVec.ofFin (w := 8) d ^^^ BitVec.ofNat 8 (16 * i.1)) = 0 := by decide +kernel
  intro d
  exact this d.toFin

/-- C102: of sixteen calls on a block `c` with IVs ending in 00, 10, .., f0 exactly one reports fewer than 16 bytes; which
one and how many give the last byte of the deciphered block. -/
theorem C102_reveal (D : Block → Block) (c : Block) (ivs : Fin 16 → Block) (hiv : ∀ j, (ivs j)[15] = BitVec.ofNat 8 (16 * j.1)) :
    ∃ j n, n < 16 ∧ reported D (ivs j) [c] = some (BitVec.ofNat 64 n) ∧
      (D c)[15] = BitVec.ofNat 8 (16 * j.1) ^^^ BitVec.ofNat 8 (16 - n) ∧
      ∀ i, i ≠ j → reported D (ivs i) [c] = some 16 := by
  obtain ⟨j, h1, h2, h3⟩ := sixteen_table (D c)[15]
  have hp := padOf_le ((D c)[15] ^^^ BitVec.ofNat 8 (16 * j.1))
  refine ⟨j, 16 - padOf ((D c)[15] ^^^ BitVec.ofNat 8 (16 * j.1)), by omega, ?_, ?_, ?_⟩
  · rw [reported_one, hiv]
  · rw [show 16 - (16 - padOf ((D c)[15] ^^^ BitVec.ofNat 8 (16 * j.1))) = padOf ((D c)[15] ^^^ BitVec.ofNat 8 (16 * j.1)) by omega]
    exact h2
  · intro i hi
    rw [reported_one, hiv, h3 i hi]
    rfl

theorem specEnc_get (E : Block → Block) (ps : List Block) : ∀ (iv : Block) (i : Nat) (p : Block), ps[i]? = some p →
    ∃ c, (Spec.cbcEncrypt E iv ps)[i]? = some c ∧ c = E (p ^^^ (((Spec.cbcEncrypt E iv ps).take i).getLastD iv)) := by
  induction ps with
  | nil => intro iv i p h; simp at h
  | cons x ps ih =>
    intro iv i p h
    cases i with
    | zero =>
      simp only [List.getElem?_cons_zero, Option.some.injEq] at h
      subst h
      exact ⟨_, rfl, rfl⟩
    | succ i =>
      rw [List.getElem?_cons_succ] at h
      obtain ⟨c, h1, h2⟩ := ih (E (x ^^^ iv)) i p h
      refine ⟨c, by rw [Spec.cbcEncrypt, List.getElem?_cons_succ, h1], ?_⟩
      rw [Spec.cbcEncrypt, List.take_succ_cons, List.getLastD_cons]
      exact h2

/-- C102: so sixteen calls per block give the last byte of each block of a CBC encrypted message, without the key. -/
theorem C102_message (E D : Block → Block) (hDE : ∀ b, D (E b) = b) (iv : Block) (ps : List Block) (i : Nat) (p : Block)
    (hi : ps[i]? = some p) (ivs : Fin 16 → Block) (hiv : ∀ j, (ivs j)[15] = BitVec.ofNat 8 (16 * j.1)) :
    ∃ c j n, (Spec.cbcEncrypt E iv ps)[i]? = some c ∧ n < 16 ∧ reported D (ivs j) [c] = some (BitVec.ofNat 64 n) ∧
      (∀ k, k ≠ j → reported D (ivs k) [c] = some 16) ∧
      p[15] = BitVec.ofNat 8 (16 * j.1) ^^^ BitVec.ofNat 8 (16 - n) ^^^ (((Spec.cbcEncrypt E iv ps).take i).getLastD iv)[15] := by
  obtain ⟨c, h1, h2⟩ := specEnc_get E ps iv i p hi
  obtain ⟨j, n, h3, h4, h5, h6⟩ := C102_reveal D c ivs hiv
  refine ⟨c, j, n, h1, h3, h4, h6, ?_⟩
  rw [← h5, h2, hDE, Vec.getElem_xor, BitVec.xor_assoc, BitVec.xor_self, BitVec.xor_zero]

/-- Bytes as numbers below 256. -/
def byteEquiv : Fin 256 ≃ Byte where
  toFun := fun i => BitVec.ofFin i
  invFun := fun b => b.toFin
  left_inv := fun _ => rfl
  right_inv := fun _ => rfl

local instance : Fintype Byte := Fintype.ofEquiv (Fin 256) byteEquiv

/-- Last bytes of the deciphered block for which a call says nothing. -/
def silent (c : Block) (q : Block × List Block) : Finset Byte :=
  Finset.univ.filter fun d => q.2.getLast? = some c → padOf (d ^^^ ((q.2.dropLast).getLastD q.1)[15]) = 0

theorem card_pad : (Finset.univ.filter fun d : Byte => padOf d ≠ 0).card ≤ 16 := by
  have h : (Finset.univ.filter fun d : Byte => padOf d ≠ 0) ⊆ (Finset.range 16).image fun i => BitVec.ofNat 8 (i + 1) := by
    intro d hd
    rw [Finset.mem_filter] at hd
    have h1 := padOf_le d
    have h2 : padOf d = d.toNat := by
      have := hd.2
      unfold padOf at this ⊢
      split at this
      · exact absurd rfl this
      · rw [if_neg (by assumption)]
    rw [Finset.mem_image]
    refine ⟨d.toNat - 1, by rw [Finset.mem_range]; omega, ?_⟩
    have := hd.2
    rw [show d.toNat - 1 + 1 = d.toNat by omega]
    apply BitVec.eq_of_toNat_eq
    simp
  exact (Finset.card_le_card h).trans (Finset.card_image_le.trans (by simp))

theorem card_silent (c : Block) (q : Block × List Block) : (Finset.univ \ silent c q).card ≤ 16 := by
  refine le_trans (Finset.card_le_card_of_injOn (fun d => d ^^^ ((q.2.dropLast).getLastD q.1)[15]) ?_ ?_) card_pad
  · intro d hd
    simp only [silent, Finset.coe_sdiff, Finset.coe_univ, Set.mem_sdiff, Finset.mem_coe, Finset.mem_filter, Finset.mem_univ,
      true_and, not_forall] at hd
    obtain ⟨-, -, h⟩ := hd
    simpa using h
  · intro d _ e _ h
    have := congrArg (· ^^^ ((q.2.dropLast).getLastD q.1)[15]) h
    simpa [BitVec.xor_assoc] using this

/-- C102: fifteen calls, on whatever whole blocks, do not suffice: at least 16 values of the byte remain that give the same
answers, whatever the cipher does on other blocks. -/
theorem C102_fifteen (c : Block) (qs : List (Block × List Block)) (hq : qs.length ≤ 15) (hl : ∀ q ∈ qs, 16 * q.2.length < 2 ^ 31) :
    ∃ S : Finset Byte, 16 ≤ S.card ∧ ∀ D D' : Block → Block, (∀ b, b ≠ c → D b = D' b) → (D c)[15] ∈ S → (D' c)[15] ∈ S →
      ∀ q ∈ qs, reported D q.1 q.2 = reported D' q.1 q.2 := by
  have hcard : ∀ qs : List (Block × List Block),
      (Finset.univ.filter fun d : Byte => ∃ q ∈ qs, d ∉ silent c q).card ≤ 16 * qs.length := by
    intro qs
    induction qs with
    | nil => simp
    | cons q qs ih =>
      have hsub : (Finset.univ.filter fun d : Byte => ∃ r ∈ q :: qs, d ∉ silent c r) ⊆
          (Finset.univ \ silent c q) ∪ (Finset.univ.filter fun d : Byte => ∃ r ∈ qs, d ∉ silent c r) := by
        intro d
        simp only [Finset.mem_filter, Finset.mem_univ, true_and, Finset.mem_union, Finset.mem_sdiff, List.mem_cons,
          exists_eq_or_imp]
        exact id
      refine (Finset.card_le_card hsub).trans ((Finset.card_union_le _ _).trans ?_)
      have := card_silent c q
      rw [List.length_cons]
      omega
  refine ⟨Finset.univ.filter fun d : Byte => ¬ ∃ q ∈ qs, d ∉ silent c q, ?_, ?_⟩
  · have h1 := hcard qs
    have h2 := Finset.card_filter_add_card_filter_not (s := (Finset.univ : Finset Byte)) (fun d : Byte => ∃ q ∈ qs, d ∉ silent c q)
    have h3 : (Finset.univ : Finset Byte).card = 256 := by
      rw [Finset.card_univ, ← Fintype.card_congr byteEquiv, Fintype.card_fin]
    omega
  · intro D D' hDD hd hd' q hqm
    simp only [Finset.mem_filter, Finset.mem_univ, true_and, not_exists, not_and, not_not] at hd hd'
    have h1 := hd q hqm
    have h2 := hd' q hqm
    have hlq := hl q hqm
    obtain ⟨iv, cs⟩ := q
    rcases List.eq_nil_or_concat cs with rfl | ⟨as, a, rfl⟩
    · simp [reported, cbcDecryptWrapper, cbcDecrypt, cbcCounts, cbcDecLoop, cbcDecTail, separateLength]
    · rw [List.concat_eq_append] at *
      have hl' : 16 * (as.length + 1) < 2 ^ 31 := by simpa using hlq
      rw [reported_eq D iv as a hl', reported_eq D' iv as a hl']
      by_cases hac : a = c
      · subst hac
        simp only [silent, Finset.mem_filter, Finset.mem_univ, true_and, List.getLast?_append, List.getLast?_singleton,
          Option.some_or, List.dropLast_concat, forall_const] at h1 h2
        rw [h1, h2]
      · rw [hDD a hac]

/- The IVs of C102_reveal and C102_message: zero but for the last byte. -/
example : ∃ ivs : Fin 16 → Block, ∀ j, (ivs j)[15] = BitVec.ofNat 8 (16 * j.1) :=
  ⟨fun j => zeroBlock.set 15 (BitVec.ofNat 8 (16 * j.1)), fun j => by simp⟩

/- C102_length: a deciphered block ending in 3 under an IV ending in 0 counts 13 bytes, two blocks ending in 17 count 32. -/
example : reported (fun _ => Vector.replicate 16 3) zeroBlock [zeroBlock] = some 13 ∧
    reported (fun _ => Vector.replicate 16 17) zeroBlock [zeroBlock, zeroBlock] = some 32 := by
  decide +kernel

/- Fifteen calls as in C102_fifteen: the IVs 00, 10, .., e0 on one block. -/
example (c : Block) : ∃ qs : List (Block × List Block), qs.length ≤ 15 ∧ (∀ q ∈ qs, 16 * q.2.length < 2 ^ 31) ∧ qs.length = 15 := by
  refine ⟨(List.range 15).map fun j => (zeroBlock.set 15 (BitVec.ofNat 8 (16 * j)), [c]), by simp, ?_, by simp⟩
  intro q hq
  simp only [List.mem_map] at hq
  obtain ⟨j, -, rfl⟩ := hq
  simp

end Verif.Props
