import Verif.Props.Endian
import Mathlib.Data.Fintype.EquivFin
import Mathlib.Tactic.Push
import Mathlib.Tactic.ByContra

/-! C119: white-box SM4 from self-equivalences on a big-endian machine. -/
set_option autoImplicit false
set_option linter.unusedSimpArgs false

namespace Verif.Props
open Verif Spec Model

/-- What becomes of the S-box between the self-equivalences `p` and `q`: the matrices and the vectors come from different ones. -/
def seMix (p q : Nat) (z : Byte) : Byte :=
  matMulNum (seB p).mat (sm4Sbox (matMulNum (seA q).mat z ^^^ (seA p).vec)) ^^^ (seB q).vec

/-- The round functions of a big-endian context with the round keys `rks`. -/
def seBigRounds (r : SeRnd) (rks : List Word) : List (Word → Word) :=
  (List.range 32).map fun i z => sm4L (wordOf fun t => seMix (r.idx i t) (r.idx i (3 - t)) (wbyte (z ^^^ rks.getD i 0) t))

theorem seMix_same (p : Nat) (h : p < 2039) (z : Byte) : seMix p p z = sm4Sbox z := by
  have := se_selfEq p h z
  rw [seS_eq, seS_eq] at this
  exact this

theorem seSub_wbyte (y : Word) (t : Fin 4) : wbyte (seSub y) t = sm4Sbox (wbyte y t) := by
  have w3 : wbyte y 3 = y.truncate 8 := congrArg _ (BitVec.ushiftRight_zero _)
  have h : seSub y = wordOf fun t => seS (wbyte y t) := by
    show _ = ((seS (wbyte y 0) ++ seS (wbyte y 1)) ++ (seS (wbyte y 2) ++ seS (wbyte y 3)) : BitVec 32)
    rw [w3]
    exact or4_eq_append _ _ _ _
  rw [h, wordOf_wbyte, seS_eq]

theorem subThree : ∀ t : Fin 4, 3 - (3 - t) = t := by decide

theorem se_big_layer (r : SeRnd) (i : Nat) (z : Word) :
    affineU (r.BBOn .big i) (seSub (affineU (r.AAOn .big i) z)) =
      wordOf fun t => seMix (r.idx i t) (r.idx i (3 - t)) (wbyte z t) := by
  symm
  apply wordOf_eq
  intro t
  have hA := fun s => comBig_aff (fun j => seA (r.idx i j)) z s
  have hB := fun y s => comBig_aff (fun j => seB (r.idx i j)) y s
  show wbyte (affineU (affinecomOn .big (seB (r.idx i 0)) (seB (r.idx i 1)) (seB (r.idx i 2)) (seB (r.idx i 3))) _) t = _
  rw [hB, seSub_wbyte]
  have h2 : wbyte (affineU (r.AAOn .big i) z) (3 - t) = _ := hA (3 - t)
  rw [h2, subThree t]
  rfl

theorem se_POn_inv (o : ByteOrder) (r : SeRnd) (i : Nat) : Inverse (affineU (r.POn o i)) (affineU (r.PinvOn o i)) :=
  C119_affine_pairs o _ _

/-- The words of `s` are those of `X` under the encodings `P[p] .. P[p+3]`. -/
def SeEncBig (r : SeRnd) (p : Nat) (X : Quad) (s : B4) : Prop :=
  s.b0 = affineU (r.POn .big p) X.a ∧ s.b1 = affineU (r.POn .big (p + 1)) X.b ∧ s.b2 = affineU (r.POn .big (p + 2)) X.c ∧
    s.b3 = affineU (r.POn .big (p + 3)) X.d

theorem se_big_step (r : SeRnd) (mode : EncMode) (key : List Byte) (i : Fin 32) (X : Quad) (s : B4) (h : SeEncBig r i.1 X s) :
    SeEncBig r (i.1 + 1)
      (sm4RoundWith X fun z => sm4L (wordOf fun t => seMix (r.idx i.1 t) (r.idx i.1 (3 - t)) (wbyte (z ^^^ (sm4InitKey key mode)[i]) t)))
      (seStep (seGenTableOn .big r mode key) s i) := by
  obtain ⟨h0, h1, h2, h3⟩ := h
  refine ⟨h1, h2, h3, ?_⟩
  simp only [seStep, seGenTableOn, sm4RoundWith]
  generalize (sm4InitKey key mode)[i] = rk
  have hM : ∀ (k : Fin 3) x, affineU (affinemix (r.AAOn .big i.1) (affinemix ⟨identityM 32, rk⟩ (r.PinvOn .big (i.1 + 1 + k.1))))
      (affineU (r.POn .big (i.1 + 1 + k.1)) x) = affineU (r.AAOn .big i.1) (x ^^^ rk) := by
    intro k x
    rw [affineU_affinemix, affineU_affinemix, (se_POn_inv .big r _).1]
    congr 1
    unfold affineU
    simp only [matMulNum_identity]
  have hsum : affineU (affinemix (r.AAOn .big i.1) (affinemix ⟨identityM 32, rk⟩ (r.PinvOn .big (i.1 + 1 + (0 : Fin 3).1)))) s.b1 ^^^
      affineU (affinemix (r.AAOn .big i.1) (affinemix ⟨identityM 32, rk⟩ (r.PinvOn .big (i.1 + 1 + (1 : Fin 3).1)))) s.b2 ^^^
      affineU (affinemix (r.AAOn .big i.1) (affinemix ⟨identityM 32, rk⟩ (r.PinvOn .big (i.1 + 1 + (2 : Fin 3).1)))) s.b3 =
      affineU (r.AAOn .big i.1) (X.b ^^^ X.c ^^^ X.d ^^^ rk) := by
    rw [h1, h2, h3]
    have e0 := hM 0 X.b
    have e1 := hM 1 X.c
    have e2 := hM 2 X.d
    rw [show i.1 + 1 + (0 : Fin 3).1 = i.1 + 1 from rfl] at e0 ⊢
    rw [show i.1 + 1 + (1 : Fin 3).1 = i.1 + 2 from rfl] at e1 ⊢
    rw [show i.1 + 1 + (2 : Fin 3).1 = i.1 + 3 from rfl] at e2 ⊢
    rw [e0, e1, e2, affineU_xor3]
    congr 1
    simp only [BitVec.xor_assoc, BitVec.xor_comm, xor_left_comm32, xor_cancel, BitVec.xor_self, BitVec.xor_zero]
  rw [hsum]
  have := cd_sum (r.POn .big (i.1 + 4)) (r.PinvOn .big i.1) (affinemix ⟨SE_L, 0⟩ (r.BBOn .big i.1)) (r.t i.1) s.b0
    (seSub (affineU (r.AAOn .big i.1) (X.b ^^^ X.c ^^^ X.d ^^^ rk)))
  have hL : ∀ w, affineU (⟨SE_L, 0⟩ : Aff 32) w = sm4L w := by
    intro w
    unfold affineU
    rw [seLmat_eq]
    exact BitVec.xor_zero
  rw [affineU_affinemix ⟨SE_L, 0⟩ (r.BBOn .big i.1), se_big_layer, hL, h0, (se_POn_inv .big r _).1] at this
  rw [h0]
  exact this

theorem se_big_rounds (r : SeRnd) (mode : EncMode) (key : List Byte) (l : List (Fin 32)) (p : Nat)
    (hl : l.map Fin.val = List.range' p l.length) (X : Quad) (s : B4) (h : SeEncBig r p X s) :
    SeEncBig r (p + l.length)
      ((l.map fun i z => sm4L (wordOf fun t =>
        seMix (r.idx i.1 t) (r.idx i.1 (3 - t)) (wbyte (z ^^^ (sm4InitKey key mode)[i]) t))).foldl sm4RoundWith X)
      (l.foldl (seStep (seGenTableOn .big r mode key)) s) := by
  induction l generalizing p X s with
  | nil => exact h
  | cons i l ih =>
    rw [List.map_cons, List.length_cons, List.range'_succ, List.cons.injEq] at hl
    obtain ⟨rfl, hl⟩ := hl
    rw [List.map_cons, List.foldl_cons, List.foldl_cons, List.length_cons, show i.1 + (l.length + 1) = i.1 + 1 + l.length by omega]
    exact ih (i.1 + 1) hl _ _ (se_big_step r mode key i X s h)

theorem se_big_encrypt (r : SeRnd) (mode : EncMode) (key : List Byte) (x : Block) :
    seEncrypt (seGenTableOn .big r mode key) x = sm4With (seBigRounds r (sm4InitKey key mode).toList) x := by
  have hE := se_big_rounds r mode key (List.finRange 32) 0 (by decide) (quadOf x)
    ⟨affineU (r.POn .big 0) (loadU32 x 0), affineU (r.POn .big 1) (loadU32 x 1), affineU (r.POn .big 2) (loadU32 x 2),
      affineU (r.POn .big 3) (loadU32 x 3)⟩ (by
      have hq := load_eq x
      simp only [B4.toQuad, B4.load] at hq
      rw [← hq]
      exact ⟨rfl, rfl, rfl, rfl⟩)
  have hl : ((List.finRange 32).map fun i z => sm4L (wordOf fun t =>
      seMix (r.idx i.1 t) (r.idx i.1 (3 - t)) (wbyte (z ^^^ (sm4InitKey key mode)[i]) t))) =
      seBigRounds r (sm4InitKey key mode).toList := by
    rw [seBigRounds, ← finRange_range]
    apply List.map_congr_left
    intro i _
    funext z
    rw [List.getD_eq_getElem?_getD, Vector.getElem?_toList, Vector.getElem?_eq_getElem i.2]
    rfl
  rw [hl, List.length_finRange] at hE
  obtain ⟨h0, h1, h2, h3⟩ := hE
  unfold seEncrypt
  simp only [get32_eq, storeU32_eq]
  have eS : ∀ i : Fin 4, (seGenTableOn .big r mode key).SE i = r.POn .big i.1 := fun _ => rfl
  have eF : ∀ i : Fin 4, (seGenTableOn .big r mode key).FE i = r.PinvOn .big (35 - i.1) := fun _ => rfl
  rw [eS, eS, eS, eS, eF, eF, eF, eF]
  have e0 : ((0 : Fin 4) : Nat) = 0 := rfl
  have e1 : ((1 : Fin 4) : Nat) = 1 := rfl
  have e2 : ((2 : Fin 4) : Nat) = 2 := rfl
  have e3 : ((3 : Fin 4) : Nat) = 3 := rfl
  rw [e0, e1, e2, e3, h0, h1, h2, h3]
  simp only [Nat.zero_add, Nat.sub_zero, Nat.reduceSub, Nat.reduceAdd, (se_POn_inv .big r _).1]
  rfl

/-- C119: what the self-equivalence cipher computes on a big-endian machine, for every outcome of the random choices. -/
theorem C119_se (r : SeRnd) (key x : Block) :
    seEncrypt (seGenTableOn .big r .encrypt key.toList) x = sm4With (seBigRounds r (sm4RoundKeys (quadOf key))) x ∧
    seEncrypt (seGenTableOn .big r .decrypt key.toList) x = sm4With (seBigRounds r (sm4RoundKeys (quadOf key)).reverse) x := by
  rw [se_big_encrypt, se_big_encrypt, (initKey_eq _).1, (initKey_eq _).2, padKey_16]
  exact ⟨rfl, rfl⟩

theorem se_sym_layer (r : SeRnd) (i : Nat) (h : ∀ t, r.idx i t = r.idx i (3 - t)) (y : Word) :
    (wordOf fun t => seMix (r.idx i t) (r.idx i (3 - t)) (wbyte y t)) = sm4Tau y := by
  apply wordOf_eq
  intro t
  rw [← h t, seMix_same _ (idx_lt r i t), tau_wbyte]

/-- C119: the self-equivalence cipher is SM4 on a big-endian machine if the self-equivalences drawn for the two ends and for the two
inner bytes of the word are the same in every round. -/
theorem C119_se_symmetric (r : SeRnd) (h : ∀ i, i < 32 → r.idx i 0 = r.idx i 3 ∧ r.idx i 1 = r.idx i 2) (key x : Block) :
    seEncrypt (seGenTableOn .big r .encrypt key.toList) x = Spec.sm4Encrypt key x ∧
    seEncrypt (seGenTableOn .big r .decrypt key.toList) x = Spec.sm4Decrypt key x := by
  have hs : ∀ i, i < 32 → ∀ t : Fin 4, r.idx i t = r.idx i (3 - t) := by
    intro i hi t
    obtain ⟨h0, h1⟩ := h i hi
    rcases opp t with rfl | rfl | rfl | rfl
    · exact h0
    · exact h1
    · exact h1.symm
    · exact h0.symm
  have e : ∀ rks : List Word, rks.length = 32 → sm4With (seBigRounds r rks) x = (sm4Crypt rks (quadOf x)).toBlock := by
    intro rks hl
    rw [← sm4With_keys]
    congr 1
    apply List.ext_getElem
    · simp [seBigRounds, hl]
    · intro k h1 h2
      have hk : k < 32 := by simpa [seBigRounds] using h1
      simp only [seBigRounds, List.getElem_map, List.getElem_range]
      funext z
      rw [se_sym_layer r k (hs k hk), List.getD_eq_getElem?_getD, List.getElem?_eq_getElem (by omega)]
      rfl
  rw [(C119_se r key x).1, (C119_se r key x).2, e _ (by simp [sm4RoundKeys]), e _ (by simp [sm4RoundKeys])]
  exact ⟨rfl, rfl⟩

/-- C119: a decryption context undoes an encryption context if it drew the same self-equivalences in the opposite order of
rounds. -/
theorem C119_se_decrypt (r r' : SeRnd) (key x : Block) (h : ∀ k, k < 32 → r'.idx k = r.idx (31 - k)) :
    seDecrypt (seGenTableOn .big r' .decrypt key.toList) (seEncrypt (seGenTableOn .big r .encrypt key.toList) x) = x := by
  have e : seBigRounds r' (sm4RoundKeys (quadOf key)).reverse = (seBigRounds r (sm4RoundKeys (quadOf key))).reverse := by
    have hl : (sm4RoundKeys (quadOf key)).length = 32 := by simp [sm4RoundKeys]
    apply List.ext_getElem
    · simp [seBigRounds]
    · intro k h1 h2
      have hk : k < 32 := by simpa [seBigRounds] using h1
      simp only [seBigRounds, List.getElem_map, List.getElem_range, List.getElem_reverse, List.length_map, List.length_range]
      funext z
      rw [h k hk, List.getD_eq_getElem?_getD, List.getD_eq_getElem?_getD, List.getElem?_reverse (by omega), hl]
  rw [seDecrypt, (C119_se r' key _).2, (C119_se r key _).1, e, with_inverse]

/-- Streams that draw the self-equivalences `a`, zero elsewhere. -/
def seStreams (a : Nat → Fin 4 → BitVec 32) : SeRnd := ⟨fun _ _ => 0, a, fun _ => 0⟩

/-! ### self-equivalences that do not fit -/

/-- The first two rows of the matrix of an entry. -/
def seKey (n : Nat) : Nat := (n >>> 64) % 256 * 256 + (n >>> 56) % 256

/-- No two entries have the same first two rows, and none has rows among those in the set `m`. -/
def keysDistinct : List Nat → Nat → Bool
  | [], _ => true
  | n :: l, m => !(m.testBit (seKey n)) && keysDistinct l (m ||| 1 <<< seKey n)

theorem keysDistinct_spec (l : List Nat) : ∀ m, keysDistinct l m = true →
    (∀ n ∈ l, m.testBit (seKey n) = false) ∧ (l.map seKey).Nodup := by
  induction l with
  | nil => intro m _; exact ⟨by simp, by simp⟩
  | cons a l ih =>
    intro m h
    rw [keysDistinct, Bool.and_eq_true, Bool.not_eq_true'] at h
    obtain ⟨h1, h2⟩ := ih _ h.2
    refine ⟨?_, ?_⟩
    · intro n hn
      rcases List.mem_cons.mp hn with rfl | hn
      · exact h.1
      · have := h1 n hn
        rw [Nat.testBit_or, Bool.or_eq_false_iff] at this
        exact this.1
    · rw [List.map_cons, List.nodup_cons]
      refine ⟨?_, h2⟩
      rw [List.mem_map]
      rintro ⟨n, hn, e⟩
      have := h1 n hn
      rw [Nat.testBit_or, Bool.or_eq_false_iff, e] at this
      have h3 := this.2
      rw [Nat.one_shiftLeft, Nat.testBit_two_pow_self] at h3
      exact absurd h3 (by decide)

theorem seA_keys : (SE_A.map seKey).Nodup := (keysDistinct_spec SE_A 0 (by decide +kernel)).2

theorem seKey_mat (n : Nat) : seKey n = (seAff n).mat[0].toNat * 256 + (seAff n).mat[1].toNat := by
  simp [seAff, seKey]

/-- The 2039 self-equivalences have different matrices. -/
theorem seA_mat_inj (p q : Nat) (hp : p < 2039) (hq : q < 2039) (h : (seA p).mat = (seA q).mat) : p = q := by
  have hk : seKey (SE_A.getD p 0) = seKey (SE_A.getD q 0) := by
    unfold seA at h
    rw [seKey_mat, seKey_mat, h]
  have hp' : p < SE_A.length := by rw [seA_length]; exact hp
  have hq' : q < SE_A.length := by rw [seA_length]; exact hq
  rw [List.getD_eq_getElem?_getD, List.getD_eq_getElem?_getD, List.getElem?_eq_getElem hp', List.getElem?_eq_getElem hq'] at hk
  have hn := seA_keys
  exact (List.getElem_inj (h₀ := by simpa using hp') (h₁ := by simpa using hq') hn).mp (by simpa using hk)

theorem seB_inj (p : Nat) (hp : p < 2039) (x y : Byte) (h : affineU (seB p) x = affineU (seB p) y) : x = y := by
  -- `seB p` is onto, hence one-to-one
  have : Finite Byte := Finite.of_injective BitVec.toFin (fun _ _ h => BitVec.eq_of_toFin_eq h)
  have hs : Function.Surjective (affineU (seB p)) := by
    intro w
    obtain ⟨v, hv⟩ := Finite.injective_iff_surjective.mp (fun x y h => sm4Sbox_inj x y h) w
    refine ⟨seS (affineU (seA p) v), ?_⟩
    rw [se_selfEq p hp v, seS_eq, hv]
  exact Finite.injective_iff_surjective.mpr hs h

/-- C119: two self-equivalences mixed in this way leave the S-box unchanged only if they are the same. -/
theorem C119_se_mix (p q : Nat) (hp : p < 2039) (hq : q < 2039) : (∀ z, seMix p q z = sm4Sbox z) ↔ p = q := by
  refine ⟨fun h => ?_, fun h z => by rw [← h]; exact seMix_same p hp z⟩
  have hm : ∀ z, matMulNum (seB p).mat (sm4Sbox (matMulNum (seA p).mat z ^^^ (seA p).vec)) ^^^ (seB p).vec = sm4Sbox z :=
    fun z => seMix_same p hp z
  have hv : (seB q).vec = (seB p).vec := by
    have h0 := (h 0).trans (hm 0).symm
    unfold seMix at h0
    rw [matMulNum_zero, matMulNum_zero] at h0
    exact (BitVec.xor_right_inj _).mp h0
  apply seA_mat_inj p q hp hq
  apply mat_eq_of_action
  intro z
  have h1 := (h z).trans (hm z).symm
  unfold seMix at h1
  rw [hv] at h1
  have h2 := sm4Sbox_inj _ _ (seB_inj p hp _ _ h1)
  exact ((BitVec.xor_left_inj _).mp h2).symm

theorem foldWith_onto (Fs : List (Word → Word)) (Y : Quad) : ∃ X, Fs.foldl sm4RoundWith X = Y := by
  have h := foldWith_rev Fs.reverse Y.rev
  rw [List.reverse_reverse] at h
  exact ⟨_, h⟩

/-- Networks that differ in one round function for some word differ on some block. -/
theorem with_one_word (A B : List (Word → Word)) (F G : Word → Word) (z : Word) (h : F z ≠ G z) :
    ∃ x, sm4With (A ++ F :: B) x ≠ sm4With (A ++ G :: B) x := by
  obtain ⟨X, hX⟩ := foldWith_onto A ⟨0, z, 0, 0⟩
  refine ⟨X.toBlock, fun he => ?_⟩
  have := congrArg quadOf he
  rw [sm4With, sm4With, quadOf_toBlock, quadOf_toBlock, quadOf_toBlock] at this
  have := congrArg Quad.rev this
  have hinv : ∀ q : Quad, q.rev.rev = q := fun _ => rfl
  rw [hinv, hinv, List.foldl_append, List.foldl_append, List.foldl_cons, List.foldl_cons, hX] at this
  have := foldWith_inj B _ _ this
  have := congrArg Quad.d this
  simp only [sm4RoundWith] at this
  have e : z ^^^ 0 ^^^ 0 = z := by simp
  rw [e] at this
  exact h ((BitVec.xor_right_inj _).mp this)

/-- C119: if the self-equivalences fit in all rounds but one, then for every key some block is not encrypted as SM4 encrypts
it. -/
theorem C119_se_not_sm4 (r : SeRnd) (i : Nat) (hi : i < 32)
    (h : ∀ k, k < 32 → (r.idx k 0 = r.idx k 3 ∧ r.idx k 1 = r.idx k 2 ↔ k ≠ i)) (key : Block) :
    ∃ x, seEncrypt (seGenTableOn .big r .encrypt key.toList) x ≠ Spec.sm4Encrypt key x := by
  have hne : ∃ t : Fin 4, r.idx i t ≠ r.idx i (3 - t) := by
    have := (not_congr (h i hi)).mpr (by simp)
    by_cases h0 : r.idx i 0 = r.idx i 3
    · exact ⟨1, fun h1 => this ⟨h0, h1⟩⟩
    · exact ⟨0, h0⟩
  obtain ⟨t, ht⟩ := hne
  have hz : ∃ z, seMix (r.idx i t) (r.idx i (3 - t)) z ≠ sm4Sbox z := by
    by_contra hc
    push Not at hc
    exact ht ((C119_se_mix _ _ (idx_lt r i t) (idx_lt r i (3 - t))).mp hc)
  obtain ⟨z, hz⟩ := hz
  have hl : (sm4RoundKeys (quadOf key)).length = 32 := by simp [sm4RoundKeys]
  have hsym : ∀ k, k < 32 → k ≠ i → ∀ t : Fin 4, r.idx k t = r.idx k (3 - t) := by
    intro k hk hki t
    obtain ⟨h0, h1⟩ := (h k hk).mpr hki
    rcases opp t with rfl | rfl | rfl | rfl
    · exact h0
    · exact h1
    · exact h1.symm
    · exact h0.symm
  have e1 : ∀ l : List Nat, (∀ k ∈ l, k < 32 ∧ k ≠ i) →
      (l.map fun k z => sm4L (wordOf fun t => seMix (r.idx k t) (r.idx k (3 - t)) (wbyte (z ^^^ (sm4RoundKeys (quadOf key)).getD k 0) t))) =
        l.map fun k z => sm4T (z ^^^ (sm4RoundKeys (quadOf key)).getD k 0) := by
    intro l hl
    apply List.map_congr_left
    intro k hk
    funext z
    rw [se_sym_layer r k (hsym k (hl k hk).1 (hl k hk).2)]
    rfl
  have e2 : (sm4RoundKeys (quadOf key)).map (fun rk z => sm4T (z ^^^ rk)) =
      (List.range 32).map fun k z => sm4T (z ^^^ (sm4RoundKeys (quadOf key)).getD k 0) := by
    apply List.ext_getElem
    · simp [hl]
    · intro k h1 h2
      simp only [List.getElem_map, List.getElem_range]
      rw [List.getD_eq_getElem?_getD, List.getElem?_eq_getElem (by simpa using h1)]
      rfl
  have hS : ∀ x, Spec.sm4Encrypt key x = sm4With ((List.range 32).map fun k z => sm4T (z ^^^ (sm4RoundKeys (quadOf key)).getD k 0)) x := by
    intro x
    rw [← e2, sm4With_keys]
    rfl
  have hw := with_one_word
    ((List.range i).map fun k z => sm4T (z ^^^ (sm4RoundKeys (quadOf key)).getD k 0))
    ((List.range' (i + 1) (31 - i)).map fun k z => sm4T (z ^^^ (sm4RoundKeys (quadOf key)).getD k 0))
    (fun z => sm4L (wordOf fun t => seMix (r.idx i t) (r.idx i (3 - t)) (wbyte (z ^^^ (sm4RoundKeys (quadOf key)).getD i 0) t)))
    (fun z => sm4T (z ^^^ (sm4RoundKeys (quadOf key)).getD i 0))
    ((wordOf fun _ => z) ^^^ (sm4RoundKeys (quadOf key)).getD i 0) (by
      intro he
      have hc : (wordOf fun _ => z) ^^^ (sm4RoundKeys (quadOf key)).getD i 0 ^^^ (sm4RoundKeys (quadOf key)).getD i 0 = wordOf fun _ => z := by
        rw [BitVec.xor_assoc, BitVec.xor_self]; exact BitVec.xor_zero
      rw [hc] at he
      have := sm4L_inj _ _ he
      have := congrArg (wbyte · t) this
      simp only [tau_wbyte, wordOf_wbyte] at this
      exact hz this)
  obtain ⟨x, hx⟩ := hw
  refine ⟨x, ?_⟩
  rw [(C119_se r key x).1, hS, seBigRounds, range_split i hi, List.map_append, List.map_append, List.map_cons, List.map_cons,
    e1 (List.range i) (by intro k hk; rw [List.mem_range] at hk; omega),
    e1 (List.range' (i + 1) (31 - i)) (by intro k hk; rw [List.mem_range'_1] at hk; omega)]
  exact hx

/-- One round in which self-equivalences 0, 1, 2, 3 are drawn, and 0 four times elsewhere. -/
example (key : Block) : ∃ x,
    seEncrypt (seGenTableOn .big (seStreams fun i j => if i = 7 then BitVec.ofNat 32 j.1 else 0) .encrypt key.toList) x ≠
      Spec.sm4Encrypt key x := by
  refine C119_se_not_sm4 _ 7 (by decide) (fun k _ => ?_) key
  by_cases hk : k = 7
  · subst hk; simp [SeRnd.idx, seStreams]
  · simp [SeRnd.idx, seStreams, hk]

/-- Draws that fit although they differ within a round. -/
example (key x : Block) :
    seEncrypt (seGenTableOn .big (seStreams fun i j => BitVec.ofNat 32 (if j = 0 ∨ j = 3 then i else 2 * i)) .encrypt key.toList) x =
      Spec.sm4Encrypt key x :=
  (C119_se_symmetric _ (fun i _ => ⟨by simp [SeRnd.idx, seStreams], by simp [SeRnd.idx, seStreams]⟩) key x).1

example (a : Nat → Fin 4 → BitVec 32) (key x : Block) :
    seDecrypt (seGenTableOn .big (seStreams fun k => a (31 - k)) .decrypt key.toList)
      (seEncrypt (seGenTableOn .big (seStreams a) .encrypt key.toList) x) = x :=
  C119_se_decrypt _ _ key x fun _ _ => rfl

end Verif.Props
