import Verif.Lemmas.Wb
import Verif.Lemmas.SeSelfEq

/-! C40: white-box SM4 from self-equivalences against the SM4 standard. -/
set_option autoImplicit false
set_option linter.unusedSimpArgs false

namespace Verif.Props
open Verif Spec Model

theorem se_P_inv (r : SeRnd) (i : Nat) : Inverse (affineU (r.P i)) (affineU (r.Pinv i)) := C33_affine_pairs 32 _ _

theorem seLmat_unit : ∀ i : Fin 32, matMulNum SE_L (idRow 32 i.1) = sm4L (idRow 32 i.1) := by decide +kernel

/-- The matrix `L_matrix` of the scheme is the linear map `L` of the standard. -/
theorem seLmat_eq (x : BitVec 32) : matMulNum SE_L x = sm4L x :=
  additive_ext _ _ (matMulNum_xor _) sm4L_xor seLmat_unit x

theorem seS_eq (x : Byte) : seS x = sm4Sbox x := by
  have h : ∀ x : BitVec 8, seS x = sm4Sbox x := by decide +kernel
  exact h x

/-- The words of `s` are those of `X` under the encodings `P[p] .. P[p+3]`. -/
def SeEnc (r : SeRnd) (p : Nat) (X : Quad) (s : B4) : Prop :=
  s.b0 = affineU (r.P p) X.a ∧ s.b1 = affineU (r.P (p + 1)) X.b ∧ s.b2 = affineU (r.P (p + 2)) X.c ∧
    s.b3 = affineU (r.P (p + 3)) X.d

theorem idx_lt (r : SeRnd) (i : Nat) (j : Fin 4) : r.idx i j < 2039 := Nat.mod_lt _ (by decide)

theorem com_layer (a b : Fin 4 → Aff 8) (h : ∀ j, SelfEq (a j) (b j)) (z : BitVec 32) :
    affineU (affinecom8to32 (b 0) (b 1) (b 2) (b 3)) (seSub (affineU (affinecom8to32 (a 0) (a 1) (a 2) (a 3)) z)) = sm4Tau z := by
  obtain ⟨h0, h1, h2, h3⟩ := com_bytes a z
  generalize affineU (affinecom8to32 (a 0) (a 1) (a 2) (a 3)) z = y at h0 h1 h2 h3 ⊢
  have e : ∀ j (x : Byte), affineU (b j) (seS (affineU (a j) x)) = sm4Sbox x := fun j x => by rw [h j x, seS_eq]
  have hs : seSub y = ((seS (affineU (a 0) ((z >>> 24).truncate 8)) ++ seS (affineU (a 1) ((z >>> 16).truncate 8))) ++
      (seS (affineU (a 2) ((z >>> 8).truncate 8)) ++ seS (affineU (a 3) (z.truncate 8))) : BitVec 32) := by
    rw [← h0, ← h1, ← h2, ← h3]
    exact or4_eq_append _ _ _ _
  rw [hs, ← append4_assoc, affineU_com, e, e, e, e, append4_assoc]
  simp only [trunc_shift]
  rw [trunc_zero]
  rfl

/-- `BB . S . AA` is the S-box layer. -/
theorem se_layer (r : SeRnd) (i : Nat) (z : BitVec 32) : affineU (r.BB i) (seSub (affineU (r.AA i) z)) = sm4Tau z :=
  com_layer (fun j => seA (r.idx i j)) (fun j => seB (r.idx i j)) (fun j => se_selfEq (r.idx i j) (idx_lt r i j)) z

theorem se_step (r : SeRnd) (mode : EncMode) (key : List Byte) (i : Fin 32) (X : Quad) (s : B4) (h : SeEnc r i.1 X s) :
    SeEnc r (i.1 + 1) (sm4Round X (sm4InitKey key mode)[i]) (seStep (seGenTable r mode key) s i) := by
  obtain ⟨h0, h1, h2, h3⟩ := h
  refine ⟨h1, h2, h3, ?_⟩
  simp only [seStep, seGenTable, sm4Round]
  generalize (sm4InitKey key mode)[i] = rk
  have hM : ∀ (k : Fin 3) x, affineU (affinemix (r.AA i.1) (affinemix ⟨identityM 32, rk⟩ (r.Pinv (i.1 + 1 + k.1))))
      (affineU (r.P (i.1 + 1 + k.1)) x) = affineU (r.AA i.1) (x ^^^ rk) := by
    intro k x
    rw [affineU_affinemix, affineU_affinemix, (se_P_inv r _).1]
    congr 1
    unfold affineU
    simp only [matMulNum_identity]
  have hsum : affineU (affinemix (r.AA i.1) (affinemix ⟨identityM 32, rk⟩ (r.Pinv (i.1 + 1 + (0 : Fin 3).1)))) s.b1 ^^^
      affineU (affinemix (r.AA i.1) (affinemix ⟨identityM 32, rk⟩ (r.Pinv (i.1 + 1 + (1 : Fin 3).1)))) s.b2 ^^^
      affineU (affinemix (r.AA i.1) (affinemix ⟨identityM 32, rk⟩ (r.Pinv (i.1 + 1 + (2 : Fin 3).1)))) s.b3 =
      affineU (r.AA i.1) (X.b ^^^ X.c ^^^ X.d ^^^ rk) := by
    rw [h1, h2, h3]
    have e0 := hM 0 X.b
    have e1 := hM 1 X.c
    have e2 := hM 2 X.d
    rw [show i.1 + 1 + (0 : Fin 3).1 = i.1 + 1 from rfl] at e0 ⊢
    rw [show i.1 + 1 + (1 : Fin 3).1 = i.1 + 2 from rfl] at e1 ⊢
    rw [show i.1 + 1 + (2 : Fin 3).1 = i.1 + 3 from rfl] at e2 ⊢
    rw [e0, e1, e2, affineU_xor3]
    congr 1
    simp only [BitVec.xor_assoc, BitVec.xor_comm, xor_left_comm32, xor_cancel, BitVec.xor_self, BitVec.xor_zero]
  rw [hsum]
  have := cd_sum (r.P (i.1 + 4)) (r.Pinv i.1) (affinemix ⟨SE_L, 0⟩ (r.BB i.1)) (r.t i.1) s.b0
    (seSub (affineU (r.AA i.1) (X.b ^^^ X.c ^^^ X.d ^^^ rk)))
  have hL : ∀ w, affineU (⟨SE_L, 0⟩ : Aff 32) w = sm4L w := by
    intro w
    unfold affineU
    rw [seLmat_eq]
    exact BitVec.xor_zero
  rw [affineU_affinemix ⟨SE_L, 0⟩ (r.BB i.1), se_layer, hL, h0, (se_P_inv r _).1] at this
  rw [h0]
  exact this

theorem se_rounds (r : SeRnd) (mode : EncMode) (key : List Byte) (l : List (Fin 32)) (p : Nat)
    (hl : l.map Fin.val = List.range' p l.length) (X : Quad) (s : B4) (h : SeEnc r p X s) :
    SeEnc r (p + l.length) ((l.map fun i => (sm4InitKey key mode)[i]).foldl sm4Round X)
      (l.foldl (seStep (seGenTable r mode key)) s) := by
  induction l generalizing p X s with
  | nil => exact h
  | cons i l ih =>
    rw [List.map_cons, List.length_cons, List.range'_succ, List.cons.injEq] at hl
    obtain ⟨rfl, hl⟩ := hl
    rw [List.map_cons, List.foldl_cons, List.foldl_cons, List.length_cons, show i.1 + (l.length + 1) = i.1 + 1 + l.length by omega]
    exact ih (i.1 + 1) hl _ _ (se_step r mode key i X s h)

theorem se_encrypt (r : SeRnd) (mode : EncMode) (key : List Byte) (x : Block) :
    seEncrypt (seGenTable r mode key) x = Model.sm4Encrypt (sm4InitKey key mode) x := by
  rw [sm4Encrypt_eq]
  have hE := se_rounds r mode key (List.finRange 32) 0 (by decide) (quadOf x)
    ⟨affineU (r.P 0) (loadU32 x 0), affineU (r.P 1) (loadU32 x 1), affineU (r.P 2) (loadU32 x 2), affineU (r.P 3) (loadU32 x 3)⟩ (by
      have hq := load_eq x
      simp only [B4.toQuad, B4.load] at hq
      rw [← hq]
      exact ⟨rfl, rfl, rfl, rfl⟩)
  have hl : (List.finRange 32).map (fun i => (sm4InitKey key mode)[i]) = (sm4InitKey key mode).toList := by
    generalize sm4InitKey key mode = v
    apply List.ext_getElem
    · simp
    · intro i h1 h2
      simp
  rw [hl, List.length_finRange] at hE
  obtain ⟨h0, h1, h2, h3⟩ := hE
  unfold seEncrypt
  simp only [get32_eq, storeU32_eq]
  have eS : ∀ i : Fin 4, (seGenTable r mode key).SE i = r.P i.1 := fun _ => rfl
  have eF : ∀ i : Fin 4, (seGenTable r mode key).FE i = r.Pinv (35 - i.1) := fun _ => rfl
  rw [eS, eS, eS, eS, eF, eF, eF, eF]
  have e0 : ((0 : Fin 4) : Nat) = 0 := rfl
  have e1 : ((1 : Fin 4) : Nat) = 1 := rfl
  have e2 : ((2 : Fin 4) : Nat) = 2 := rfl
  have e3 : ((3 : Fin 4) : Nat) = 3 := rfl
  rw [e0, e1, e2, e3, h0, h1, h2, h3]
  simp only [Nat.zero_add, Nat.sub_zero, Nat.reduceSub, Nat.reduceAdd, (se_P_inv r _).1]
  rfl

/-- C40: the generated tables compute SM4 (encrypt mode) and its inverse (decrypt mode), whatever the random choices. -/
theorem C40_se_wbsm4_is_sm4 (r : SeRnd) (key : Block) (x : Block) :
    seEncrypt (seGenTable r .encrypt key.toList) x = Spec.sm4Encrypt key x ∧
    seEncrypt (seGenTable r .decrypt key.toList) x = Spec.sm4Decrypt key x := by
  rw [se_encrypt, se_encrypt, (C31_decrypt_mode key.toList x).1]
  exact C30_sm4_standard key x

/-- C40: contexts of the two modes, generated with independent random choices, undo each other. -/
theorem C40_se_wbsm4_inverse (r r' : SeRnd) (key : List Byte) (x : Block) :
    seDecrypt (seGenTable r' .decrypt key) (seEncrypt (seGenTable r .encrypt key) x) = x ∧
    seEncrypt (seGenTable r .encrypt key) (seDecrypt (seGenTable r' .decrypt key) x) = x := by
  simp only [seDecrypt, se_encrypt, (C31_decrypt_mode key _).1]
  exact C29_sm4_inverse _ x

/-- The encodings are not trivial: the first table entry differs from the identity. -/
example : (seA 0).mat[0] = 0x05 ∧ (seA 1).mat[0] = 0xc4 := by decide +kernel

end Verif.Props
