import Verif.Model.Sm4
import Verif.Spec.Sm4
import Verif.Props.Padding
import Verif.Lemmas.Gf128

/-! Properties C29-C31 of `/repo/src/sm4/sm4.c`. -/
set_option autoImplicit false
set_option linter.unusedSimpArgs false

namespace Verif.Props
open Verif Spec Model

/-! ### words and bytes -/

theorem or4_eq_append (a b c d : Byte) : ((a.zeroExtend 32 <<< 24) ||| (b.zeroExtend 32 <<< 16) |||
    (c.zeroExtend 32 <<< 8) ||| d.zeroExtend 32 : BitVec 32) = (a ++ b) ++ (c ++ d) := by
  ext i hi
  have : i < 8 ∨ 8 ≤ i ∧ i < 16 ∨ 16 ≤ i ∧ i < 24 ∨ 24 ≤ i := by omega
  rcases this with h | h | h | h <;> simp [h, BitVec.getElem_append] <;> grind

theorem or4_eq_xor (a b c d : Byte) : ((a.zeroExtend 32 <<< 24) ||| (b.zeroExtend 32 <<< 16) |||
    (c.zeroExtend 32 <<< 8) ||| d.zeroExtend 32 : BitVec 32) =
    (a.zeroExtend 32 <<< 24) ^^^ (b.zeroExtend 32 <<< 16) ^^^ (c.zeroExtend 32 <<< 8) ^^^ d.zeroExtend 32 := by
  ext i hi
  have : i < 8 ∨ 8 ≤ i ∧ i < 16 ∨ 16 ≤ i ∧ i < 24 ∨ 24 ≤ i := by omega
  rcases this with h | h | h | h <;> simp [h] <;> grind

theorem trunc_shift (x : BitVec 32) (k : Nat) : (x >>> k).truncate 8 = x.extractLsb' k 8 := by
  ext i hi
  simp [BitVec.getLsbD_ushiftRight]

theorem trunc_zero (x : BitVec 32) : x.truncate 8 = x.extractLsb' 0 8 := by
  ext i hi
  simp

theorem storeU32_eq (v : BitVec 32) : storeU32 v = wordBytes v := by
  simp only [storeU32, wordBytes, trunc_shift]
  rw [trunc_zero]

theorem rotl_eq (a : BitVec 32) (n : Nat) (h0 : 0 < n) (h : n < 32) : rotl a n = a.rotateLeft n := by
  apply BitVec.eq_of_getLsbD_eq
  intro i hi
  rw [BitVec.getLsbD_rotateLeft, Nat.mod_eq_of_lt h]
  simp only [rotl, BitVec.getLsbD_or, BitVec.getLsbD_shiftLeft, BitVec.getLsbD_ushiftRight]
  by_cases hin : i < n
  · simp [hin]
  · have : a.getLsbD (32 - n + i) = false := BitVec.getLsbD_of_ge _ _ (by omega)
    simp [hin, this]

theorem rotateLeft_xor (a b : BitVec 32) (n : Nat) :
    (a ^^^ b).rotateLeft n = a.rotateLeft n ^^^ b.rotateLeft n := by
  ext i hi
  simp only [BitVec.getElem_xor, BitVec.getElem_rotateLeft]
  split <;> rfl

theorem sm4L_xor (a b : BitVec 32) : sm4L (a ^^^ b) = sm4L a ^^^ sm4L b := by
  simp only [sm4L, rotateLeft_xor]
  ac_rfl

/-! ### tables -/

theorem sBox_eq (x : Byte) : sBox x = sm4Sbox x := by
  have h : ∀ x : BitVec 8, sBox x = sm4Sbox x := by decide +kernel
  exact h x

theorem sBoxT_eq (x : Byte) :
    sBoxT x = sm4L ((sBox x).zeroExtend 32 <<< 24) ∧ rotl (sBoxT x) 24 = sm4L ((sBox x).zeroExtend 32 <<< 16) ∧
    rotl (sBoxT x) 16 = sm4L ((sBox x).zeroExtend 32 <<< 8) ∧ rotl (sBoxT x) 8 = sm4L ((sBox x).zeroExtend 32) := by
  have h : ∀ x : BitVec 8,
    sBoxT x = sm4L ((sBox x).zeroExtend 32 <<< 24) ∧ rotl (sBoxT x) 24 = sm4L ((sBox x).zeroExtend 32 <<< 16) ∧
    rotl (sBoxT x) 16 = sm4L ((sBox x).zeroExtend 32 <<< 8) ∧ rotl (sBoxT x) 8 = sm4L ((sBox x).zeroExtend 32) := by
    decide +kernel
  exact h x

theorem subWord_eq (x : BitVec 32) : subWord x = sm4Tau x := by
  simp only [subWord, or4_eq_append, sBox_eq, trunc_shift, sm4Tau]
  rw [trunc_zero]

theorem tSlow_eq (x : BitVec 32) : tSlow x = sm4T x := by
  simp only [tSlow, sm4T, sm4L, subWord_eq, rotl_eq _ 2 (by decide) (by decide), rotl_eq _ 10 (by decide) (by decide),
    rotl_eq _ 18 (by decide) (by decide), rotl_eq _ 24 (by decide) (by decide)]

theorem tFast_eq (x : BitVec 32) : tFast x = sm4T x := by
  rw [sm4T, ← subWord_eq, subWord, or4_eq_xor, sm4L_xor, sm4L_xor, sm4L_xor, tFast, (sBoxT_eq _).1, (sBoxT_eq _).2.1,
    (sBoxT_eq _).2.2.1, (sBoxT_eq _).2.2.2]

/-! ### rounds -/

def B4.toQuad (s : B4) : Quad := ⟨s.b0, s.b1, s.b2, s.b3⟩

theorem rnds_eq (F : BitVec 32 → BitVec 32) (hF : ∀ x, F x = sm4T x) (rk : Sm4Ctx) (k0 k1 k2 k3 : Fin 32) (s : B4) :
    B4.toQuad (sm4Rnds F rk k0 k1 k2 k3 s) = [rk[k0], rk[k1], rk[k2], rk[k3]].foldl sm4Round (B4.toQuad s) := by
  obtain rfl : F = sm4T := funext hF
  simp only [sm4Rnds, B4.toQuad, List.foldl_cons, List.foldl_nil, sm4Round]
  clear hF
  generalize sm4T = T
  generalize rk[k0] = r0, rk[k1] = r1, rk[k2] = r2, rk[k3] = r3
  obtain ⟨a, b, c, d⟩ := s
  simp only
  generalize a ^^^ T (b ^^^ c ^^^ d ^^^ r0) = a'
  rw [show a' ^^^ c ^^^ d ^^^ r1 = c ^^^ d ^^^ a' ^^^ r1 by ac_rfl]
  generalize b ^^^ T (c ^^^ d ^^^ a' ^^^ r1) = b'
  rw [show a' ^^^ b' ^^^ d ^^^ r2 = d ^^^ a' ^^^ b' ^^^ r2 by ac_rfl]

theorem load_eq (x : Block) : B4.toQuad (B4.load x) = quadOf x := by
  simp only [B4.load, B4.toQuad, quadOf, loadU32, or4_eq_append]

theorem store_eq (s : B4) : s.store = (B4.toQuad s).rev.toBlock := by
  simp only [B4.store, B4.toQuad, Quad.rev, Quad.toBlock, storeU32_eq]

theorem sm4Encrypt_eq (rk : Sm4Ctx) (x : Block) :
    Model.sm4Encrypt rk x = (sm4Crypt rk.toList (quadOf x)).toBlock := by
  have hl : rk.toList = [rk[(0 : Fin 32)], rk[(1 : Fin 32)], rk[(2 : Fin 32)], rk[(3 : Fin 32)]] ++
    [rk[(4 : Fin 32)], rk[(5 : Fin 32)], rk[(6 : Fin 32)], rk[(7 : Fin 32)]] ++
    [rk[(8 : Fin 32)], rk[(9 : Fin 32)], rk[(10 : Fin 32)], rk[(11 : Fin 32)]] ++
    [rk[(12 : Fin 32)], rk[(13 : Fin 32)], rk[(14 : Fin 32)], rk[(15 : Fin 32)]] ++
    [rk[(16 : Fin 32)], rk[(17 : Fin 32)], rk[(18 : Fin 32)], rk[(19 : Fin 32)]] ++
    [rk[(20 : Fin 32)], rk[(21 : Fin 32)], rk[(22 : Fin 32)], rk[(23 : Fin 32)]] ++
    [rk[(24 : Fin 32)], rk[(25 : Fin 32)], rk[(26 : Fin 32)], rk[(27 : Fin 32)]] ++
    [rk[(28 : Fin 32)], rk[(29 : Fin 32)], rk[(30 : Fin 32)], rk[(31 : Fin 32)]] := by
    apply List.ext_getElem
    · simp
    · intro i h1 h2
      simp only [Vector.length_toList] at h1
      match i, h1 with
      | 0, _ | 1, _ | 2, _ | 3, _ | 4, _ | 5, _ | 6, _ | 7, _ | 8, _ | 9, _ | 10, _ | 11, _ | 12, _ | 13, _ | 14, _ | 15, _
      | 16, _ | 17, _ | 18, _ | 19, _ | 20, _ | 21, _ | 22, _ | 23, _ | 24, _ | 25, _ | 26, _ | 27, _ | 28, _ | 29, _
      | 30, _ | 31, _ => rfl
      | n + 32, h => omega
  rw [sm4Crypt, hl]
  simp only [List.foldl_append, Model.sm4Encrypt, store_eq, rnds_eq tSlow tSlow_eq, rnds_eq tFast tFast_eq, load_eq]

theorem sm4Decrypt_eq (rk : Sm4Ctx) (x : Block) :
    Model.sm4Decrypt rk x = (sm4Crypt rk.toList.reverse (quadOf x)).toBlock := by
  have hl : rk.toList.reverse = [rk[(31 : Fin 32)], rk[(30 : Fin 32)], rk[(29 : Fin 32)], rk[(28 : Fin 32)]] ++
    [rk[(27 : Fin 32)], rk[(26 : Fin 32)], rk[(25 : Fin 32)], rk[(24 : Fin 32)]] ++
    [rk[(23 : Fin 32)], rk[(22 : Fin 32)], rk[(21 : Fin 32)], rk[(20 : Fin 32)]] ++
    [rk[(19 : Fin 32)], rk[(18 : Fin 32)], rk[(17 : Fin 32)], rk[(16 : Fin 32)]] ++
    [rk[(15 : Fin 32)], rk[(14 : Fin 32)], rk[(13 : Fin 32)], rk[(12 : Fin 32)]] ++
    [rk[(11 : Fin 32)], rk[(10 : Fin 32)], rk[(9 : Fin 32)], rk[(8 : Fin 32)]] ++
    [rk[(7 : Fin 32)], rk[(6 : Fin 32)], rk[(5 : Fin 32)], rk[(4 : Fin 32)]] ++
    [rk[(3 : Fin 32)], rk[(2 : Fin 32)], rk[(1 : Fin 32)], rk[(0 : Fin 32)]] := by
    apply List.ext_getElem
    · simp
    · intro i h1 h2
      simp only [Vector.length_toList, List.length_reverse] at h1
      rw [List.getElem_reverse]
      simp only [Vector.length_toList, Vector.getElem_toList]
      match i, h1 with
      | 0, _ | 1, _ | 2, _ | 3, _ | 4, _ | 5, _ | 6, _ | 7, _ | 8, _ | 9, _ | 10, _ | 11, _ | 12, _ | 13, _ | 14, _ | 15, _
      | 16, _ | 17, _ | 18, _ | 19, _ | 20, _ | 21, _ | 22, _ | 23, _ | 24, _ | 25, _ | 26, _ | 27, _ | 28, _ | 29, _
      | 30, _ | 31, _ => rfl
      | n + 32, h => omega
  rw [sm4Crypt, hl]
  simp only [List.foldl_append, Model.sm4Decrypt, store_eq, rnds_eq tSlow tSlow_eq, rnds_eq tFast tFast_eq, load_eq]

/-! ### inversion -/

theorem round_rev (x : Quad) (k : Word) : sm4Round (sm4Round x k).rev k = x.rev := by
  simp only [sm4Round, Quad.rev]
  rw [show x.d ^^^ x.c ^^^ x.b ^^^ k = x.b ^^^ x.c ^^^ x.d ^^^ k by ac_rfl, BitVec.xor_assoc, BitVec.xor_self, BitVec.xor_zero]

theorem fold_rev (rks : List Word) : ∀ x : Quad, rks.reverse.foldl sm4Round (rks.foldl sm4Round x).rev = x.rev := by
  induction rks with
  | nil => intro x; rfl
  | cons k rks ih =>
    intro x
    rw [List.reverse_cons, List.foldl_append]
    simp only [List.foldl_cons, List.foldl_nil]
    rw [ih, round_rev]

theorem crypt_inverse (rks : List Word) (x : Quad) : sm4Crypt rks.reverse (sm4Crypt rks x) = x := by
  rw [sm4Crypt, sm4Crypt, fold_rev]; rfl

theorem append4_extract (w : Word) :
    (w.extractLsb' 24 8 ++ w.extractLsb' 16 8) ++ (w.extractLsb' 8 8 ++ w.extractLsb' 0 8) = w := by
  ext i hi
  have : i < 8 ∨ 8 ≤ i ∧ i < 16 ∨ 16 ≤ i ∧ i < 24 ∨ 24 ≤ i := by omega
  rcases this with h | h | h | h <;> simp [h, BitVec.getElem_append] <;> grind

theorem extract_append4 (a b c d : Byte) :
    wordBytes ((a ++ b) ++ (c ++ d)) = #v[a, b, c, d] := by
  have h : ∀ (w : Byte × Byte × Byte × Byte), ((w.1 ++ w.2.1) ++ (w.2.2.1 ++ w.2.2.2) : BitVec 32).extractLsb' 24 8 = w.1 ∧
    ((w.1 ++ w.2.1) ++ (w.2.2.1 ++ w.2.2.2) : BitVec 32).extractLsb' 16 8 = w.2.1 ∧
    ((w.1 ++ w.2.1) ++ (w.2.2.1 ++ w.2.2.2) : BitVec 32).extractLsb' 8 8 = w.2.2.1 ∧
    ((w.1 ++ w.2.1) ++ (w.2.2.1 ++ w.2.2.2) : BitVec 32).extractLsb' 0 8 = w.2.2.2 := by
    intro w
    refine ⟨?_, ?_, ?_, ?_⟩ <;>
    · ext i hi
      simp [BitVec.getElem_append, BitVec.getLsbD_append, hi] <;> grind
  obtain ⟨h1, h2, h3, h4⟩ := h (a, b, c, d)
  simp only at h1 h2 h3 h4
  simp only [wordBytes, h1, h2, h3, h4]

theorem append16 {α : Type} (a0 a1 a2 a3 b0 b1 b2 b3 c0 c1 c2 c3 d0 d1 d2 d3 : α) :
    #v[a0, a1, a2, a3] ++ #v[b0, b1, b2, b3] ++ #v[c0, c1, c2, c3] ++ #v[d0, d1, d2, d3] =
    #v[a0, a1, a2, a3, b0, b1, b2, b3, c0, c1, c2, c3, d0, d1, d2, d3] := rfl

theorem toBlock_quadOf (x : Block) : (quadOf x).toBlock = x := by
  obtain ⟨x0, x1, x2, x3, x4, x5, x6, x7, x8, x9, x10, x11, x12, x13, x14, x15, rfl⟩ := block_cases x
  simp only [Quad.toBlock, quadOf, extract_append4]
  exact append16 x0 x1 x2 x3 x4 x5 x6 x7 x8 x9 x10 x11 x12 x13 x14 x15

theorem vec4_cases {α : Type} (v : Vector α 4) : ∃ a b c d, v = #v[a, b, c, d] := by
  refine ⟨v[0], v[1], v[2], v[3], ?_⟩
  apply Vector.ext
  intro i hi
  match i, hi with
  | 0, _ | 1, _ | 2, _ | 3, _ => rfl
  | n + 4, h => omega

theorem quadOf_append (p q r s : Vector Byte 4) : quadOf (p ++ q ++ r ++ s) =
    ⟨(p[0] ++ p[1]) ++ (p[2] ++ p[3]), (q[0] ++ q[1]) ++ (q[2] ++ q[3]),
     (r[0] ++ r[1]) ++ (r[2] ++ r[3]), (s[0] ++ s[1]) ++ (s[2] ++ s[3])⟩ := by
  obtain ⟨p0, p1, p2, p3, rfl⟩ := vec4_cases p
  obtain ⟨q0, q1, q2, q3, rfl⟩ := vec4_cases q
  obtain ⟨r0, r1, r2, r3, rfl⟩ := vec4_cases r
  obtain ⟨s0, s1, s2, s3, rfl⟩ := vec4_cases s
  rw [append16, quadOf]
  rfl

theorem quadOf_toBlock (x : Quad) : quadOf x.toBlock = x := by
  have h : ∀ w : Word, ((wordBytes w)[0] ++ (wordBytes w)[1]) ++ ((wordBytes w)[2] ++ (wordBytes w)[3]) = w := append4_extract
  rw [Quad.toBlock, quadOf_append]
  simp only [h]

/-- C29: decryption undoes encryption and conversely, for every content of the context. -/
theorem C29_sm4_inverse (rk : Sm4Ctx) (x : Block) :
    Model.sm4Decrypt rk (Model.sm4Encrypt rk x) = x ∧ Model.sm4Encrypt rk (Model.sm4Decrypt rk x) = x := by
  constructor
  · rw [sm4Encrypt_eq, sm4Decrypt_eq, quadOf_toBlock, crypt_inverse, toBlock_quadOf]
  · rw [sm4Encrypt_eq, sm4Decrypt_eq, quadOf_toBlock]
    have := crypt_inverse rk.toList.reverse (quadOf x)
    rw [List.reverse_reverse] at this
    rw [this, toBlock_quadOf]

/-! ### key schedule -/

theorem CK_eq (i : Fin 32) : SM4_CK[i] = sm4CK i.1 := by
  have h : ∀ i : Fin 32, SM4_CK[i] = sm4CK i.1 := by decide +kernel
  exact h i

/-- Invariant of the key schedule loop before iteration `i`. -/
structure KeyInv (mk : Quad) (mode : EncMode) (i : Nat) (s : Vector (BitVec 32) 4 × Sm4Ctx) : Prop where
  k0 : s.1[i % 4]'(Nat.mod_lt _ (by decide)) = (sm4KeyWindow mk i).a
  k1 : s.1[(i + 1) % 4]'(Nat.mod_lt _ (by decide)) = (sm4KeyWindow mk i).b
  k2 : s.1[(i + 2) % 4]'(Nat.mod_lt _ (by decide)) = (sm4KeyWindow mk i).c
  k3 : s.1[(i + 3) % 4]'(Nat.mod_lt _ (by decide)) = (sm4KeyWindow mk i).d
  rk : ∀ j, (h : j < i) → (h' : i ≤ 32) →
    (match mode with
     | .encrypt => s.2[j]'(by omega)
     | .decrypt => s.2[31 - j]'(by omega)) = sm4Rk mk j

theorem keyStep_inv (mk : Quad) (mode : EncMode) (i : Nat) (hi : i < 32) (s : Vector (BitVec 32) 4 × Sm4Ctx)
    (inv : KeyInv mk mode i s) : KeyInv mk mode (i + 1) (keyStep mode s ⟨i, hi⟩) := by
  obtain ⟨k0, k1, k2, k3, rk⟩ := inv
  have ht : ∀ x : BitVec 32, subWord x ^^^ rotl (subWord x) 13 ^^^ rotl (subWord x) 23 = sm4T' x := by
    intro x
    rw [rotl_eq _ 13 (by decide) (by decide), rotl_eq _ 23 (by decide) (by decide), subWord_eq]; rfl
  have hnew : s.1[i % 4]'(Nat.mod_lt _ (by decide)) ^^^
      sm4T' (s.1[(i + 1) % 4]'(Nat.mod_lt _ (by decide)) ^^^ s.1[(i + 2) % 4]'(Nat.mod_lt _ (by decide)) ^^^
        s.1[(i + 3) % 4]'(Nat.mod_lt _ (by decide)) ^^^ SM4_CK[(⟨i, hi⟩ : Fin 32)]) = (sm4KeyWindow mk (i + 1)).d := by
    rw [k0, k1, k2, k3, CK_eq]; rfl
  have hK : (keyStep mode s ⟨i, hi⟩).1 =
      s.1.set (i % 4) (sm4KeyWindow mk (i + 1)).d (Nat.mod_lt _ (by decide)) := by
    unfold keyStep
    simp only [ht, hnew]
    cases mode <;> rfl
  have hR : (keyStep mode s ⟨i, hi⟩).2 = (match mode with
      | .encrypt => s.2.set i (sm4KeyWindow mk (i + 1)).d
      | .decrypt => s.2.set (31 - i) (sm4KeyWindow mk (i + 1)).d) := by
    unfold keyStep
    simp only [ht, hnew]
    cases mode <;> rfl
  refine ⟨?_, ?_, ?_, ?_, ?_⟩
  · simp only [hK]; rw [Vector.getElem_set_ne _ _ (by omega), k1]; rfl
  · simp only [hK]
    rw [Vector.getElem_set_ne _ _ (by omega)]; exact k2
  · simp only [hK]
    rw [Vector.getElem_set_ne _ _ (by omega)]; exact k3
  · simp only [hK]
    have : (i + 1 + 3) % 4 = i % 4 := by omega
    simp only [this]
    rw [Vector.getElem_set_self]
  · intro j hj h32
    cases mode with
    | encrypt =>
      simp only [hR]
      by_cases hji : j = i
      · subst hji; rw [Vector.getElem_set_self]; rfl
      · rw [Vector.getElem_set_ne _ _ (by omega)]; exact rk j (by omega) (by omega)
    | decrypt =>
      simp only [hR]
      by_cases hji : j = i
      · subst hji; rw [Vector.getElem_set_self]; rfl
      · rw [Vector.getElem_set_ne _ _ (by omega)]; exact rk j (by omega) (by omega)

theorem keyLoop_inv (mk : Quad) (mode : EncMode) (s : Vector (BitVec 32) 4 × Sm4Ctx) (inv : KeyInv mk mode 0 s) :
    KeyInv mk mode 32 ((List.finRange 32).foldl (keyStep mode) s) := by
  have key : ∀ n, (hn : n ≤ 32) → KeyInv mk mode n
      ((List.ofFn (fun i : Fin n => (⟨i.1, by omega⟩ : Fin 32))).foldl (keyStep mode) s) := by
    intro n
    induction n with
    | zero => intro _; simpa using inv
    | succ n ih =>
      intro hn
      rw [List.ofFn_succ_last, List.foldl_append]
      exact keyStep_inv mk mode n (by omega) _ (ih (by omega))
  exact key 32 (Nat.le_refl _)

theorem padKey_16 (key : Block) : padKey key.toList = key := by
  have h : keyPaddingPkcs7 key.toList = key.toList := by
    simp [keyPaddingPkcs7]
  rw [padKey, h]
  apply Vector.ext
  intro i hi
  simp [List.getD_eq_getElem?_getD, hi]

theorem initKey_eq (key : List Byte) :
    (sm4InitKey key .encrypt).toList = sm4RoundKeys (quadOf (padKey key)) ∧
    (sm4InitKey key .decrypt).toList = (sm4RoundKeys (quadOf (padKey key))).reverse := by
  have base : ∀ mode, KeyInv (quadOf (padKey key)) mode 0
      (#v[loadU32 (padKey key) 0 ^^^ SM4_FK[0], loadU32 (padKey key) 1 ^^^ SM4_FK[1],
        loadU32 (padKey key) 2 ^^^ SM4_FK[2], loadU32 (padKey key) 3 ^^^ SM4_FK[3]], Vector.replicate 32 0) := by
    intro mode
    have hq := load_eq (padKey key)
    refine ⟨?_, ?_, ?_, ?_, ?_⟩
    · show loadU32 (padKey key) 0 ^^^ 0xA3B1BAC6 = _
      rw [sm4KeyWindow, ← hq]; rfl
    · show loadU32 (padKey key) 1 ^^^ 0x56AA3350 = _
      rw [sm4KeyWindow, ← hq]; rfl
    · show loadU32 (padKey key) 2 ^^^ 0x677D9197 = _
      rw [sm4KeyWindow, ← hq]; rfl
    · show loadU32 (padKey key) 3 ^^^ 0xB27022DC = _
      rw [sm4KeyWindow, ← hq]; rfl
    · intro j hj; omega
  constructor
  · have inv := keyLoop_inv _ .encrypt _ (base .encrypt)
    apply List.ext_getElem
    · simp [sm4RoundKeys]
    · intro j h1 h2
      have := inv.rk j (by simpa using h1) (Nat.le_refl _)
      simp only [Vector.getElem_toList, sm4RoundKeys, List.getElem_map, List.getElem_range]
      exact this
  · have inv := keyLoop_inv _ .decrypt _ (base .decrypt)
    apply List.ext_getElem
    · simp [sm4RoundKeys]
    · intro j h1 h2
      have hj : j < 32 := by simpa using h1
      have := inv.rk (31 - j) (by omega) (Nat.le_refl _)
      simp only [show 31 - (31 - j) = j by omega] at this
      simp only [Vector.getElem_toList, List.getElem_reverse, sm4RoundKeys, List.getElem_map, List.getElem_range,
        List.length_map, List.length_range]
      exact this

/-- C30: with a 16-byte key, block encryption and decryption are those of GB/T 32907. -/
theorem C30_sm4_standard (key x : Block) :
    Model.sm4Encrypt (sm4InitKey key.toList .encrypt) x = Spec.sm4Encrypt key x ∧
    Model.sm4Decrypt (sm4InitKey key.toList .encrypt) x = Spec.sm4Decrypt key x := by
  constructor
  · rw [sm4Encrypt_eq, (initKey_eq _).1, padKey_16]; rfl
  · rw [sm4Decrypt_eq, (initKey_eq _).1, padKey_16]; rfl

/-- C30 for keys of any length: the key is padded or cut to 16 bytes first. -/
theorem C30_sm4_any_key (key : List Byte) (x : Block) :
    Model.sm4Encrypt (sm4InitKey key .encrypt) x = Spec.sm4Encrypt (padKey key) x ∧
    (padKey key).toList = if key.length < 16 then key ++ List.replicate (16 - key.length) (BitVec.ofNat 8 (16 - key.length))
      else key.take 16 := by
  constructor
  · rw [sm4Encrypt_eq, (initKey_eq _).1]; rfl
  · have hl := (C32_key_padding_shape key).1
    have : (padKey key).toList = keyPaddingPkcs7 key := by
      apply List.ext_getElem
      · simp [hl]
      · intro i h1 h2
        simp [padKey, List.getD_eq_getElem?_getD, h2]
    rw [this, keyPaddingPkcs7]
    split
    · rw [if_neg (by omega)]
    · split
      · rfl
      · rw [List.take_of_length_le (by omega)]

/- Short keys, exact keys and long keys all occur. -/
example : (padKey [1, 2, 3]).toList = [1, 2, 3] ++ List.replicate 13 13 := by decide +kernel

/-- C31: encrypting with a schedule generated in decrypt mode is decrypting with the schedule of encrypt mode, and
conversely. -/
theorem C31_decrypt_mode (key : List Byte) (x : Block) :
    Model.sm4Encrypt (sm4InitKey key .decrypt) x = Model.sm4Decrypt (sm4InitKey key .encrypt) x ∧
    Model.sm4Decrypt (sm4InitKey key .decrypt) x = Model.sm4Encrypt (sm4InitKey key .encrypt) x := by
  constructor
  · rw [sm4Encrypt_eq, sm4Decrypt_eq, (initKey_eq _).1, (initKey_eq _).2]
  · rw [sm4Encrypt_eq, sm4Decrypt_eq, (initKey_eq _).1, (initKey_eq _).2, List.reverse_reverse]

end Verif.Props
