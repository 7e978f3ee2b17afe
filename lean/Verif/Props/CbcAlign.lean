import Verif.Spec.Align
import Verif.Spec.Padding
import Verif.Model.CbcAlign
import Verif.Props.Padding

/-! Property C126: at which addresses CBC needs its arguments. -/
set_option autoImplicit false

namespace Verif.Props
open Verif Spec Model

theorem tr_val {ε α β : Type} (m : WithLog ε α) (f : α → WithLog ε β) : (m >>= f).val = (f m.val).val := rfl
theorem tr_log {ε α β : Type} (m : WithLog ε α) (f : α → WithLog ε β) : (m >>= f).log = m.log ++ (f m.val).log := rfl
theorem tr_pure_val {ε α : Type} (a : α) : (pure a : WithLog ε α).val = a := rfl
theorem tr_pure_log {ε α : Type} (a : α) : (pure a : WithLog ε α).log = [] := rfl

theorem al_append (W : Nat) (a b : List Nat) : Aligned W (a ++ b) ↔ Aligned W a ∧ Aligned W b := by
  unfold Aligned
  simp only [List.mem_append]
  exact ⟨fun h => ⟨fun x hx => h x (.inl hx), fun x hx => h x (.inr hx)⟩, fun h x hx => hx.elim (h.1 x) (h.2 x)⟩

theorem al_nil (W : Nat) : Aligned W [] := fun _ h => absurd h (by simp)

/-- For a list of base addresses, each with all words of its block. -/
theorem al_words (W : Nat) (hW : W ∣ 16) (as : List Nat) :
    Aligned W ((List.range (16 / W)).flatMap fun n => as.map (· + n * W)) ↔ ∀ a ∈ as, W ∣ a := by
  have h0 : 0 < W := Nat.pos_of_dvd_of_pos hW (by decide)
  have h1 : 0 < 16 / W := Nat.div_pos (Nat.le_of_dvd (by decide) hW) h0
  constructor
  · intro h a ha
    exact h a (List.mem_flatMap.2 ⟨0, List.mem_range.2 h1, List.mem_map.2 ⟨a, ha, by simp⟩⟩)
  · intro h x hx
    obtain ⟨n, -, hx⟩ := List.mem_flatMap.1 hx
    obtain ⟨a, ha, rfl⟩ := List.mem_map.1 hx
    exact Nat.dvd_add (h a ha) (Nat.dvd_mul_left W n)

theorem dvd16 (W a : Nat) (hW : W ∣ 16) : W ∣ a + 16 ↔ W ∣ a := Nat.dvd_add_left hW

theorem xorFold_log (W q p : Nat) (l : List Nat) (m : Mem) :
    (l.foldlM (fun m n => xorWordTr W m (q + n * W) (p + n * W)) m).log = l.flatMap fun n => [q, p].map (· + n * W) := by
  induction l generalizing m with
  | nil => rfl
  | cons n l ih => rw [List.foldlM_cons, tr_log, ih, List.flatMap_cons]; rfl

theorem xorIv_al (W v : Nat) (hW : W ∣ 16) (ivec : Block) (m : Mem) (q : Nat) (iv : IvPtr) :
    Aligned W (xorIvTr W v ivec m q iv).log ↔ W ∣ q ∧ W ∣ ivAddr v iv := by
  have h : (xorIvTr W v ivec m q iv).log = (List.range (16 / W)).flatMap fun n => [q, ivAddr v iv].map (· + n * W) := by
    cases iv with
    | ivec => rfl
    | «at» p => exact xorFold_log W q p _ m
  rw [h, al_words W hW]
  simp

theorem decLoop_al (W v : Nat) (hW : W ∣ 16) (D : Block → Block) (ivec : Block) (k p q : Nat) (iv : IvPtr) (m : Mem) :
    Aligned W (cbcDecLoopTr W v D ivec k p q iv m).log ↔ k = 0 ∨ (W ∣ q ∧ W ∣ ivAddr v iv ∧ (2 ≤ k → W ∣ p)) := by
  induction k generalizing p q iv m with
  | zero => simp [cbcDecLoopTr, tr_pure_log, al_nil]
  | succ k ih =>
    rw [cbcDecLoopTr, tr_log, al_append, xorIv_al W v hW, ih, dvd16 _ _ hW, dvd16 _ _ hW]
    simp only [ivAddr]
    constructor
    · rintro ⟨⟨h1, h2⟩, h3⟩
      exact .inr ⟨h1, h2, fun hk => (h3.resolve_left (by omega)).2.1⟩
    · rintro (h | ⟨h1, h2, h3⟩)
      · omega
      · refine ⟨⟨h1, h2⟩, ?_⟩
        rcases Nat.eq_zero_or_pos k with hk | hk
        · exact .inl hk
        · exact .inr ⟨h1, h3 (by omega), fun _ => h3 (by omega)⟩

theorem decSame_al (W v : Nat) (hW : W ∣ 16) (D : Block → Block) (k p : Nat) (iv : Block) (m : Mem) :
    Aligned W (cbcDecLoopSameTr W v D k p iv m).log ↔ k = 0 ∨ (W ∣ p ∧ W ∣ v) := by
  induction k generalizing p iv m with
  | zero => simp [cbcDecLoopSameTr, tr_pure_log, al_nil]
  | succ k ih =>
    rw [cbcDecLoopSameTr, tr_log, al_append, ih, dvd16 _ _ hW]
    have h := al_words W hW [p, v, p, v]
    simp only [List.map_cons, List.map_nil] at h
    simp only [h]
    simp only [List.mem_cons, List.not_mem_nil, or_false, forall_eq_or_imp, forall_eq]
    constructor
    · rintro ⟨⟨h1, h2, -⟩, -⟩
      exact .inr ⟨h1, h2⟩
    · rintro (h | ⟨h1, h2⟩)
      · omega
      · exact ⟨⟨h1, h2, h1, h2⟩, .inr ⟨h1, h2⟩⟩

theorem encLoop_al (W v f : Nat) (hW : W ∣ 16) (E : Block → Block) (ivec : Block) (afin : List Byte) (k pos q : Nat) (iv : IvPtr) (m : Mem)
    (hpos : 16 ∣ pos) (hl : pos + 16 * k ≤ afin.length) :
    Aligned W (cbcEncLoopTr W v f E ivec afin k pos q iv m).log ↔ k = 0 ∨ (W ∣ f ∧ W ∣ q ∧ W ∣ ivAddr v iv) := by
  induction k generalizing pos q iv m with
  | zero => simp [cbcEncLoopTr, tr_pure_log, al_nil]
  | succ k ih =>
    obtain ⟨a, ha⟩ : ∃ a, rdBlk afin pos = some a := by
      unfold rdBlk
      rw [dif_pos (by omega)]
      exact ⟨_, rfl⟩
    rw [cbcEncLoopTr, ha]
    simp only []
    rw [tr_log, al_append, ih _ _ _ _ (by omega) (by omega), dvd16 _ _ hW]
    have h := al_words W hW [f + pos, ivAddr v iv, q]
    simp only [List.map_cons, List.map_nil] at h
    simp only [h]
    simp only [List.mem_cons, List.not_mem_nil, or_false, forall_eq_or_imp, forall_eq, ivAddr]
    rw [Nat.dvd_add_left (Nat.dvd_trans hW hpos)]
    constructor
    · rintro ⟨⟨h1, h2, h3⟩, -⟩
      exact .inr ⟨h1, h3, h2⟩
    · rintro (h | ⟨h1, h2, h3⟩)
      · omega
      · exact ⟨⟨h1, h3, h2⟩, .inr ⟨h1, h2, h2⟩⟩

/-! ### The recorded functions are the functions -/

theorem xorWord_eq (m : Mem) (q p : Nat) : (xorWordTr 8 m q p).val = m.xorWord q p := rfl

theorem xorIv_val (v : Nat) (ivec : Block) (m : Mem) (q : Nat) (iv : IvPtr) : (xorIvTr 8 v ivec m q iv).val = xorIv ivec m q iv := by
  cases iv with
  | ivec => rfl
  | «at» p =>
    show ((List.range 2).foldlM (fun m n => xorWordTr 8 m (q + n * 8) (p + n * 8)) m).val = _
    rw [show List.range 2 = [0, 1] from rfl]
    simp only [List.foldlM_cons, List.foldlM_nil, tr_val, tr_pure_val, xorWord_eq]
    rfl

theorem decLoop_val (v : Nat) (D : Block → Block) (ivec : Block) (k p q : Nat) (iv : IvPtr) (m : Mem) :
    (cbcDecLoopTr 8 v D ivec k p q iv m).val = cbcDecLoopMem D ivec k p q iv m := by
  induction k generalizing p q iv m with
  | zero => rfl
  | succ k ih => rw [cbcDecLoopTr, tr_val, ih, xorIv_val, cbcDecLoopMem]

theorem decSame_val (W v : Nat) (D : Block → Block) (k p : Nat) (iv : Block) (m : Mem) :
    (cbcDecLoopSameTr W v D k p iv m).val = cbcDecLoopSame D k p iv m := by
  induction k generalizing p iv m with
  | zero => rfl
  | succ k ih => rw [cbcDecLoopSameTr, tr_val, ih, cbcDecLoopSame]

theorem encLoop_val (W v f : Nat) (E : Block → Block) (ivec : Block) (afin : List Byte) (k pos q : Nat) (iv : IvPtr) (m : Mem) :
    (cbcEncLoopTr W v f E ivec afin k pos q iv m).val = cbcEncLoopMem E ivec afin k pos q iv m := by
  induction k generalizing pos q iv m with
  | zero => rfl
  | succ k ih =>
    rw [cbcEncLoopTr, cbcEncLoopMem]
    cases rdBlk afin pos with
    | none => rfl
    | some a =>
      simp only [tr_val, ih, Option.bind_some]

/-- C126: recording the accesses changes nothing (words of 8 bytes). -/
theorem C126_recorded (v f : Nat) (F : Block → Block) (moved : Bool) (m : Mem) (p q inlen maxOlen : Nat) (ivec : Block) :
    (cbcDecryptTr 8 v F m p q inlen maxOlen ivec).val = cbcDecryptMem F m p q inlen maxOlen ivec ∧
    (cbcEncryptTr 8 v f F moved m p q inlen maxOlen ivec).val = cbcEncryptMem F moved m p q inlen maxOlen ivec := by
  constructor
  · unfold cbcDecryptTr cbcDecryptMem
    by_cases h : maxOlen < inlen
    · rw [if_pos h, if_pos h]; rfl
    · rw [if_neg h, if_neg h]
      by_cases hp : p = q
      · simp only [if_pos hp, tr_val, tr_pure_val, decSame_val]
      · simp only [if_neg hp, tr_val, tr_pure_val, decLoop_val]
  · unfold cbcEncryptTr cbcEncryptMem
    cases pkcs7Merge ((List.range inlen).map fun i => m (p + i)) with
    | none => rfl
    | some afin =>
      simp only [Option.bind_some]
      by_cases h : maxOlen < afin.length
      · rw [if_pos h, if_pos h]; rfl
      · rw [if_neg h, if_neg h]
        by_cases hm : (moved && decide (afin.length ≠ 0)) = true
        · rw [if_pos hm, if_pos hm]; rfl
        · rw [if_neg hm, if_neg hm, tr_val, tr_pure_val, encLoop_val]

/-! ### The conditions -/

/-- C126: decryption loads and stores words at multiples of their size exactly if it is refused, or has less than one block, or the
output, the IV and, for two blocks or more (or in place), the input begin at such multiples. -/
theorem C126_decrypt (W v : Nat) (hW : W ∣ 16) (D : Block → Block) (m : Mem) (p q inlen maxOlen : Nat) (ivec : Block) (hi : inlen < 2 ^ 31) :
    Aligned W (cbcDecryptTr W v D m p q inlen maxOlen ivec).log ↔
      maxOlen < inlen ∨ inlen < 16 ∨ (W ∣ q ∧ W ∣ v ∧ (32 ≤ inlen → W ∣ p)) := by
  have hc : (cbcCounts inlen).1 = inlen / 16 := by
    unfold cbcCounts
    rw [if_pos (by omega)]
    simp only
    omega
  unfold cbcDecryptTr
  by_cases h : maxOlen < inlen
  · rw [if_pos h]
    simp [tr_pure_log, al_nil, h]
  · rw [if_neg h]
    simp only [hc]
    by_cases hp : p = q
    · simp only [if_pos hp, tr_log, tr_pure_log, List.append_nil]
      rw [decSame_al W v hW, hp]
      constructor
      · rintro (h1 | ⟨h1, h2⟩)
        · exact .inr (.inl (by omega))
        · exact .inr (.inr ⟨h1, h2, fun _ => h1⟩)
      · rintro (h1 | h1 | ⟨h1, h2, -⟩)
        · omega
        · exact .inl (by omega)
        · exact .inr ⟨h1, h2⟩
    · simp only [if_neg hp, tr_log, tr_pure_log, List.append_nil]
      rw [decLoop_al W v hW]
      simp only [ivAddr]
      constructor
      · rintro (h1 | ⟨h1, h2, h3⟩)
        · exact .inr (.inl (by omega))
        · exact .inr (.inr ⟨h1, h2, fun h => h3 (by omega)⟩)
      · rintro (h1 | h1 | ⟨h1, h2, h3⟩)
        · omega
        · exact .inl (by omega)
        · exact .inr ⟨h1, h2, fun h => h3 (by omega)⟩

/-- C126: encryption, with a private copy at a multiple of the word size (as `malloc` gives it), does so exactly if it is refused, or the
message is empty, or the output and the IV begin at such multiples. The input may begin anywhere. -/
theorem C126_encrypt (W v f : Nat) (hW : W ∣ 16) (hf : W ∣ f) (E : Block → Block) (m : Mem) (p q inlen maxOlen : Nat) (ivec : Block)
    (hi : inlen < 2 ^ 31 - 16) :
    Aligned W (cbcEncryptTr W v f E false m p q inlen maxOlen ivec).log ↔
      maxOlen < inlen + padCount inlen ∨ inlen = 0 ∨ (W ∣ q ∧ W ∣ v) := by
  have hlen : ((List.range inlen).map fun i => m (p + i)).length = inlen := by simp
  have hm := pkcs7Merge_eq_spec ((List.range inlen).map fun i => m (p + i)) (by omega)
  have hl : (pkcs7 ((List.range inlen).map fun i => m (p + i))).length = inlen + padCount inlen := by
    rw [pkcs7, List.length_append, List.length_replicate, hlen]
  unfold cbcEncryptTr
  rw [hm]
  generalize pkcs7 ((List.range inlen).map fun i => m (p + i)) = afin at hl
  simp only [hl]
  by_cases h : maxOlen < inlen + padCount inlen
  · rw [if_pos h]
    simp [tr_pure_log, al_nil, h]
  · rw [if_neg h]
    simp only [Bool.false_and, Bool.false_eq_true, if_false, tr_log, tr_pure_log, List.append_nil]
    have h16 : 16 ∣ inlen + padCount inlen := by unfold padCount; omega
    rw [encLoop_al W v f hW E ivec afin _ 0 q _ m (by omega) (by omega)]
    simp only [ivAddr]
    have h0 : (inlen + padCount inlen) / 16 = 0 ↔ inlen = 0 := by unfold padCount; omega
    rw [h0]
    constructor
    · rintro (h1 | ⟨-, h1, h2⟩)
      · exact .inr (.inl h1)
      · exact .inr (.inr ⟨h1, h2⟩)
    · rintro (h1 | h1 | h1)
      · exact absurd h1 h
      · exact .inl h1
      · exact .inr ⟨hf, h1⟩

/-- C126: on a big-endian machine FF1 and FF1-CMAC always store at an address that is no multiple of 4, wherever the array is; on a
little-endian one they store bytes. -/
theorem C126_ff1 (a : Nat) : ¬ Aligned 4 (ff1PStores .big a) ∧ ff1PStores .little a = [] := by
  constructor
  · intro h
    have e : ff1PStores .big a = [a + 3, a + 8, a + 12] := by
      unfold ff1PStores
      rw [if_neg (by decide)]
    rw [e] at h
    have h1 := h (a + 3) (by simp)
    have h2 := h (a + 8) (by simp)
    omega
  · unfold ff1PStores
    rw [if_pos (by decide)]

/-- Words of 8 and of 4 bytes. -/
example : (8 : Nat) ∣ 16 ∧ (4 : Nat) ∣ 16 := by decide

/-- The IV in front of the ciphertext in one buffer that begins at 1001: decryption of a single block is misaligned, because of the IV. -/
example (D : Block → Block) (m : Mem) (ivec : Block) : ¬ Aligned 8 (cbcDecryptTr 8 1001 D m 1017 2000 16 16 ivec).log := by
  rw [C126_decrypt 8 1001 (by decide) D m 1017 2000 16 16 ivec (by decide)]
  omega

/-- One block from an odd address is fine, two blocks are not. -/
example (D : Block → Block) (m : Mem) (ivec : Block) : Aligned 8 (cbcDecryptTr 8 3000 D m 1017 2000 16 32 ivec).log ∧
    ¬ Aligned 8 (cbcDecryptTr 8 3000 D m 1017 2000 32 32 ivec).log := by
  rw [C126_decrypt 8 3000 (by decide) D m 1017 2000 16 32 ivec (by decide), C126_decrypt 8 3000 (by decide) D m 1017 2000 32 32 ivec (by decide)]
  omega

/-- Encryption of one byte needs an aligned output; from any address. -/
example (E : Block → Block) (m : Mem) (ivec : Block) : ¬ Aligned 8 (cbcEncryptTr 8 3000 4000 E false m 1000 2001 1 16 ivec).log ∧
    Aligned 8 (cbcEncryptTr 8 3000 4000 E false m 1001 2000 1 16 ivec).log := by
  rw [C126_encrypt 8 3000 4000 (by decide) (by decide) E m 1000 2001 1 16 ivec (by decide),
    C126_encrypt 8 3000 4000 (by decide) (by decide) E m 1001 2000 1 16 ivec (by decide)]
  unfold padCount
  omega

end Verif.Props
