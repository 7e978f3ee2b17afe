import Verif.Model.Tests
import Verif.Props.AesWrap
import Verif.Props.Docs
import Verif.Props.FpeMac
import Verif.Props.GcmFile
import Verif.Props.SeWbsm4
import Verif.Props.Sm3
import Verif.Props.Wbaes

/-! C122: what it means that the test programs report success. -/
set_option autoImplicit false

namespace Verif.Props
open Verif Spec Model

/-! ### the comparison of values -/

/-- What `strncmp` sees of `n` bytes: those up to the first zero. -/
def seen (n : Nat) (a : List Byte) : List Byte := (a.take n).takeWhile (· != 0)

/-- C122: `TEST_cmp_values` on two arrays of at least `n` bytes finds them equal exactly if they agree up to the first zero byte;
what comes after it is not looked at. -/
theorem C122_cmp_values (n : Nat) : ∀ (a b : List Byte), n ≤ a.length → n ≤ b.length →
    testCmpValues a b n = some (decide (seen n a = seen n b)) := by
  unfold testCmpValues
  induction n with
  | zero => intro a b _ _; rfl
  | succ n ih =>
    intro a b ha hb
    match a, b with
    | [], _ => simp at ha
    | _ :: _, [] => simp at hb
    | x :: a, y :: b =>
      simp only [List.length_cons, Nat.add_le_add_iff_right] at ha hb
      unfold strncmpEq seen
      simp only [List.take_succ_cons, List.takeWhile_cons]
      by_cases h : x = y
      · subst h
        rw [if_neg (by simp)]
        by_cases h0 : x = 0
        · rw [if_pos h0, if_neg (by simp [h0]), if_neg (by simp [h0])]
          simp
        · rw [if_neg h0, if_pos (bne_iff_ne.2 h0), if_pos (bne_iff_ne.2 h0), ih a b ha hb]
          unfold seen
          simp
      · rw [if_pos h]
        by_cases h0 : x = 0
        · have hy : y ≠ 0 := fun e => h (h0.trans e.symm)
          rw [if_neg (by simp [h0]), if_pos (bne_iff_ne.2 hy)]
          simp
        · rw [if_pos (bne_iff_ne.2 h0)]
          split
          · simp [h]
          · simp

theorem seen_full (n : Nat) (a : List Byte) (h : ∀ c ∈ a, c ≠ 0) : seen n a = a.take n := by
  unfold seen
  have := List.takeWhile_append_of_pos (p := (· != 0)) (l₁ := a.take n) (l₂ := [])
    fun c hc => bne_iff_ne.2 (h c (List.mem_of_mem_take hc))
  rwa [List.append_nil, List.takeWhile_nil, List.append_nil] at this

theorem seen_eq_full (n : Nat) (a b : List Byte) (h : ∀ c ∈ b, c ≠ 0) (hl : a.length = n) (hl' : b.length = n) :
    seen n a = seen n b ↔ a = b := by
  rw [seen_full n b h, List.take_of_length_le (by omega)]
  constructor
  · intro e
    unfold seen at e
    rw [List.take_of_length_le (by omega)] at e
    have hs : a.takeWhile (· != 0) = a := by
      have hp : a.takeWhile (· != 0) <+: a := List.takeWhile_prefix _
      exact hp.eq_of_length (by rw [e]; omega)
    rw [← hs, e]
  · rintro rfl
    rw [seen_full n _ h, List.take_of_length_le (by omega)]

/-- C122: the comparison with an array without zero bytes is equality. -/
theorem C122_cmp_sound (n : Nat) (a b : List Byte) (h : ∀ c ∈ b, c ≠ 0) (hl : a.length = n) (hl' : b.length = n) :
    testCmpValues a b n = some (decide (a = b)) := by
  rw [C122_cmp_values n a b (by omega) (by omega)]
  simp only [seen_eq_full n a b h hl hl']

/-- C122: and with a value that begins with zero, as the message of aes_test.c, it only asks whether the other begins with zero. -/
theorem C122_cmp_zero (n : Nat) (a : List Byte) (x : Byte) (b : List Byte) :
    testCmpValues (0 :: a) (x :: b) (n + 1) = some (decide (x = 0)) := by
  unfold testCmpValues strncmpEq
  by_cases h : x = 0
  · simp [h]
  · rw [if_pos (Ne.symm h), decide_eq_false h]

example : testCmpValues [1, 0, 2] [1, 0, 3] 3 = some true := by
  rw [C122_cmp_values 3 _ _ (by decide) (by decide)]; decide

/-! ### block ciphers -/

theorem mpiChk_some (x : Bool) (rest : Option Bool) : mpiChk (some x) rest = if x then rest else some false := rfl

/-- C122: which implementations `test_sm4` accepts: those that map the one message to its ciphertext and back. -/
theorem C122_sm4_test (E D : Block → Block) :
    testSm4 E D = some (decide (E tvSm4 = tvSm4Cipher ∧ D tvSm4Cipher = tvSm4)) := by
  unfold testSm4 testBlock
  rw [C122_cmp_sound 16 _ _ (by decide) (by simp) (by simp), mpiChk_some]
  by_cases h : E tvSm4 = tvSm4Cipher
  · have hc : testCmpValues tvSm4.toList (D (E tvSm4)).toList 16 = some (decide (tvSm4.toList = (D (E tvSm4)).toList)) := by
      rw [C122_cmp_values 16 _ _ (by simp) (by simp)]
      congr 2
      rw [eq_iff_iff, eq_comm, seen_eq_full 16 _ _ (by decide) (by simp) (by simp)]
      exact eq_comm
    rw [hc, mpiChk_some, h]
    simp only [Vector.toList_inj, decide_true, if_true]
    by_cases h2 : D tvSm4Cipher = tvSm4
    · simp [h2]
    · simp [h2, Ne.symm h2]
  · simp [Vector.toList_inj, h]

/-- C122: which implementations `test_aes` accepts: those that map the one message to its ciphertext, and the ciphertext to any block
that begins with a zero byte. -/
theorem C122_aes_test (E D : Block → Block) :
    testAes E D = some (decide (E tvAes = tvAesCipher ∧ (D tvAesCipher)[0] = 0)) := by
  unfold testAes testBlock
  rw [C122_cmp_sound 16 _ _ (by decide) (by simp) (by simp), mpiChk_some]
  by_cases h : E tvAes = tvAesCipher
  · rw [h]
    have hd : (D tvAesCipher).toList = (D tvAesCipher)[0] :: (D tvAesCipher).toList.tail := by
      have hl : (D tvAesCipher).toList.length = 16 := by simp
      cases e : (D tvAesCipher).toList with
      | nil => rw [e] at hl; simp at hl
      | cons a l =>
        have : (D tvAesCipher).toList[0]'(by simp) = a := by simp [e]
        rw [Vector.getElem_toList] at this
        rw [this]
        rfl
    rw [hd, show tvAes.toList = 0 :: tvAes.toList.tail by decide, C122_cmp_zero, mpiChk_some]
    by_cases h0 : (D tvAesCipher)[0] = 0
    · rw [decide_eq_true h0, decide_eq_true (p := tvAesCipher = tvAesCipher ∧ _) ⟨rfl, h0⟩, decide_eq_true rfl]
      rfl
    · rw [decide_eq_false h0, decide_eq_false (p := tvAesCipher = tvAesCipher ∧ _) fun h => h0 h.2, decide_eq_true rfl]
      rfl
  · simp [Vector.toList_inj, h]

/-- C122: a program that decrypts everything to zeros passes. -/
theorem C122_aes_blind (E : Block → Block) (h : E tvAes = tvAesCipher) : testAes E (fun _ => zeroBlock) = some true := by
  rw [C122_aes_test, decide_eq_true ⟨h, by decide⟩]

/-- C122: `test_wbaes` accepts exactly the implementations with the right ciphertext. -/
theorem C122_wbaes_test (E : Block → Block) : testWbaes E = some (decide (E tvAes = tvAesCipher)) := by
  unfold testWbaes
  rw [C122_cmp_sound 16 _ _ (by decide) (by simp) (by simp), mpiChk_some]
  by_cases h : E tvAes = tvAesCipher <;> simp [Vector.toList_inj, h]

theorem aes_vector : aesEval tvAes tvAes = tvAesCipher := by decide +kernel
theorem aes_vector_back : (evalInv tvAes tvAesCipher)[0] ≠ 0 := by decide +kernel
theorem sm4_vector : Spec.sm4Encrypt tvSm4 tvSm4 = tvSm4Cipher := by decide +kernel
theorem sm4_vector_twice : Spec.sm4Encrypt tvSm4 tvSm4Cipher ≠ tvSm4 := by decide +kernel

/-- C122: with the code as it is, `test_aes` reports a failure: not even the first byte comes back (see C61). -/
theorem C122_aes_program : ∃ ctx, aesInitKey tvAes.toList 16 = some ctx ∧
    testAes (Model.aesEncrypt ctx) (aesDecrypt ctx) = some false := by
  refine ⟨aesSetEncryptKey tvAes, ?_, ?_⟩
  · have := rdBlk_append [] tvAes []
    simp only [List.nil_append, List.length_nil, List.append_nil] at this
    rw [aesInitKey, if_neg (by decide), this]
    rfl
  · rw [C122_aes_test, aesDecrypt, ← evalInv_eq, decide_eq_false fun h => aes_vector_back h.2]

/-- C122: `test_sm4` passes; `test_wbaes` passes for every random choice of encodings; `test_wbsm4` of se_wbsm4_test.c fails for
every random choice, because it decrypts with the context for encryption. -/
theorem C122_programs : testSm4 (Model.sm4Encrypt (sm4InitKey tvSm4.toList .encrypt))
      (Model.sm4Decrypt (sm4InitKey tvSm4.toList .encrypt)) = some true ∧
    (∀ (r : WbaesRnd) (ro : Fin 16 → Fin 2 → Nat → BitVec 32), testWbaes (wbaesEncrypt (wbaesGenTable r ro tvAes)) = some true) ∧
    (∀ r : SeRnd, testSeWbsm4 r = some false) ∧
    (∀ r r' : SeRnd, testSm4 (seEncrypt (seGenTable r .encrypt tvSm4.toList))
      (seDecrypt (seGenTable r' .decrypt tvSm4.toList)) = some true) := by
  refine ⟨?_, fun r ro => ?_, fun r => ?_, fun r r' => ?_⟩
  · rw [C122_sm4_test, sm4Encrypt_ctx, sm4Decrypt_ctx, sm4_vector, decide_eq_true]
    refine ⟨rfl, ?_⟩
    rw [← sm4_vector, ← sm4Encrypt_ctx, ← sm4Decrypt_ctx, (C29_sm4_inverse _ _).1]
  · rw [C122_wbaes_test, C41_wbaes_is_aes, ← aesEval_eq, decide_eq_true aes_vector]
  · unfold testSeWbsm4
    rw [C122_sm4_test, seDecrypt, (C40_se_wbsm4_is_sm4 r tvSm4 _).1, decide_eq_false fun h => sm4_vector_twice ?_]
    have := h.2
    rwa [(C40_se_wbsm4_is_sm4 r tvSm4 _).1] at this
  · have e := (C40_se_wbsm4_is_sm4 r tvSm4 tvSm4).1
    have i := (C40_se_wbsm4_inverse r r' tvSm4.toList tvSm4).1
    rw [C122_sm4_test, e, sm4_vector, decide_eq_true]
    refine ⟨rfl, ?_⟩
    rwa [e, sm4_vector] at i

/-- C122: `test_wbsm4` of wbsm4_test.c uses one group of dummy rounds, whose constants are never written: it passes exactly if in both
contexts the garbage in the four rounds xors to zero. -/
theorem C122_wbsm4_test (r r' : Wbsm4Rnd) (junk junk' : Nat → WbRound) : ∃ a a', a ≤ 32 ∧ a' ≤ 32 ∧
    ∃ pass, testWbsm4 r r' junk junk' = some pass ∧ (pass = true ↔
      (∀ k, k < 4 → junkXor (junk (a + k)) = 0) ∧ (∀ k, k < 4 → junkXor (junk' (a' + k)) = 0)) := by
  obtain ⟨a, enc, h1, h2, h3⟩ := C37_one_group r junk .encrypt tvSm4.toList
  obtain ⟨a', dec, h1', h2', h3'⟩ := C37_one_group r' junk' .decrypt tvSm4.toList
  refine ⟨a, a', h1, h1', decide (wbsm4Encrypt enc tvSm4 = tvSm4Cipher ∧ wbsm4Decrypt dec tvSm4Cipher = tvSm4), ?_, ?_⟩
  · unfold testWbsm4
    rw [h2, Option.bind_some, h2', Option.bind_some, C122_sm4_test]
  have hd : wbsm4Decrypt dec tvSm4Cipher = tvSm4 ↔ ∀ k, k < 4 → junkXor (junk' (a' + k)) = 0 := by
    rw [← h3' tvSm4Cipher, (C31_decrypt_mode tvSm4.toList tvSm4Cipher).1]
    have : Model.sm4Decrypt (sm4InitKey tvSm4.toList .encrypt) tvSm4Cipher = tvSm4 := by
      rw [← sm4_vector, ← sm4Encrypt_ctx, (C29_sm4_inverse _ _).1]
    rw [this]
    rfl
  have he : wbsm4Encrypt enc tvSm4 = tvSm4Cipher ↔ ∀ k, k < 4 → junkXor (junk (a + k)) = 0 := by
    rw [← h3 tvSm4, sm4Encrypt_ctx, sm4_vector]
  rw [decide_eq_true_iff, he, hd]

/-! ### SM3 -/

/-- C122: which hash functions `test_sm3` accepts; it passes. -/
theorem C122_sm3_test (H : List Byte → List Byte) (hl : ∀ m, (H m).length = 32) :
    testSm3 H = some (decide (H tvSm3Msg1 = tvSm3Hash1 ∧ H tvSm3Msg2 = tvSm3Hash2)) ∧ testSm3 sm3Hash = some true := by
  have gen : ∀ G : List Byte → List Byte, (G tvSm3Msg1).length = 32 → (G tvSm3Msg2).length = 32 →
      testSm3 G = some (decide (G tvSm3Msg1 = tvSm3Hash1 ∧ G tvSm3Msg2 = tvSm3Hash2)) := by
    intro G g1 g2
    unfold testSm3
    rw [C122_cmp_sound 32 _ _ (by decide) g1 (by decide), C122_cmp_sound 32 _ _ (by decide) g2 (by decide), mpiChk_some,
      mpiChk_some]
    by_cases h1 : G tvSm3Msg1 = tvSm3Hash1 <;> by_cases h2 : G tvSm3Msg2 = tvSm3Hash2 <;> simp [h1, h2]
  have s1 : sm3Hash tvSm3Msg1 = tvSm3Hash1 := by decide +kernel
  have s2 : sm3Hash tvSm3Msg2 = tvSm3Hash2 := by decide +kernel
  refine ⟨gen H (hl _) (hl _), ?_⟩
  rw [gen sm3Hash (by rw [s1]; decide) (by rw [s2]; decide), s1, s2]
  simp

/-! ### files -/

/-- What `TEST_cmp_files` sees of a file when `char` is signed: the bytes before the first 0xFF. -/
def seenFile (f : List Byte) : List Byte := f.takeWhile (· != 0xFF)

theorem seenFile_ff (f : List Byte) : seenFile (0xFF :: f) = [] := by
  unfold seenFile
  rw [List.takeWhile_cons, if_neg (by decide)]

theorem seenFile_cons (x : Byte) (f : List Byte) (h : x ≠ 0xFF) : seenFile (x :: f) = x :: seenFile f := by
  unfold seenFile
  rw [List.takeWhile_cons, if_pos (bne_iff_ne.2 h)]

theorem cmpLoop_ne (s : CharSign) (k : Nat) (f g : List Byte) (h : fgetcChar s f ≠ fgetcChar s g) :
    cmpLoop s (k + 1) f g = some false := by
  rw [cmpLoop, if_pos h]

theorem cmpLoop_go (s : CharSign) (k : Nat) (f g : List Byte) (h : fgetcChar s f = fgetcChar s g) (h' : fgetcChar s f ≠ -1) :
    cmpLoop s (k + 1) f g = cmpLoop s k f.tail g.tail := by
  rw [cmpLoop, if_neg fun e => e h, if_pos (.inl h')]

theorem cmpLoop_end (s : CharSign) (k : Nat) (f g : List Byte) (h : fgetcChar s f = -1) (h' : fgetcChar s g = -1) :
    cmpLoop s (k + 1) f g = some true := by
  rw [cmpLoop, if_neg fun e => e (h.trans h'.symm), if_neg fun e => e.elim (fun e => e h) fun e => e h']

theorem toInt_ff (x : Byte) : x.toInt = -1 ↔ x = 0xFF :=
  ⟨fun e => BitVec.toInt_inj.1 (e.trans (by decide)), fun e => by rw [e]; decide⟩

/-- C122: with a signed `char`, `TEST_cmp_files` ends and reports equality exactly if the two files agree up to the first
byte 0xFF, which it takes for the end of the file. -/
theorem C122_cmp_files_signed : ∀ (f g : List Byte) (k : Nat), f.length < k ∨ g.length < k →
    testCmpFiles .signed k (some f) (some g) = some (decide (seenFile f = seenFile g)) := by
  intro f
  show ∀ (g : List Byte) (k : Nat), f.length < k ∨ g.length < k → cmpLoop .signed k f g = _
  induction f with
  | nil =>
    intro g k hk
    obtain ⟨k, rfl⟩ : ∃ j, k = j + 1 := ⟨k - 1, by rcases hk with h | h <;> omega⟩
    cases g with
    | nil => rfl
    | cons y g =>
      by_cases hy : y = 0xFF
      · subst hy
        rw [seenFile_ff, cmpLoop_end _ _ _ _ rfl rfl]
        rfl
      · rw [cmpLoop_ne .signed _ [] (y :: g) fun e : -1 = y.toInt => hy ((toInt_ff y).1 e.symm), seenFile_cons y g hy]
        rfl
  | cons x f ih =>
    intro g k hk
    obtain ⟨k, rfl⟩ : ∃ j, k = j + 1 := ⟨k - 1, by rcases hk with h | h <;> omega⟩
    cases g with
    | nil =>
      by_cases hx : x = 0xFF
      · subst hx
        rw [seenFile_ff, cmpLoop_end _ _ _ _ rfl rfl]
        rfl
      · rw [cmpLoop_ne .signed _ (x :: f) [] fun e : x.toInt = -1 => hx ((toInt_ff x).1 e), seenFile_cons x f hx]
        rfl
    | cons y g =>
      simp only [List.length_cons] at hk
      by_cases h : x = y
      · subst h
        by_cases hx : x = 0xFF
        · subst hx
          rw [seenFile_ff, seenFile_ff, cmpLoop_end _ _ _ _ rfl rfl]
          rfl
        · rw [cmpLoop_go .signed _ (x :: f) (x :: g) rfl fun e : x.toInt = -1 => hx ((toInt_ff x).1 e), List.tail_cons, List.tail_cons, ih g k (by omega), seenFile_cons x f hx, seenFile_cons x g hx]
          simp
      · rw [cmpLoop_ne .signed _ (x :: f) (y :: g) fun e : x.toInt = y.toInt => h (BitVec.toInt_inj.1 e), decide_eq_false]
        by_cases hx : x = 0xFF
        · have hy : y ≠ 0xFF := fun e => h (hx.trans e.symm)
          rw [hx, seenFile_ff, seenFile_cons y g hy]
          exact fun e => by cases e
        · rw [seenFile_cons x f hx]
          by_cases hy : y = 0xFF
          · rw [hy, seenFile_ff]
            exact fun e => by cases e
          · rw [seenFile_cons y g hy]
            exact fun e => h (List.cons.inj e).1

/-- A file cut off before a byte 0xFF counts as equal to the whole, and so does one that goes on differently after it. -/
example : testCmpFiles .signed 3 (some [1, 0xFF, 2, 3]) (some [1]) = some true := by
  rw [C122_cmp_files_signed _ _ _ (.inr (by decide))]; decide

theorem getD_tail (f : List Byte) (i : Nat) : f.tail.getD i 0xFF = f.getD (i + 1) 0xFF := by
  cases f <;> simp

theorem fgetc_unsigned (f : List Byte) : fgetcChar .unsigned f = ((f.getD 0 0xFF).toNat : Int) := by
  cases f <;> rfl

/-- C122: with an unsigned `char`, as on ARM, the end of the file is never recognised: `TEST_cmp_files` reports a difference if the files,
continued with bytes 0xFF, differ, and otherwise (equal files, for instance) runs for ever. -/
theorem C122_cmp_files_unsigned (f g : List Byte) :
    (∀ i, f.getD i 0xFF ≠ g.getD i 0xFF → ∀ k, i < k → testCmpFiles .unsigned k (some f) (some g) = some false) ∧
    ((∀ i, f.getD i 0xFF = g.getD i 0xFF) → ∀ k, testCmpFiles .unsigned k (some f) (some g) = none) ∧
    (∀ k, testCmpFiles .unsigned k (some f) (some g) ≠ some true) := by
  have hne : ∀ f : List Byte, fgetcChar .unsigned f ≠ -1 := by
    intro f
    rw [fgetc_unsigned]
    omega
  refine ⟨fun i => ?_, fun h k => ?_, fun k => ?_⟩
  · show _ → ∀ k, i < k → cmpLoop .unsigned k f g = some false
    induction i generalizing f g with
    | zero =>
      intro h k hk
      obtain ⟨k, rfl⟩ : ∃ j, k = j + 1 := ⟨k - 1, by omega⟩
      unfold cmpLoop
      rw [if_pos]
      rw [fgetc_unsigned, fgetc_unsigned]
      intro e
      exact h (BitVec.eq_of_toNat_eq (by omega))
    | succ i ih =>
      intro h k hk
      obtain ⟨k, rfl⟩ : ∃ j, k = j + 1 := ⟨k - 1, by omega⟩
      unfold cmpLoop
      split
      · rfl
      · rw [if_pos (.inl (hne f)), ih f.tail g.tail (by rw [getD_tail, getD_tail]; exact h) k (by omega)]
  · show cmpLoop .unsigned k f g = none
    induction k generalizing f g with
    | zero => rfl
    | succ k ih =>
      unfold cmpLoop
      rw [if_neg (by rw [fgetc_unsigned, fgetc_unsigned, h 0]; simp), if_pos (.inl (hne f))]
      exact ih f.tail g.tail fun i => by rw [getD_tail, getD_tail]; exact h (i + 1)
  · show cmpLoop .unsigned k f g ≠ some true
    induction k generalizing f g with
    | zero => exact fun h => by cases h
    | succ k ih =>
      unfold cmpLoop
      split
      · exact fun h => by cases h
      · rw [if_pos (.inl (hne f))]
        exact ih f.tail g.tail

example : testCmpFiles .unsigned 1000000 (some [0x61]) (some [0x61]) = none :=
  (C122_cmp_files_unsigned _ _).2.1 (fun _ => rfl) _

/-- C122: the file tests with ordinary GCM pass on a machine with signed `char` whatever the block function is: they would pass with any
cipher whatsoever.  With an unsigned `char` they never end.  Without the input file they are undefined. -/
theorem C122_file_test (E : Block → Block) (iv aad : List Byte) (junk : Vector Byte 4) (fs : FS)
    (hiv : iv.length < 2 ^ 29) (ha : aad.length < 2 ^ 61) :
    (∀ d, fs tvFin = some d → d.length < 2 ^ 31 →
      (∀ k, d.length < k → testGcmfile .signed k E iv aad junk fs = some (some true)) ∧
      (∀ k, testGcmfile .unsigned k E iv aad junk fs = some none)) ∧
    (fs tvFin = none → ∀ s k, testGcmfile s k E iv aad junk fs = none) := by
  constructor
  · intro d hd hl
    obtain ⟨r, fs', e1, -, rfl, -, -, -, hoth, r2, e2, -, e3, hoth2⟩ := C24_file_roundtrip E iv aad junk fs tvFin tvFenc tvFdec d
      hiv ha (by decide) (by decide) (by decide) hd hl
    have run : ∀ s k, testGcmfile s k E iv aad junk fs = some (testCmpFiles s k (some d) (some d)) := by
      intro s k
      unfold testGcmfile
      rw [e1, Option.bind_some]
      simp only
      rw [e2, Option.bind_some, e3, hoth2 tvFin (by decide), hoth tvFin (by decide) (by decide), hd]
    refine ⟨fun k hk => ?_, fun k => ?_⟩
    · rw [run, C122_cmp_files_signed d d k (.inl hk)]
      simp
    · rw [run, (C122_cmp_files_unsigned d d).2.1 (fun _ => rfl)]
  · intro h s k
    unfold testGcmfile
    rw [((C63_missing_or_short_input _ junk fs tvFin tvFenc).1 h).1]
    rfl

/-- The file of the repository has six bytes. -/
example (E : Block → Block) (fs : FS) (h : fs tvFin = some [0x31, 0x32, 0x33, 0x34, 0x35, 0x36]) :
    testGcmfile .signed 7 E tvAes.toList tvAes.toList (Vector.replicate 4 0) fs = some (some true) :=
  ((C122_file_test E _ _ _ fs (by decide) (by decide)).1 _ h (by decide)).1 7 (by decide)

/-! ### FPE -/

/-- C122: fpe_test.c has a tweak of six bytes and goes on to FF3, which reads eight: undefined for every block function and radix, as is
`test_ff3_gmac` for every tweak of fewer than 16 bytes and every number. -/
theorem C122_fpe_test (E : Block → Block) (lg : Nat → Nat → Nat) (hlg : LgOk lg) :
    (∀ radix, 10 ≤ radix → radix ≤ 36 → testFpe E lg radix = none ∧
      ∃ cipher plain, docFf1 E lg tvTweak radix tvPhone 20 = some (cipher, plain) ∧ cstr plain = some tvPhone) ∧
    (∀ tweak radix input found found', tweak.length < 16 → testGmac E lg tweak radix input found found' = none) := by
  refine ⟨fun radix h10 h36 => ?_, fun tweak radix input found found' ht => ?_⟩
  · have hnum : ∀ c ∈ tvPhone, IsNumeral radix c := by
      intro c hc
      have : IsNumeral 10 c := by
        revert c
        decide
      unfold IsNumeral at this ⊢
      omega
    have h := C121_fpe E lg hlg tvTweak radix tvPhone 20 (by omega) h36 (by decide) hnum
    refine ⟨?_, ?_⟩
    · by_contra hc
      exact absurd (h.2.2.1.1 hc).2 (by decide)
    · obtain ⟨c1, l1, n1, e1, d1⟩ := engine_fwd ⟨E, .ff1⟩ lg hlg radix (by omega) h36 E tvTweak tvPhone (show _ ∧ _ by decide) hnum
      simp only [encFn, decFn] at e1 d1
      refine ⟨c1 ++ 0 :: (zeroBuf 20).drop (tvPhone.length + 1), tvPhone ++ 0 :: (zeroBuf 20).drop (tvPhone.length + 1), ?_,
        cstr_append _ _ (by decide)⟩
      unfold docFf1 fpeInit
      rw [if_neg (by omega), Option.bind_some, e1 [] _ (by decide), Option.bind_some, d1 _ _ (by decide), Option.bind_some]
  · unfold testGmac macInit
    split
    · rfl
    · cases hf : fpeInit tweak radix E with
      | none => rfl
      | some f =>
        simp only [Option.map_some, Option.bind_some, macCall, MacCall.result]
        rw [(C52_gmac_short_tweak tweak radix E f hf ht lg _ _).1]
        rfl

/-- C122: `test_ff1_cmac` prints the 16 bytes of each tag as a string: it is undefined unless both contain a zero byte, and then
passes exactly if they agree up to the first one.  The two tags are the same function of what is on the stack in the array `cn_1`; when tweak and
number are short, as in the test, and the block function is injective, they differ for some contents. -/
theorem C122_cmac_test (E : Block → Block) (lg : Nat → Nat → Nat) (hlg : LgOk lg) (tweak : List Byte) (radix : Nat)
    (input : List Byte) (h2 : 2 ≤ radix) (h36 : radix ≤ 36) (hs : ∀ c ∈ input, IsNumeral radix c) (hn : 2 ≤ input.length)
    (hn' : input.length < 20) (hT : QOk lg tweak radix input.length) :
    ∃ tagOf : (Nat → Block) → Block,
      (∀ found found' junk junk' tag tag', testCmac E lg tweak radix input found found' junk junk' tag tag' =
        if 0 ∈ (tagOf junk).toList ∧ 0 ∈ (tagOf junk').toList then
          some (decide (seen 16 (tagOf junk).toList = seen 16 (tagOf junk').toList)) else none) ∧
      (Function.Injective E → tweak.length + 1 + (lg radix (input.length - input.length / 2) + 7) / 8 ≤ 16 →
        ∃ junk junk', tagOf junk ≠ tagOf junk') := by
  have hi : fpeInit tweak radix E = some ⟨E, radix, tweak⟩ := by
    unfold fpeInit
    rw [if_neg (by omega)]
  obtain ⟨ct, tagOf, -, e1, d1, -⟩ := C51_cmac_roundtrip _ tweak radix E hi lg hlg input [] ((zeroBuf 20).drop (input.length + 1))
    (zeroBuf 20) (zeroBuf 20) hs hn hT (by rw [length_zeroBuf]; exact hn') (by rw [length_zeroBuf]; exact hn')
  have hz : ∀ l : List Byte, ∀ x, ∃ y, cstr (l ++ 0 :: x) = some y := by
    intro l x
    unfold cstr
    rw [if_pos (by simp)]
    exact ⟨_, rfl⟩
  have hmi : ∀ found, macInit found tweak radix E = some ⟨⟨E, radix, tweak⟩, found⟩ := by
    intro found
    unfold macInit
    rw [if_neg (by omega), hi]
    rfl
  have hfin : ∀ (c : MacCtx) (b : Block), cmacFinish c b.toList 0 = some (c.tag.toList, 16) := by
    intro c b
    unfold cmacFinish
    rw [if_pos (by simp), List.drop_of_length_le (by simp), List.append_nil]
  refine ⟨tagOf, fun found found' junk junk' tag tag' => ?_, fun hinj h16 => ?_⟩
  · obtain ⟨y1, z1⟩ := hz ct ((zeroBuf 20).drop (input.length + 1))
    obtain ⟨y2, z2⟩ := hz input ((zeroBuf 20).drop (input.length + 1))
    unfold testCmac
    simp only [hmi, Option.bind_some, macCall, MacCall.result, e1, d1, Option.map_some, z1, z2, hfin]
    by_cases c1 : 0 ∈ (tagOf junk).toList
    · by_cases c2 : 0 ∈ (tagOf junk').toList
      · rw [if_pos ⟨c1, c2⟩]
        unfold cstr
        rw [if_pos c1, if_pos c2, Option.bind_some, Option.bind_some, C122_cmp_values 16 _ _ (by simp) (by simp), mpiChk_some]
        split <;> simp_all
      · rw [if_neg fun h => c2 h.2]
        unfold cstr
        rw [if_pos c1, if_neg c2]
        rfl
    · rw [if_neg fun h => c1 h.1]
      unfold cstr
      rw [if_neg c1]
      rfl
  · have hb : (zeroBlock : Block).toList.getD 0 0 ≠ ((Vector.replicate 16 1 : Block)).toList.getD 0 0 := by decide
    obtain ⟨o, t, t', a1, a2, a3⟩ := C51_cmac_uninitialised _ tweak radix E hinj hi lg hlg input [] (zeroBuf 20) hs hn hT
      (by rw [length_zeroBuf]; exact hn') h16 (fun _ => zeroBlock) (fun k => if k = 0 then Vector.replicate 16 1 else zeroBlock) 0
      (by decide) (fun k hk => by rw [if_neg hk]) (by rw [if_pos rfl]; exact hb)
    refine ⟨fun _ => zeroBlock, fun k => if k = 0 then Vector.replicate 16 1 else zeroBlock, fun e => a3 ?_⟩
    have b1 := e1 (fun _ => zeroBlock)
    have b2 := e1 (fun k => if k = 0 then Vector.replicate 16 1 else zeroBlock)
    rw [a1] at b1
    rw [a2] at b2
    rw [(Prod.mk.inj (Option.some.inj b1)).2, (Prod.mk.inj (Option.some.inj b2)).2, e]

/-- The test's own tweak and number. -/
example (E : Block → Block) := C122_cmac_test E _ lgOk_clog tvTweak 10 tvPhone (by decide) (by decide) (by decide) (by decide)
  (by decide) (.inl (by decide))

end Verif.Props
