import Verif.Model.AesWrap
import Verif.Lemmas.AesEval
import Verif.Props.Cbc

/-!
# C61: the AES wrapper

`WBCRYPTO_aes_decrypt` runs the library's inverse cipher on the schedule for encryption.
-/
set_option autoImplicit false

namespace Verif.Props
open Verif Spec Model

theorem invSbox_sbox (x : Byte) : aesInvSbox (aesSbox x) = x := by
  have : ∀ x : BitVec 8, aesInvSbox (aesSbox x) = x := by decide +kernel
  exact this x

theorem inv_sub_shift (s : Block) : invShiftRows (invSubBytes (aesShiftRows (subBytes s))) = s := by
  apply Vector.ext
  intro m hm
  simp only [invShiftRows, invSubBytes, aesShiftRows, subBytes, Vector.getElem_ofFn, Fin.getElem_fin, invSbox_sbox]
  congr 1
  omega

theorem ite_xor (p q : Bool) (t : Byte) :
    (if (p ^^ q) = true then t else 0) = (if p = true then t else 0) ^^^ (if q = true then t else 0) := by
  cases p <;> cases q <;> simp

theorem aesMul_terms (a b : Byte) : aesMul a b =
    (if b.getLsbD 0 then xtimes 0 a else 0) ^^^ (if b.getLsbD 1 then xtimes 1 a else 0) ^^^
    (if b.getLsbD 2 then xtimes 2 a else 0) ^^^ (if b.getLsbD 3 then xtimes 3 a else 0) ^^^
    (if b.getLsbD 4 then xtimes 4 a else 0) ^^^ (if b.getLsbD 5 then xtimes 5 a else 0) ^^^
    (if b.getLsbD 6 then xtimes 6 a else 0) ^^^ (if b.getLsbD 7 then xtimes 7 a else 0) := by
  have h : ∀ (p : Bool) (t u : Byte), (if p then u ^^^ t else u) = u ^^^ (if p then t else 0) := by
    intro p t u; cases p <;> simp
  simp only [aesMul, show List.range 8 = [0, 1, 2, 3, 4, 5, 6, 7] from rfl, List.foldl_cons, List.foldl_nil, h]
  rw [show ∀ x : Byte, 0 ^^^ x = x from fun x => BitVec.zero_xor]

theorem xor_swap8 (a0 a1 a2 a3 a4 a5 a6 a7 b0 b1 b2 b3 b4 b5 b6 b7 : Byte) :
    (a0 ^^^ b0) ^^^ (a1 ^^^ b1) ^^^ (a2 ^^^ b2) ^^^ (a3 ^^^ b3) ^^^ (a4 ^^^ b4) ^^^ (a5 ^^^ b5) ^^^ (a6 ^^^ b6) ^^^ (a7 ^^^ b7) =
    (a0 ^^^ a1 ^^^ a2 ^^^ a3 ^^^ a4 ^^^ a5 ^^^ a6 ^^^ a7) ^^^ (b0 ^^^ b1 ^^^ b2 ^^^ b3 ^^^ b4 ^^^ b5 ^^^ b6 ^^^ b7) := by
  ac_rfl

theorem aesMul_xor (a b c : Byte) : aesMul a (b ^^^ c) = aesMul a b ^^^ aesMul a c := by
  rw [aesMul_terms, aesMul_terms a b, aesMul_terms a c]
  simp only [BitVec.getLsbD_xor, ite_xor]
  exact xor_swap8 _ _ _ _ _ _ _ _ _ _ _ _ _ _ _ _

theorem invMix_xor (s t : Block) : invMixColumns (s ^^^ t) = invMixColumns s ^^^ invMixColumns t := by
  apply Vector.ext
  intro m hm
  rw [Vec.getElem_xor]
  simp only [invMixColumns, Vector.getElem_ofFn, Vec.getElem_xor, aesMul_xor]
  ac_rfl

theorem mix_consts : ∀ x : BitVec 8,
    (aesMul 0x0e (aesMul 2 x) ^^^ aesMul 0x0b x ^^^ aesMul 0x0d x ^^^ aesMul 9 (aesMul 3 x) = x) ∧
    (aesMul 0x0e (aesMul 3 x) ^^^ aesMul 0x0b (aesMul 2 x) ^^^ aesMul 0x0d x ^^^ aesMul 9 x = 0) ∧
    (aesMul 0x0e x ^^^ aesMul 0x0b (aesMul 3 x) ^^^ aesMul 0x0d (aesMul 2 x) ^^^ aesMul 9 x = 0) ∧
    (aesMul 0x0e x ^^^ aesMul 0x0b x ^^^ aesMul 0x0d (aesMul 3 x) ^^^ aesMul 9 (aesMul 2 x) = 0) := by
  decide +kernel

theorem mix_column (a b c d : Byte) :
    aesMul 0x0e (aesMul 2 a ^^^ aesMul 3 b ^^^ c ^^^ d) ^^^ aesMul 0x0b (aesMul 2 b ^^^ aesMul 3 c ^^^ d ^^^ a) ^^^
      aesMul 0x0d (aesMul 2 c ^^^ aesMul 3 d ^^^ a ^^^ b) ^^^ aesMul 9 (aesMul 2 d ^^^ aesMul 3 a ^^^ b ^^^ c) = a := by
  simp only [aesMul_xor]
  have h : ∀ p q r s : Byte, p = a → q = 0 → r = 0 → s = 0 → p ^^^ q ^^^ r ^^^ s = a := by
    intro p q r s h1 h2 h3 h4; rw [h1, h2, h3, h4]; simp
  have := h _ _ _ _ (mix_consts a).1 (mix_consts b).2.1 (mix_consts c).2.2.1 (mix_consts d).2.2.2
  refine Eq.trans ?_ this
  ac_rfl

theorem invMix_mix (s : Block) : invMixColumns (mixColumns s) = s := by
  apply Vector.ext
  intro m hm
  have key : ∀ c r : Nat, c < 4 → r < 4 → ∀ h : 4 * c + r < 16,
      (invMixColumns (mixColumns s))[4 * c + r] = s[4 * c + r] := by
    intro c r hc hr h
    have d0 : (4 * c + r) / 4 = c := by omega
    have m0 : (4 * c + r) % 4 = r := by omega
    have d1 : ∀ k, (4 * c + (r + k) % 4) / 4 = c := by intro k; omega
    have m1 : ∀ k, (4 * c + (r + k) % 4) % 4 = (r + k) % 4 := by intro k; omega
    have m2 : ∀ k l, ((r + k) % 4 + l) % 4 = (r + (k + l)) % 4 := by intro k l; omega
    have m4 : (r + 4) % 4 = r := by omega
    have m5 : (r + 5) % 4 = (r + 1) % 4 := by omega
    have m6 : (r + 6) % 4 = (r + 2) % 4 := by omega
    simp only [invMixColumns, mixColumns, Vector.getElem_ofFn, d0, m0, d1, m1, m2, Nat.reduceAdd, m4, m5, m6]
    exact mix_column _ _ _ _
  have := key (m / 4) (m % 4) (by omega) (by omega) (by omega)
  simpa only [Nat.div_add_mod] using this

theorem libRounds_eq (key x : Block) (n : Nat) : libRounds (aesSetEncryptKey key) x n = aesRounds key x n := by
  induction n with
  | zero => rfl
  | succ n ih => rw [libRounds, ih, aesRounds]; rfl

theorem libEncrypt_eq (key x : Block) : libEncrypt (aesSetEncryptKey key) x = aes128 key x := by
  rw [libEncrypt, libRounds_eq, aes128]; rfl

theorem rdBlk_take (key : List Byte) (h : 16 ≤ key.length) : ∃ k : Block, rdBlk key 0 = some k ∧ k.toList = key.take 16 := by
  refine ⟨_, dif_pos (by omega), ?_⟩
  apply List.ext_getElem
  · simp; omega
  · intro i h1 h2; simp

/-- C61: the wrapper's encryption is AES-128 under the first 16 key bytes, whatever `keylen` says. -/
theorem C61_aes_encrypt (key : List Byte) (keylen : Nat) (h : 16 ≤ key.length) :
    ∃ (k : Block) (ctx : AesSched), k.toList = key.take 16 ∧ aesInitKey key keylen = some ctx ∧
      ∀ x, Model.aesEncrypt ctx x = aes128 k x := by
  obtain ⟨k, hk, ht⟩ := rdBlk_take key h
  refine ⟨k, aesSetEncryptKey k, ht, ?_, fun x => libEncrypt_eq k x⟩
  rw [aesInitKey, if_neg (by omega), hk]
  rfl

/-- C61, defect: a key object shorter than 16 bytes is read past its end, also when `keylen` gives its true length. -/
theorem C61_aes_short_key (key : List Byte) (keylen : Nat) (h : key.length < 16) : aesInitKey key keylen = none := by
  unfold aesInitKey rdBlk
  split
  · rfl
  · rw [dif_neg (by omega)]; rfl

/-- C61: with the schedule for decryption, which the wrapper never builds, the library call would be the inverse. -/
theorem C61_decrypt_schedule (key x : Block) : libDecrypt (aesSetDecryptKey key) (aes128 key x) = x := by
  have inv : ∀ n, n ≤ 9 → libInvRounds (aesSetDecryptKey key) (aes128 key x) n =
      aesShiftRows (subBytes (aesRounds key x (9 - n))) := by
    intro n
    induction n with
    | zero =>
      intro _
      rw [libInvRounds, aes128, aesSetDecryptKey, if_pos rfl, Vec.xor_assoc, Vec.xor_self, Vec.xor_zero]
    | succ n ih =>
      intro h
      rw [libInvRounds, ih (by omega), inv_sub_shift, show 9 - n = (9 - (n + 1)) + 1 by omega, aesRounds, invMix_xor,
        invMix_mix, aesSetDecryptKey, if_neg (by omega), if_neg (by omega),
        show 10 - (n + 1) = 9 - (n + 1) + 1 by omega, Vec.xor_assoc, Vec.xor_self, Vec.xor_zero]
  rw [libDecrypt, inv 9 (by omega), inv_sub_shift, aesRounds, aesSetDecryptKey, if_neg (by decide), if_pos rfl,
    Vec.xor_assoc, Vec.xor_self, Vec.xor_zero]

/-- The library's inverse cipher on the round keys from `keyStep`, in a form the kernel evaluates. -/
def evalInvRounds (key x : Block) : Nat → Block × Block
  | 0 => (x ^^^ key, key)
  | n + 1 =>
    let s := evalInvRounds key x n
    let k := keyStep s.2 n
    (invMixColumns (invShiftRows (invSubBytes s.1)) ^^^ k, k)

theorem evalInvRounds_eq (key x : Block) (n : Nat) :
    evalInvRounds key x n = (libInvRounds (aesSetEncryptKey key) x n, roundKey key n) := by
  induction n with
  | zero => rw [evalInvRounds, libInvRounds, aesSetEncryptKey, roundKey_zero]
  | succ n ih => rw [evalInvRounds, ih, libInvRounds]; simp only [keyStep_eq]; rfl

def evalInv (key x : Block) : Block :=
  let s := evalInvRounds key x 9
  invShiftRows (invSubBytes s.1) ^^^ keyStep s.2 9

theorem evalInv_eq (key x : Block) : evalInv key x = libDecrypt (aesSetEncryptKey key) x := by
  rw [evalInv, evalInvRounds_eq, libDecrypt]
  simp only [keyStep_eq]
  rfl

theorem wrong_witness : evalInv zeroBlock (aesEval zeroBlock zeroBlock) ≠ zeroBlock := by decide +kernel

/-- C61, defect: the wrapper's decryption does not invert its encryption. -/
theorem C61_decrypt_not_inverse : ∃ (key : List Byte) (ctx : AesSched) (x : Block), key.length = 16 ∧
    aesInitKey key 16 = some ctx ∧ aesDecrypt ctx (Model.aesEncrypt ctx x) ≠ x := by
  refine ⟨zeroBlock.toList, aesSetEncryptKey zeroBlock, zeroBlock, by simp, ?_, ?_⟩
  · have := rdBlk_append [] zeroBlock []
    simp only [List.nil_append, List.length_nil, List.append_nil] at this
    rw [aesInitKey, if_neg (by simp), this]
    rfl
  · rw [aesDecrypt, Model.aesEncrypt, libEncrypt_eq, ← aesEval_eq, ← evalInv_eq]
    exact wrong_witness

theorem separateLength_defined (m : List Byte) (h : m ≠ []) : ∃ n, separateLength m = some n := by
  unfold separateLength
  rw [dif_pos h]
  exact ⟨_, rfl⟩

/-- C61, consequence for CBC: whenever the wrapper fails on one block `x`, then for every IV the one-block message
`x xor iv` is encrypted and decrypted with success reported by both calls, and the output is not the message. -/
theorem C61_cbc (ctx : AesSched) (x iv : Block) (h : aesDecrypt ctx (Model.aesEncrypt ctx x) ≠ x) :
    ∃ r r', cbcEncrypt (Model.aesEncrypt ctx) false (x ^^^ iv).toList (List.replicate 16 0) 16 iv = some r ∧ r.ret = 1 ∧
      cbcDecryptWrapper (aesDecrypt ctx) r.out 16 (List.replicate 16 0) 16 iv = some r' ∧ r'.ret = 1 ∧
      r'.out.length = 16 ∧ r'.out ≠ (x ^^^ iv).toList := by
  have hp : Spec.pkcs7 (x ^^^ iv).toList = (x ^^^ iv).toList := by simp [Spec.pkcs7, Spec.padCount]
  have e1 := C03_cbc_encrypt (Model.aesEncrypt ctx) (x ^^^ iv).toList (List.replicate 16 0) 16 iv [x ^^^ iv]
    (by rw [hp]; simp [fromBlocks]) (by simp) (by rw [hp]; simp) (by simp)
  have e2 := cbcDecrypt_exact (aesDecrypt ctx) [Model.aesEncrypt ctx x] iv (by simp)
  have hx : (x ^^^ iv) ^^^ iv = x := by rw [Vec.xor_assoc, Vec.xor_self, Vec.xor_zero]
  simp only [Spec.cbcEncrypt, hx, List.length_cons, List.length_nil, Nat.zero_add, Nat.mul_one, List.drop_replicate,
    Nat.sub_self, List.replicate_zero, List.append_nil] at e1
  simp only [Spec.cbcDecrypt, List.length_cons, List.length_nil, Nat.zero_add, Nat.mul_one] at e2
  obtain ⟨n, hn⟩ := separateLength_defined (fromBlocks [aesDecrypt ctx (Model.aesEncrypt ctx x) ^^^ iv])
    (by rw [← List.length_pos_iff]; simp)
  refine ⟨_, { ret := 1, out := fromBlocks [aesDecrypt ctx (Model.aesEncrypt ctx x) ^^^ iv], useOlen := some n,
               ivec := [Model.aesEncrypt ctx x].getLastD iv }, e1, rfl, ?_, rfl, ?_, ?_⟩
  · rw [cbcDecryptWrapper, e2]
    simp only [Option.bind_eq_bind, Option.bind_some]
    rw [if_neg (by decide), List.take_of_length_le (by simp), hn, if_neg (by simp)]
    rfl
  · simp
  · intro e
    simp only [fromBlocks, List.flatMap_cons, List.flatMap_nil, List.append_nil] at e
    have e := Vector.toList_inj.1 e
    apply h
    have := congrArg (fun b : Block => b ^^^ iv) e
    simpa only [hx, Vec.xor_assoc, Vec.xor_self, Vec.xor_zero] using this

end Verif.Props
