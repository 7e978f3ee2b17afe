import Verif.Spec.Cbc
import Verif.Spec.Padding
import Verif.Model.Cbc
import Verif.Props.Padding

/-! Properties C03-C08: CBC mode. -/
set_option autoImplicit false

namespace Verif.Props
open Verif Verif.Model

/-! ### Loop lemmas -/

theorem length_specCbcEncrypt (E : Block → Block) (iv : Block) (ps : List Block) :
    (Spec.cbcEncrypt E iv ps).length = ps.length := by
  induction ps generalizing iv with
  | nil => rfl
  | cons p ps ih => simp [Spec.cbcEncrypt, ih]

theorem length_specCbcDecrypt (D : Block → Block) (iv : Block) (cs : List Block) :
    (Spec.cbcDecrypt D iv cs).length = cs.length := by
  induction cs generalizing iv with
  | nil => rfl
  | cons p ps ih => simp [Spec.cbcDecrypt, ih]

/-- Split off the first 16 bytes of a list that is long enough. -/
theorem split16 {mid : List Byte} {n : Nat} (h : mid.length = 16 * (n + 1)) :
    ∃ a b, mid = a ++ b ∧ a.length = 16 ∧ b.length = 16 * n :=
  ⟨mid.take 16, mid.drop 16, (List.take_append_drop 16 mid).symm, by simp; omega, by simp; omega⟩

theorem cbcEncLoop_eq (E : Block → Block) (ps : List Block) :
    ∀ (preA preO mid post : List Byte) (iv : Block), preO.length = preA.length →
      mid.length = 16 * ps.length →
      cbcEncLoop E (preA ++ fromBlocks ps) ps.length preA.length iv (preO ++ (mid ++ post)) =
        some (preO ++ (fromBlocks (Spec.cbcEncrypt E iv ps) ++ post)) := by
  induction ps with
  | nil =>
    intro preA preO mid post iv _ hm
    have : mid = [] := List.length_eq_zero_iff.mp (by simpa using hm)
    simp [cbcEncLoop, Spec.cbcEncrypt, this]
  | cons p ps ih =>
    intro preA preO mid post iv hl hm
    obtain ⟨a, b, rfl, ha, hb⟩ := split16 (n := ps.length) (by simpa using hm)
    simp only [List.length_cons, cbcEncLoop, fromBlocks_cons, rdBlk_append, Option.bind_eq_bind,
      Option.bind_some, Spec.cbcEncrypt]
    rw [← hl, List.append_assoc, wrBlk_append _ _ _ _ ha, Option.bind_some]
    have := ih (preA ++ p.toList) (preO ++ (E (p ^^^ iv)).toList) b post (E (p ^^^ iv))
      (by simp [hl]) hb
    simp only [List.append_assoc, List.length_append, Vector.length_toList] at this
    rw [hl, this]
    simp

theorem cbcDecLoop_eq (D : Block → Block) (cs : List Block) :
    ∀ (preI postI preO mid post : List Byte) (iv : Block), preO.length = preI.length →
      mid.length = 16 * cs.length →
      cbcDecLoop D (preI ++ (fromBlocks cs ++ postI)) cs.length preI.length iv (preO ++ (mid ++ post)) =
        some (cs.getLastD iv, preO ++ (fromBlocks (Spec.cbcDecrypt D iv cs) ++ post)) := by
  induction cs with
  | nil =>
    intro preI postI preO mid post iv _ hm
    have : mid = [] := List.length_eq_zero_iff.mp (by simpa using hm)
    simp [cbcDecLoop, Spec.cbcDecrypt, this]
  | cons c cs ih =>
    intro preI postI preO mid post iv hl hm
    obtain ⟨a, b, rfl, ha, hb⟩ := split16 (n := cs.length) (by simpa using hm)
    simp only [List.length_cons, cbcDecLoop, fromBlocks_cons, List.append_assoc, rdBlk_append,
      Option.bind_eq_bind, Option.bind_some, Spec.cbcDecrypt]
    rw [← hl, wrBlk_append _ _ _ _ ha, Option.bind_some]
    have := ih (preI ++ c.toList) postI (preO ++ (D c ^^^ iv).toList) b post c (by simp [hl]) hb
    simp only [List.append_assoc, List.length_append, Vector.length_toList] at this
    rw [hl, this]
    simp only [List.getLastD_cons]

theorem cbcDecLoopInPlace_eq (D : Block → Block) (cs : List Block) :
    ∀ (pre post : List Byte) (iv : Block),
      cbcDecLoopInPlace D cs.length pre.length iv (pre ++ (fromBlocks cs ++ post)) =
        some (cs.getLastD iv, pre ++ (fromBlocks (Spec.cbcDecrypt D iv cs) ++ post)) := by
  induction cs with
  | nil => intro pre post iv; simp [cbcDecLoopInPlace, Spec.cbcDecrypt]
  | cons c cs ih =>
    intro pre post iv
    simp only [List.length_cons, cbcDecLoopInPlace, fromBlocks_cons, List.append_assoc, rdBlk_append,
      Option.bind_eq_bind, Option.bind_some, Spec.cbcDecrypt]
    rw [wrBlk_append _ _ _ _ (by simp), Option.bind_some]
    have := ih (pre ++ (D c ^^^ iv).toList) post c
    simp only [List.append_assoc, List.length_append, Vector.length_toList] at this
    rw [this]
    simp only [List.getLastD_cons]

/-! ### C03 -/

theorem length_pkcs7 (m : List Byte) : (Spec.pkcs7 m).length % 16 = 0 := by
  simp only [Spec.pkcs7, Spec.padCount, List.length_append, List.length_replicate]; omega

/-- C03: CBC encryption produces the CBC chain of the padded message `ps`, reports its length,
leaves the rest of the output buffer and the IV alone. -/
theorem C03_cbc_encrypt (E : Block → Block) (m out : List Byte) (maxOlen : Nat) (iv : Block)
    (ps : List Block) (hps : fromBlocks ps = Spec.pkcs7 m) (hm : m.length < 2 ^ 31 - 16)
    (hcap : (Spec.pkcs7 m).length ≤ maxOlen) (hout : maxOlen ≤ out.length) :
    cbcEncrypt E false m out maxOlen iv = some
      { ret := 1,
        out := fromBlocks (Spec.cbcEncrypt E iv ps) ++ out.drop (16 * ps.length),
        useOlen := some (BitVec.ofNat 64 (16 * ps.length)),
        ivec := iv } := by
  have hlen : (Spec.pkcs7 m).length = 16 * ps.length := by rw [← hps]; simp
  unfold cbcEncrypt
  rw [pkcs7Merge_eq_spec m hm]
  simp only [Option.bind_eq_bind, Option.bind_some, hlen, Bool.false_and]
  rw [if_neg (by omega)]
  have h1 := cbcEncLoop_eq E ps [] [] (out.take (16 * ps.length)) (out.drop (16 * ps.length)) iv rfl
    (by simp; omega)
  simp only [List.nil_append, List.length_nil, List.take_append_drop, hps] at h1
  rw [Nat.mul_div_cancel_left _ (by omega), h1]
  simp

/-- Concrete case: a 20-byte message has two padded blocks and all hypotheses hold. -/
example : ∃ ps : List Block, fromBlocks ps = Spec.pkcs7 (List.replicate 20 7) ∧ ps.length = 2 := by
  obtain ⟨ps, h⟩ := exists_blocks (Spec.pkcs7 (List.replicate 20 7)) (by decide)
  refine ⟨ps, h, ?_⟩
  have := congrArg List.length h
  rw [length_fromBlocks] at this
  have h2 : (Spec.pkcs7 (List.replicate 20 7)).length = 32 := by decide
  omega

/-- C03 (allocator): if the internal `realloc` moves the block, encrypting a non-empty message is undefined. -/
theorem C03_realloc_move_undefined (E : Block → Block) (m out : List Byte) (maxOlen : Nat) (iv : Block)
    (hm : m.length < 2 ^ 31 - 16) (h0 : m ≠ [])
    (hcap : (Spec.pkcs7 m).length ≤ maxOlen) :
    cbcEncrypt E true m out maxOlen iv = none := by
  have h1 : 0 < m.length := List.length_pos_iff.mpr h0
  have h2 : m.length ≤ (Spec.pkcs7 m).length := by simp [Spec.pkcs7]
  unfold cbcEncrypt
  rw [pkcs7Merge_eq_spec m hm]
  simp only [Option.bind_eq_bind, Option.bind_some, Bool.true_and]
  rw [if_neg (by omega), if_pos (by simp; intro h; rw [h] at h2; simp at h2; exact h0 h2)]

/-! ### C04 -/

theorem specCbc_roundtrip (E D : Block → Block) (hDE : ∀ b, D (E b) = b) (ps : List Block) :
    ∀ iv, Spec.cbcDecrypt D iv (Spec.cbcEncrypt E iv ps) = ps := by
  induction ps with
  | nil => intro iv; rfl
  | cons p ps ih =>
    intro iv
    simp only [Spec.cbcEncrypt, Spec.cbcDecrypt, hDE, ih, Vec.xor_cancel_right]

theorem cbcCounts_small {n : Nat} (h : n < 2 ^ 31) : cbcCounts n = (n / 16, n % 16) := by
  unfold cbcCounts
  rw [Nat.mod_eq_of_lt (by omega), if_pos h]

/-- What decryption of a block-aligned ciphertext does, for any two buffers. -/
theorem cbcDecrypt_aligned (D : Block → Block) (cs : List Block) (postI out : List Byte)
    (maxOlen : Nat) (iv : Block) (hlen : 16 * cs.length < 2 ^ 31)
    (hcap : 16 * cs.length ≤ maxOlen) (hout : maxOlen ≤ out.length) :
    cbcDecrypt D (fromBlocks cs ++ postI) (16 * cs.length) out maxOlen iv = some
      { ret := 1, out := fromBlocks (Spec.cbcDecrypt D iv cs) ++ out.drop (16 * cs.length),
        useOlen := none, ivec := cs.getLastD iv } := by
  unfold cbcDecrypt
  rw [if_neg (by omega), cbcCounts_small hlen]
  simp only [Nat.mul_div_cancel_left _ (show 0 < 16 by omega)]
  have h1 := cbcDecLoop_eq D cs [] postI [] (out.take (16 * cs.length)) (out.drop (16 * cs.length)) iv rfl
    (by simp; omega)
  simp only [List.nil_append, List.length_nil, List.take_append_drop] at h1
  simp [h1, cbcDecTail, Nat.mul_mod_right]

theorem cbcDecrypt_exact (D : Block → Block) (cs : List Block) (iv : Block)
    (h : 16 * cs.length < 2 ^ 31) :
    cbcDecrypt D (fromBlocks cs) (16 * cs.length) (List.replicate (16 * cs.length) 0)
      (16 * cs.length) iv = some
        { ret := 1, out := fromBlocks (Spec.cbcDecrypt D iv cs), useOlen := none,
          ivec := cs.getLastD iv } := by
  have := cbcDecrypt_aligned D cs [] (List.replicate (16 * cs.length) 0) (16 * cs.length) iv h
    (Nat.le_refl _) (by simp)
  simpa using this

/-- C04: for a message whose length is not a multiple of 16, decryption of the produced ciphertext
returns success, reports the original length, and the first that many output bytes are the message. -/
theorem C04_cbc_roundtrip (E D : Block → Block) (hDE : ∀ b, D (E b) = b) (m out out' : List Byte)
    (iv : Block) (hm : m.length < 2 ^ 31 - 16) (hu : m.length % 16 ≠ 0)
    (hout : (Spec.pkcs7 m).length ≤ out.length) (hout' : (Spec.pkcs7 m).length ≤ out'.length) :
    ∃ r n r', cbcEncrypt E false m out out.length iv = some r ∧ r.ret = 1 ∧
      r.useOlen = some (BitVec.ofNat 64 n) ∧ n = (Spec.pkcs7 m).length ∧
      cbcDecryptWrapper D r.out n out' out'.length iv = some r' ∧ r'.ret = 1 ∧
      r'.useOlen = some (BitVec.ofNat 64 m.length) ∧ r'.out.take m.length = m := by
  obtain ⟨ps, hps⟩ := exists_blocks _ (length_pkcs7 m)
  have hlen : (Spec.pkcs7 m).length = 16 * ps.length := by rw [← hps]; simp
  have hpl : (Spec.pkcs7 m).length < 2 ^ 31 := by
    simp only [Spec.pkcs7, Spec.padCount, List.length_append, List.length_replicate]; omega
  have henc := C03_cbc_encrypt E m out out.length iv ps hps hm hout (Nat.le_refl _)
  have hcl : (Spec.cbcEncrypt E iv ps).length = ps.length := length_specCbcEncrypt E iv ps
  have hdec := cbcDecrypt_aligned D (Spec.cbcEncrypt E iv ps) (out.drop (16 * ps.length)) out'
    out'.length iv (by omega) (by omega) (Nat.le_refl _)
  rw [hcl, specCbc_roundtrip E D hDE, hps] at hdec
  obtain ⟨p, k, hp, _, _, _, _, _, _, hsep⟩ := C01_pad_roundtrip m hm hu
  rw [pkcs7Merge_eq_spec m hm] at hp
  cases hp
  have hw : cbcDecryptWrapper D (fromBlocks (Spec.cbcEncrypt E iv ps) ++ out.drop (16 * ps.length))
      (16 * ps.length) out' out'.length iv = some
        { ret := 1, out := Spec.pkcs7 m ++ out'.drop (16 * ps.length),
          useOlen := some (BitVec.ofNat 64 m.length),
          ivec := (Spec.cbcEncrypt E iv ps).getLastD iv } := by
    unfold cbcDecryptWrapper
    rw [hdec]
    simp only [Option.bind_eq_bind, Option.bind_some]
    rw [if_neg (by decide)]
    rw [← hlen, List.take_left, hsep, if_neg (by simp)]
    rfl
  refine ⟨_, 16 * ps.length, _, henc, rfl, rfl, hlen.symm, hw, rfl, rfl, ?_⟩
  · show List.take m.length (Spec.pkcs7 m ++ _) = m
    simp [Spec.pkcs7]

/-- The hypotheses are met by a 20-byte message, the identity permutation and 32-byte buffers. -/
example : (∀ b : Block, id (id b) = b) ∧ (List.replicate 20 (7 : Byte)).length % 16 ≠ 0 ∧
    (Spec.pkcs7 (List.replicate 20 (7 : Byte))).length ≤ (List.replicate 32 (0 : Byte)).length := by
  refine ⟨fun _ => rfl, by decide, by decide⟩

/-- C04 (aligned messages): the plaintext blocks come back, but the reported length is what the last
plaintext byte makes of it: equal to the message length exactly when that byte is 0 or above 16. -/
theorem C04_cbc_roundtrip_aligned (E D : Block → Block) (hDE : ∀ b, D (E b) = b)
    (m out out' : List Byte) (iv : Block) (hne : m ≠ []) (hm : m.length < 2 ^ 31 - 16)
    (ha : m.length % 16 = 0) (hout : m.length ≤ out.length) (hout' : m.length ≤ out'.length) :
    ∃ r r', cbcEncrypt E false m out out.length iv = some r ∧ r.ret = 1 ∧
      cbcDecryptWrapper D r.out m.length out' out'.length iv = some r' ∧ r'.ret = 1 ∧
      r'.out.take m.length = m ∧
      (r'.useOlen = some (BitVec.ofNat 64 m.length) ↔
        (m.getLast hne = 0 ∨ 16 < (m.getLast hne).toNat)) := by
  have hpm : Spec.pkcs7 m = m := by simp [Spec.pkcs7, Spec.padCount, ha]
  obtain ⟨ps, hps⟩ := exists_blocks m ha
  have hlen : m.length = 16 * ps.length := by rw [← hps]; simp
  have henc := C03_cbc_encrypt E m out out.length iv ps (by rw [hpm, hps]) hm
    (by rw [hpm]; exact hout) (Nat.le_refl _)
  have hcl : (Spec.cbcEncrypt E iv ps).length = ps.length := length_specCbcEncrypt E iv ps
  have hdec := cbcDecrypt_aligned D (Spec.cbcEncrypt E iv ps) (out.drop (16 * ps.length)) out'
    out'.length iv (by omega) (by omega) (Nat.le_refl _)
  rw [hcl, specCbc_roundtrip E D hDE, hps] at hdec
  obtain ⟨-, hiff, hloss⟩ := C02_aligned_loss m hne hm ha
  have h0 : 0 < m.length := List.length_pos_iff.mpr hne
  have hsome : ∃ n, separateLength m = some n := by
    unfold separateLength; rw [dif_pos hne]; exact ⟨_, rfl⟩
  obtain ⟨n, hn⟩ := hsome
  have hw : cbcDecryptWrapper D (fromBlocks (Spec.cbcEncrypt E iv ps) ++ out.drop (16 * ps.length))
      m.length out' out'.length iv = some
        { ret := 1, out := m ++ out'.drop (16 * ps.length), useOlen := some n,
          ivec := (Spec.cbcEncrypt E iv ps).getLastD iv } := by
    rw [hlen]
    unfold cbcDecryptWrapper
    rw [hdec]
    simp only [Option.bind_eq_bind, Option.bind_some]
    rw [if_neg (by decide), ← hlen, List.take_left, hn, if_neg (by simp)]
    rfl
  refine ⟨_, _, henc, rfl, hw, rfl, ?_, ?_⟩
  · show List.take m.length (m ++ _) = m
    simp
  · show some n = _ ↔ _
    rw [← hn]
    by_cases hb : m.getLast hne = 0 ∨ 16 < (m.getLast hne).toNat
    · simp only [hb, iff_true]
      have hz : stripNum (m.getLast hne) = 0 := by
        unfold stripNum
        rcases hb with hb | hb
        · simp [hb]
        · simp [hb]
      unfold separateLength
      rw [dif_pos hne]
      simp only [hz]
      rw [ofNat32_sub (by omega), signExtend_ofNat (by omega)]
      simp
    · simp only [hb, iff_false]
      have hb1 : 1 ≤ (m.getLast hne).toNat := by
        rcases Nat.eq_zero_or_pos (m.getLast hne).toNat with h | h
        · exact absurd (Or.inl (BitVec.eq_of_toNat_eq (by simpa using h))) hb
        · exact h
      have hb2 : (m.getLast hne).toNat ≤ 16 := by
        rcases Nat.lt_or_ge 16 (m.getLast hne).toNat with h | h
        · exact absurd (Or.inr h) hb
        · exact h
      rw [(hloss hb1 hb2).2]
      intro hc
      have hc := congrArg BitVec.toNat (Option.some.inj hc)
      simp only [BitVec.toNat_ofNat] at hc
      omega

/-! ### C05 -/

/-- C05: decrypting in place gives the same return value, bytes and IV as decrypting the same
ciphertext into a separate buffer of the same size (whose tail equals the ciphertext buffer's
tail). -/
theorem C05_inplace (D : Block → Block) (cs : List Block) (tail out : List Byte) (iv : Block)
    (maxOlen : Nat) (hlen : 16 * cs.length < 2 ^ 31) (hcap : 16 * cs.length ≤ maxOlen)
    (hmax : maxOlen ≤ out.length) (hout : out.drop (16 * cs.length) = tail) :
    cbcDecryptInPlace D (fromBlocks cs ++ tail) (16 * cs.length) maxOlen iv =
      cbcDecrypt D (fromBlocks cs ++ tail) (16 * cs.length) out maxOlen iv ∧
    cbcDecryptInPlace D (fromBlocks cs ++ tail) (16 * cs.length) maxOlen iv ≠ none := by
  have h2 := cbcDecrypt_aligned D cs tail out maxOlen iv hlen hcap hmax
  have h1 : cbcDecryptInPlace D (fromBlocks cs ++ tail) (16 * cs.length) maxOlen iv = some
      { ret := 1, out := fromBlocks (Spec.cbcDecrypt D iv cs) ++ tail,
        useOlen := none, ivec := cs.getLastD iv } := by
    unfold cbcDecryptInPlace
    rw [if_neg (by omega), cbcCounts_small hlen]
    simp only [Nat.mul_div_cancel_left _ (show 0 < 16 by omega)]
    have h1 := cbcDecLoopInPlace_eq D cs [] tail iv
    simp only [List.nil_append, List.length_nil] at h1
    simp [h1, cbcDecTail, Nat.mul_mod_right]
  rw [h1, h2, hout]
  simp

example : ∃ (cs : List Block) (out : List Byte), 16 * cs.length = 32 ∧ 32 ≤ out.length ∧
    out.drop (16 * cs.length) = [1, 2] :=
  ⟨[zeroBlock, zeroBlock], List.replicate 32 9 ++ [1, 2], by decide, by decide, by decide⟩

/-! ### C06 -/

theorem specCbcDecrypt_append (D : Block → Block) (as bs : List Block) :
    ∀ iv, Spec.cbcDecrypt D iv (as ++ bs) =
      Spec.cbcDecrypt D iv as ++ Spec.cbcDecrypt D (as.getLastD iv) bs := by
  induction as with
  | nil => intro iv; simp [Spec.cbcDecrypt]
  | cons a as ih =>
    intro iv
    simp only [List.cons_append, Spec.cbcDecrypt, ih, List.getLastD_cons]

/-- Decrypt pieces one after the other, passing the updated IV on; concatenate the outputs. -/
def decryptPieces (D : Block → Block) : List (List Block) → Block → Option (List Byte × Block)
  | [], iv => some ([], iv)
  | cs :: rest, iv => do
    let r ← cbcDecrypt D (fromBlocks cs) (16 * cs.length) (List.replicate (16 * cs.length) 0)
      (16 * cs.length) iv
    let (o, iv') ← decryptPieces D rest r.ivec
    some (r.out ++ o, iv')

/-- C06: any split into block-aligned pieces gives the same bytes and IV as one call. -/
theorem C06_resume (D : Block → Block) (pieces : List (List Block)) (iv : Block)
    (hlen : 16 * pieces.flatten.length < 2 ^ 31) :
    ∃ r, cbcDecrypt D (fromBlocks pieces.flatten) (16 * pieces.flatten.length)
        (List.replicate (16 * pieces.flatten.length) 0) (16 * pieces.flatten.length) iv = some r ∧
      decryptPieces D pieces iv = some (r.out, r.ivec) := by
  have one := cbcDecrypt_exact D
  refine ⟨_, one _ _ hlen, ?_⟩
  show _ = some (_, _)
  simp only
  induction pieces generalizing iv with
  | nil => simp [decryptPieces, Spec.cbcDecrypt]
  | cons cs rest ih =>
    simp only [List.flatten_cons, List.length_append] at hlen ⊢
    rw [decryptPieces, one cs iv (by omega)]
    simp only [Option.bind_eq_bind, Option.bind_some]
    rw [ih _ (by omega)]
    simp [specCbcDecrypt_append]

example : 16 * ([[zeroBlock], [zeroBlock, zeroBlock]] : List (List Block)).flatten.length < 2 ^ 31 := by
  decide

/-! ### C07 -/

theorem specCbcDecrypt_getElem? (D : Block → Block) (cs : List Block) :
    ∀ iv j, (Spec.cbcDecrypt D iv cs)[j]? =
      (cs[j]?).map (fun c => D c ^^^ (if j = 0 then iv else cs.getD (j - 1) iv)) := by
  induction cs with
  | nil => intro iv j; simp [Spec.cbcDecrypt]
  | cons c cs ih =>
    intro iv j
    cases j with
    | zero => simp [Spec.cbcDecrypt]
    | succ j =>
      simp only [Spec.cbcDecrypt, List.getElem?_cons_succ, ih]
      cases hj : cs[j]? with
      | none => rfl
      | some d =>
        simp only [Option.map_some]
        cases j with
        | zero => simp
        | succ j =>
          have : j < cs.length := by
            have := (List.getElem?_eq_some_iff.mp hj).1; omega
          simp [List.getD, List.getElem?_eq_getElem this]

/-- C07: replacing ciphertext block `i` leaves every plaintext block except `i` and `i+1` as it was. -/
theorem C07_error_propagation (D : Block → Block) (cs : List Block) (iv c' : Block) (i j : Nat)
    (hlen : 16 * cs.length < 2 ^ 31) (hj : j < cs.length) (h1 : j ≠ i) (h2 : j ≠ i + 1) :
    ∃ r r', cbcDecrypt D (fromBlocks cs) (16 * cs.length) (List.replicate (16 * cs.length) 0)
        (16 * cs.length) iv = some r ∧
      cbcDecrypt D (fromBlocks (cs.set i c')) (16 * cs.length) (List.replicate (16 * cs.length) 0)
        (16 * cs.length) iv = some r' ∧
      (r.out.drop (16 * j)).take 16 = (r'.out.drop (16 * j)).take 16 ∧
      ((r.out.drop (16 * j)).take 16).length = 16 := by
  have one := cbcDecrypt_exact D
  have e2 := one (cs.set i c') iv (by simpa using hlen)
  simp only [List.length_set] at e2
  refine ⟨_, _, one cs iv hlen, e2, ?_⟩
  have blockAt : ∀ (bs : List Block) k b, bs[k]? = some b →
      ((fromBlocks bs).drop (16 * k)).take 16 = b.toList := by
    intro bs
    induction bs with
    | nil => intro k b h; simp at h
    | cons a bs ih =>
      intro k b h
      cases k with
      | zero =>
        simp only [List.getElem?_cons_zero, Option.some.injEq] at h
        subst h
        simp
      | succ k =>
        have : 16 * (k + 1) = a.toList.length + 16 * k := by simp; omega
        rw [fromBlocks_cons, this, List.drop_append]
        simp only [List.getElem?_cons_succ] at h
        rw [List.drop_of_length_le (by omega), List.nil_append,
          show a.toList.length + 16 * k - a.toList.length = 16 * k by omega]
        exact ih k b h
  have same : (Spec.cbcDecrypt D iv (cs.set i c'))[j]? = (Spec.cbcDecrypt D iv cs)[j]? := by
    rw [specCbcDecrypt_getElem?, specCbcDecrypt_getElem?, List.getElem?_set_ne (by omega)]
    congr 1; funext c; congr 1
    split
    · rfl
    · simp only [List.getD]
      rw [List.getElem?_set_ne (by omega)]
  have hsome : ∃ b, (Spec.cbcDecrypt D iv cs)[j]? = some b :=
    ⟨_, List.getElem?_eq_getElem (by rw [length_specCbcDecrypt]; exact hj)⟩
  obtain ⟨b, hb⟩ := hsome
  simp only
  rw [blockAt _ j b hb, blockAt _ j b (by rw [same]; exact hb)]
  simp

example : (3 : Nat) < ([zeroBlock, zeroBlock, zeroBlock, zeroBlock] : List Block).length ∧
    (3 : Nat) ≠ 1 ∧ (3 : Nat) ≠ 1 + 1 := by decide

/-! ### C08 -/

/-- C08: with too little announced room nothing happens and 0 is returned. -/
theorem C08_capacity_refused (E D : Block → Block) (moved : Bool) (m inp out : List Byte)
    (inlen maxOlen : Nat) (iv : Block) (hm : m.length < 2 ^ 31 - 16) :
    (maxOlen < (Spec.pkcs7 m).length → cbcEncrypt E moved m out maxOlen iv =
      some { ret := 0, out := out, useOlen := none, ivec := iv }) ∧
    (maxOlen < inlen → cbcDecrypt D inp inlen out maxOlen iv =
      some { ret := 0, out := out, useOlen := none, ivec := iv } ∧
      cbcDecryptInPlace D out inlen maxOlen iv =
      some { ret := 0, out := out, useOlen := none, ivec := iv }) := by
  constructor
  · intro h
    unfold cbcEncrypt
    rw [pkcs7Merge_eq_spec m hm]
    simp [h]
  · intro h
    simp [cbcDecrypt, cbcDecryptInPlace, h]

/-- C08: with enough room, block-aligned decryption stays inside both buffers (the result is
defined) and changes only the first `inlen` output bytes. -/
theorem C08_decrypt_in_bounds (D : Block → Block) (inp out : List Byte) (inlen maxOlen : Nat)
    (iv : Block) (hin : inlen ≤ inp.length) (ha : inlen % 16 = 0) (hlen : inlen < 2 ^ 31)
    (hcap : inlen ≤ maxOlen) (hout : maxOlen ≤ out.length) :
    ∃ r, cbcDecrypt D inp inlen out maxOlen iv = some r ∧ r.ret = 1 ∧
      r.out.length = out.length ∧ r.out.drop inlen = out.drop inlen := by
  obtain ⟨cs, hcs⟩ := exists_blocks (inp.take inlen) (by simp; omega)
  have hl : inlen = 16 * cs.length := by
    have := congrArg List.length hcs
    simp at this; omega
  have h := cbcDecrypt_aligned D cs (inp.drop inlen) out maxOlen iv (by omega) (by omega) hout
  rw [← hl, hcs, List.take_append_drop] at h
  refine ⟨_, h, rfl, ?_, ?_⟩
  · simp [length_specCbcDecrypt]; omega
  · simp only
    rw [List.drop_append_of_le_length (by simp [length_specCbcDecrypt]; omega),
      List.drop_of_length_le (by simp [length_specCbcDecrypt]; omega), List.nil_append]

example : ∃ r, cbcDecrypt id (List.replicate 32 1) 32 (List.replicate 40 2) 32 zeroBlock = some r ∧
    r.out.drop 32 = List.replicate 8 2 := by
  obtain ⟨r, h, _, _, h4⟩ := C08_decrypt_in_bounds id (List.replicate 32 1) (List.replicate 40 2) 32 32
    zeroBlock (by decide) (by decide) (by decide) (by decide) (by decide)
  exact ⟨r, h, by rw [h4]; decide⟩

/-- C08 (unaligned input): when the ciphertext object ends inside the last block, decryption reads
past its end. -/
theorem C08_unaligned_overread (D : Block → Block) (inp out : List Byte) (maxOlen : Nat) (iv : Block)
    (hu : inp.length % 16 ≠ 0) (hlen : inp.length < 2 ^ 31) (hcap : inp.length ≤ maxOlen)
    (hout : maxOlen ≤ out.length) : cbcDecrypt D inp inp.length out maxOlen iv = none := by
  obtain ⟨cs, hcs⟩ := exists_blocks (inp.take (inp.length / 16 * 16)) (by simp; omega)
  have hl : inp.length / 16 = cs.length := by
    have := congrArg List.length hcs
    simp at this; omega
  unfold cbcDecrypt
  rw [if_neg (by omega), cbcCounts_small hlen]
  have h1 := cbcDecLoop_eq D cs [] (inp.drop (inp.length / 16 * 16)) [] (out.take (16 * cs.length))
    (out.drop (16 * cs.length)) iv rfl (by simp; omega)
  simp only [List.nil_append, List.length_nil, List.take_append_drop, hcs, ← hl] at h1
  rw [h1]
  simp only [Option.bind_eq_bind, Option.bind_some, cbcDecTail, if_neg hu]
  have : rdBlk inp (inp.length / 16 * 16) = none := by
    unfold rdBlk; rw [dif_neg (by omega)]
  rw [this]; rfl

example : cbcDecrypt id (List.replicate 20 1) 20 (List.replicate 32 0) 32 zeroBlock = none :=
  C08_unaligned_overread id (List.replicate 20 1) _ 32 _ (by decide) (by decide) (by decide) (by decide)

end Verif.Props
