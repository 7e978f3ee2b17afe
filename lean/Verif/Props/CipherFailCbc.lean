import Verif.Props.CipherFail

/-! C131, continued: CBC with a block cipher that reports failure. -/
set_option autoImplicit false

namespace Verif.Props
open Verif Spec Model

/-- The ciphertext block before block `i`. -/
def cbcPrev (E : Block → Block) (iv : Block) (ps : List Block) (i : Nat) : Block := (Spec.cbcEncrypt E iv (ps.take i)).getLastD iv

theorem cbcEncLoopF_fails (E : Block → Block) (w : Faults) (b : Block) (ps : List Block) :
    ∀ (i n : Nat) (preA preO mid post : List Byte) (iv : Block), preO.length = preA.length → mid.length = 16 * ps.length →
      (hi : i < ps.length) → (∀ j, j < i → WorksAt w (n + j)) →
      w (n + i) (ps[i] ^^^ cbcPrev E iv ps i) (ps[i] ^^^ cbcPrev E iv ps i) = some b →
      cbcEncLoopF E w (preA ++ fromBlocks ps) ps.length n preA.length iv (preO ++ (mid ++ post)) =
        some (false, preO ++ (fromBlocks (Spec.cbcEncrypt E iv (ps.take i)) ++ (b.toList ++ (mid.drop (16 * (i + 1)) ++ post)))) := by
  induction ps with
  | nil => intro i n preA preO mid post iv _ _ hi; simp at hi
  | cons p ps ih =>
    intro i n preA preO mid post iv hl hm hi hw hf
    obtain ⟨x, y, rfl, hx, hy⟩ := split16 (n := ps.length) (by simpa using hm)
    simp only [List.length_cons, cbcEncLoopF, fromBlocks_cons, rdBlk_append, Option.bind_eq_bind, Option.bind_some]
    cases i with
    | zero =>
      have hf' : w n (p ^^^ iv) (p ^^^ iv) = some b := hf
      simp only [callF, hf']
      rw [← hl, List.append_assoc, wrBlk_append _ _ _ _ hx, Option.bind_some, if_neg (by decide)]
      rw [List.drop_left' (by omega)]
      rfl
    | succ i =>
      have hw0 : WorksAt w n := hw 0 (by omega)
      simp only [callF_works hw0, if_true]
      rw [← hl, List.append_assoc, wrBlk_append _ _ _ _ hx, Option.bind_some]
      have hprev : cbcPrev E iv (p :: ps) (i + 1) = cbcPrev E (E (p ^^^ iv)) ps i := by
        unfold cbcPrev
        rw [List.take_succ_cons, Spec.cbcEncrypt, List.getLastD_cons]
      have := ih i (n + 1) (preA ++ p.toList) (preO ++ (E (p ^^^ iv)).toList) y post (E (p ^^^ iv)) (by simp [hl]) hy
        (by simpa using hi) (fun j hj => by rw [show n + 1 + j = n + (j + 1) by omega]; exact hw (j + 1) (by omega))
        (by rw [show n + 1 + i = n + (i + 1) by omega, ← hprev]; exact hf)
      simp only [List.append_assoc, List.length_append, Vector.length_toList] at this
      rw [hl, this, List.take_succ_cons, Spec.cbcEncrypt, fromBlocks_cons, List.append_assoc]
      rw [show (x ++ y).drop (16 * (i + 1 + 1)) = y.drop (16 * (i + 1)) by
        rw [List.drop_append, List.drop_eq_nil_of_le (by omega), hx, List.nil_append]; rfl]

/-- C131 (CBC encryption): the first `i` calls succeed, the next one fails and leaves `b` in its buffer. The function returns 0, but the
length of the whole ciphertext has been reported, and the output holds `i` ciphertext blocks and `b`. -/
theorem C131_cbc_encrypt (E : Block → Block) (w : Faults) (n i : Nat) (m out : List Byte) (maxOlen : Nat) (iv b : Block)
    (ps : List Block) (hps : fromBlocks ps = Spec.pkcs7 m) (hm : m.length < 2 ^ 31 - 16)
    (hcap : (Spec.pkcs7 m).length ≤ maxOlen) (hout : maxOlen ≤ out.length) (hi : i < ps.length)
    (hw : ∀ j, j < i → WorksAt w (n + j))
    (hf : w (n + i) (ps[i] ^^^ cbcPrev E iv ps i) (ps[i] ^^^ cbcPrev E iv ps i) = some b) :
    cbcEncryptF E w n false m out maxOlen iv = some
      { ret := 0,
        out := fromBlocks (Spec.cbcEncrypt E iv (ps.take i)) ++ (b.toList ++ out.drop (16 * (i + 1))),
        useOlen := some (BitVec.ofNat 64 (16 * ps.length)),
        ivec := iv } := by
  have hlen : (Spec.pkcs7 m).length = 16 * ps.length := by rw [← hps]; simp
  unfold cbcEncryptF
  rw [pkcs7Merge_eq_spec m hm]
  simp only [Option.bind_eq_bind, Option.bind_some, hlen, Bool.false_and]
  rw [if_neg (by omega)]
  have h1 := cbcEncLoopF_fails E w b ps i n [] [] (out.take (16 * ps.length)) (out.drop (16 * ps.length)) iv rfl
    (by simp; omega) hi hw hf
  simp only [List.nil_append, List.length_nil, List.take_append_drop, hps] at h1
  rw [Nat.mul_div_cancel_left _ (by omega), h1]
  have h2 : (out.take (16 * ps.length)).drop (16 * (i + 1)) ++ out.drop (16 * ps.length) = out.drop (16 * (i + 1)) := by
    conv => rhs; rw [← List.take_append_drop (16 * ps.length) out]
    rw [List.drop_append_of_le_length (by rw [List.length_take]; omega)]
  simp [h2]

/-- C131 (CBC encryption): if the failing call leaves its buffer alone, the output shows the plaintext of that block: it is the xor of the two
last blocks written (of the block and the IV for the first one). -/
theorem C131_cbc_reveals (E : Block → Block) (w : Faults) (n i : Nat) (m out : List Byte) (maxOlen : Nat) (iv : Block)
    (ps : List Block) (hps : fromBlocks ps = Spec.pkcs7 m) (hm : m.length < 2 ^ 31 - 16)
    (hcap : (Spec.pkcs7 m).length ≤ maxOlen) (hout : maxOlen ≤ out.length) (hi : i < ps.length)
    (hw : ∀ j, j < i → WorksAt w (n + j)) (hf : ∀ x, w (n + i) x x = some x) :
    ∃ r x, cbcEncryptF E w n false m out maxOlen iv = some r ∧ r.ret = 0 ∧ rdBlk r.out (16 * i) = some x ∧
      (i = 0 → x ^^^ iv = ps[i]) ∧
      (∀ k, i = k + 1 → ∃ y, rdBlk r.out (16 * k) = some y ∧ x ^^^ y = ps[i]) := by
  have hx : ∀ a b : Block, a ^^^ b ^^^ b = a := by
    intro a b
    ext1 k hk
    rw [Vec.getElem_xor, Vec.getElem_xor, BitVec.xor_assoc, BitVec.xor_self, BitVec.xor_zero]
  have hl : (fromBlocks (Spec.cbcEncrypt E iv (ps.take i))).length = 16 * i := by
    rw [length_fromBlocks, length_specCbcEncrypt, List.length_take]; omega
  refine ⟨_, ps[i] ^^^ cbcPrev E iv ps i, C131_cbc_encrypt E w n i m out maxOlen iv _ ps hps hm hcap hout hi hw (hf _), rfl, ?_, ?_, ?_⟩
  · simp only []
    rw [← hl]
    exact rdBlk_append _ _ _
  · intro h0
    subst h0
    exact hx _ _
  · intro k hk
    subst hk
    refine ⟨cbcPrev E iv ps (k + 1), ?_, hx _ _⟩
    have hln : (Spec.cbcEncrypt E iv (ps.take (k + 1))).length = k + 1 := by
      rw [length_specCbcEncrypt, List.length_take]; omega
    obtain ⟨init, last, hsplit⟩ : ∃ init last, Spec.cbcEncrypt E iv (ps.take (k + 1)) = init ++ [last] := by
      rcases List.eq_nil_or_concat (Spec.cbcEncrypt E iv (ps.take (k + 1))) with h | ⟨a, b, h⟩
      · rw [h] at hln; simp at hln
      · exact ⟨a, b, by rw [h, List.concat_eq_append]⟩
    have hinit : (fromBlocks init).length = 16 * k := by
      rw [hsplit] at hln; simp at hln; rw [length_fromBlocks, hln]
    have hprev : cbcPrev E iv ps (k + 1) = last := by
      unfold cbcPrev; rw [hsplit]; simp
    simp only [hsplit, fromBlocks_append, fromBlocks_cons, List.append_assoc]
    rw [hprev, ← hinit]
    exact rdBlk_append _ _ _

/-! ### decryption -/

theorem cbcDecLoopF_fails (D : Block → Block) (w : Faults) (b : Block) (cs : List Block) :
    ∀ (i n : Nat) (preI postI preO mid post : List Byte) (iv : Block), preO.length = preI.length → mid.length = 16 * cs.length →
      (hi : i < cs.length) → (∀ j, j < i → WorksAt w (n + j)) → (∀ x, w (n + i) cs[i] x = some b) →
      cbcDecLoopF D w (preI ++ (fromBlocks cs ++ postI)) cs.length n preI.length iv (preO ++ (mid ++ post)) =
        some (false, (cs.take i).getLastD iv,
          preO ++ (fromBlocks (Spec.cbcDecrypt D iv (cs.take i)) ++ (b.toList ++ (mid.drop (16 * (i + 1)) ++ post)))) := by
  induction cs with
  | nil => intro i n preI postI preO mid post iv _ _ hi; simp at hi
  | cons c cs ih =>
    intro i n preI postI preO mid post iv hl hm hi hw hf
    obtain ⟨x, y, rfl, hx, hy⟩ := split16 (n := cs.length) (by simpa using hm)
    obtain ⟨old, hold⟩ : ∃ o, rdBlk (preO ++ (x ++ (y ++ post))) preI.length = some o := by
      unfold rdBlk
      rw [dif_pos (by simp; omega)]
      exact ⟨_, rfl⟩
    simp only [List.length_cons, cbcDecLoopF, fromBlocks_cons, List.append_assoc, rdBlk_append, Option.bind_eq_bind, Option.bind_some,
      hold]
    cases i with
    | zero =>
      have hf' : w n c old = some b := hf old
      simp only [callF, hf']
      rw [if_neg (by decide), ← hl, wrBlk_append _ _ _ _ hx, Option.bind_some]
      rw [List.drop_left' (by omega)]
      rfl
    | succ i =>
      have hw0 : WorksAt w n := hw 0 (by omega)
      simp only [callF_works hw0, if_true]
      rw [← hl, wrBlk_append _ _ _ _ hx, Option.bind_some]
      have := ih i (n + 1) (preI ++ c.toList) postI (preO ++ (D c ^^^ iv).toList) y post c (by simp [hl]) hy
        (by simpa using hi) (fun j hj => by rw [show n + 1 + j = n + (j + 1) by omega]; exact hw (j + 1) (by omega))
        (fun x => by rw [show n + 1 + i = n + (i + 1) by omega]; exact hf x)
      simp only [List.append_assoc, List.length_append, Vector.length_toList] at this
      rw [hl, this, List.take_succ_cons, Spec.cbcDecrypt, fromBlocks_cons, List.append_assoc, List.getLastD_cons]
      rw [show (x ++ y).drop (16 * (i + 1 + 1)) = y.drop (16 * (i + 1)) by
        rw [List.drop_append, List.drop_eq_nil_of_le (by omega), hx, List.nil_append]; rfl]

theorem cbcDecLoopInPlaceF_fails (D : Block → Block) (w : Faults) (cs : List Block) :
    ∀ (i n : Nat) (t : Block) (pre post : List Byte) (iv : Block),
      (hi : i < cs.length) → (∀ j, j < i → WorksAt w (n + j)) → FailsAt w (n + i) →
      cbcDecLoopInPlaceF D w cs.length n pre.length t iv (pre ++ (fromBlocks cs ++ post)) =
        some (false, (cs.take i).getLastD iv,
          pre ++ (fromBlocks (Spec.cbcDecrypt D iv (cs.take i)) ++ (fromBlocks (cs.drop i) ++ post))) := by
  induction cs with
  | nil => intro i n t pre post iv hi; simp at hi
  | cons c cs ih =>
    intro i n t pre post iv hi hw hf
    simp only [List.length_cons, cbcDecLoopInPlaceF, fromBlocks_cons, List.append_assoc, rdBlk_append, Option.bind_eq_bind,
      Option.bind_some]
    cases i with
    | zero =>
      rw [callF_fails (show FailsAt w n from hf), if_neg (by decide)]
      simp [Spec.cbcDecrypt]
    | succ i =>
      have hw0 : WorksAt w n := hw 0 (by omega)
      simp only [callF_works hw0, if_true]
      rw [wrBlk_append _ _ _ _ (by simp), Option.bind_some]
      have := ih i (n + 1) (D c) (pre ++ (D c ^^^ iv).toList) post c
        (by simpa using hi) (fun j hj => by rw [show n + 1 + j = n + (j + 1) by omega]; exact hw (j + 1) (by omega))
        (by rw [show n + 1 + i = n + (i + 1) by omega]; exact hf)
      simp only [List.append_assoc, List.length_append, Vector.length_toList] at this
      rw [this, List.take_succ_cons, Spec.cbcDecrypt, fromBlocks_cons, List.append_assoc, List.getLastD_cons, List.drop_succ_cons]

/-- C131 (CBC decryption): the first `i` calls succeed, the next one fails. With separate buffers, `i` plaintext blocks and what the
call left are in the output and `ivec` is as before the call. In place, the rest of the ciphertext is untouched and `ivec` is the
ciphertext block before it. -/
theorem C131_cbc_decrypt (D : Block → Block) (w : Faults) (n i : Nat) (cs : List Block) (out : List Byte) (maxOlen : Nat) (iv b t : Block)
    (hlt : 16 * cs.length < 2 ^ 31) (hcap : 16 * cs.length ≤ maxOlen) (hout : maxOlen ≤ out.length) (hi : i < cs.length)
    (hw : ∀ j, j < i → WorksAt w (n + j)) (hf : ∀ x, w (n + i) cs[i] x = some b) (hf' : FailsAt w (n + i)) :
    cbcDecryptF D w n (fromBlocks cs) (16 * cs.length) out maxOlen iv = some
      { ret := 0, out := fromBlocks (Spec.cbcDecrypt D iv (cs.take i)) ++ (b.toList ++ out.drop (16 * (i + 1))), useOlen := none, ivec := iv } ∧
    cbcDecryptInPlaceF D w n t (fromBlocks cs) (16 * cs.length) maxOlen iv = some
      { ret := 0, out := fromBlocks (Spec.cbcDecrypt D iv (cs.take i)) ++ fromBlocks (cs.drop i), useOlen := none,
        ivec := (cs.take i).getLastD iv } := by
  constructor
  · have h1 := cbcDecLoopF_fails D w b cs i n [] [] [] (out.take (16 * cs.length)) (out.drop (16 * cs.length)) iv rfl
      (by simp; omega) hi hw hf
    simp only [List.nil_append, List.append_nil, List.length_nil, List.take_append_drop] at h1
    unfold cbcDecryptF
    rw [if_neg (by omega), if_neg (by omega), Nat.mul_div_cancel_left _ (by omega), h1]
    have h2 : (out.take (16 * cs.length)).drop (16 * (i + 1)) ++ out.drop (16 * cs.length) = out.drop (16 * (i + 1)) := by
      conv => rhs; rw [← List.take_append_drop (16 * cs.length) out]
      rw [List.drop_append_of_le_length (by rw [List.length_take]; omega)]
    simp [h2]
  · have h1 := cbcDecLoopInPlaceF_fails D w cs i n t [] [] iv hi hw hf'
    simp only [List.nil_append, List.append_nil, List.length_nil] at h1
    unfold cbcDecryptInPlaceF
    rw [if_neg (by omega), if_neg (by omega), Nat.mul_div_cancel_left _ (by omega), h1]
    simp

/-- C131 (CBC decryption): giving the rest of the ciphertext with the `ivec` of the failed call to a call that succeeds completes the
plaintext if the failed call was in place. If it had separate buffers, it does so only if the first block of the rest was preceded by a
block equal to the first IV. -/
theorem C131_cbc_resume (D : Block → Block) (cs : List Block) (i : Nat) (iv : Block) (hi : i < cs.length) :
    Spec.cbcDecrypt D iv (cs.take i) ++ Spec.cbcDecrypt D ((cs.take i).getLastD iv) (cs.drop i) = Spec.cbcDecrypt D iv cs ∧
    (Spec.cbcDecrypt D iv (cs.take i) ++ Spec.cbcDecrypt D iv (cs.drop i) = Spec.cbcDecrypt D iv cs ↔ (cs.take i).getLastD iv = iv) := by
  have h1 : Spec.cbcDecrypt D iv (cs.take i) ++ Spec.cbcDecrypt D ((cs.take i).getLastD iv) (cs.drop i) = Spec.cbcDecrypt D iv cs := by
    rw [← specCbcDecrypt_append, List.take_append_drop]
  refine ⟨h1, fun h => ?_, fun h => by rw [h] at h1; exact h1⟩
  rw [← h1] at h
  have h2 := List.append_cancel_left h
  rw [List.drop_eq_getElem_cons hi, Spec.cbcDecrypt, Spec.cbcDecrypt] at h2
  have h3 := (List.cons.inj h2).1
  apply Vector.ext
  intro k hk
  have h4 := congrArg (fun v : Block => v[k]) h3
  simp only [Vec.getElem_xor] at h4
  exact ((BitVec.xor_right_inj _).mp h4).symm

/-- C131: if no call fails, these are the functions of the other properties. -/
theorem C131_cbc_no_failure (E : Block → Block) (w : Faults) (hw : ∀ k, WorksAt w k) (n : Nat) (iv : Block) (maxOlen : Nat) :
    (∀ moved m out, cbcEncryptF E w n moved m out maxOlen iv = cbcEncrypt E moved m out maxOlen iv) ∧
    (∀ inp out inlen, inlen % 16 = 0 → inlen < 2 ^ 31 → cbcDecryptF E w n inp inlen out maxOlen iv = cbcDecrypt E inp inlen out maxOlen iv) ∧
    (∀ t buf inlen, inlen % 16 = 0 → inlen < 2 ^ 31 →
      cbcDecryptInPlaceF E w n t buf inlen maxOlen iv = cbcDecryptInPlace E buf inlen maxOlen iv) := by
  have l1 : ∀ afin k n pos iv out, cbcEncLoopF E w afin k n pos iv out = (cbcEncLoop E afin k pos iv out).map fun o => (true, o) := by
    intro afin k
    induction k with
    | zero => intro n pos iv out; rfl
    | succ k ih =>
      intro n pos iv out
      rw [cbcEncLoopF, cbcEncLoop]
      cases rdBlk afin pos with
      | none => rfl
      | some p =>
        simp only [callF_works (hw _), Option.bind_eq_bind, Option.bind_some, if_true]
        cases wrBlk out pos (E (p ^^^ iv)) with
        | none => rfl
        | some o => exact ih _ _ _ _
  have l2 : ∀ inp k n pos iv out, cbcDecLoopF E w inp k n pos iv out = (cbcDecLoop E inp k pos iv out).map fun o => (true, o) := by
    intro inp k
    induction k with
    | zero => intro n pos iv out; rfl
    | succ k ih =>
      intro n pos iv out
      rw [cbcDecLoopF, cbcDecLoop]
      cases rdBlk inp pos with
      | none => rfl
      | some c =>
        simp only [callF_works (hw _), Option.bind_eq_bind, Option.bind_some, if_true]
        by_cases hb : pos + 16 ≤ out.length
        · rw [show rdBlk out pos = some _ from dif_pos hb, Option.bind_some]
          cases wrBlk out pos (E c ^^^ iv) with
          | none => rfl
          | some o => exact ih _ _ _ _
        · rw [show rdBlk out pos = none from dif_neg hb, show wrBlk out pos (E c ^^^ iv) = none from if_neg hb]
          rfl
  have l3 : ∀ k n pos t iv buf, cbcDecLoopInPlaceF E w k n pos t iv buf = (cbcDecLoopInPlace E k pos iv buf).map fun o => (true, o) := by
    intro k
    induction k with
    | zero => intro n pos t iv buf; rfl
    | succ k ih =>
      intro n pos t iv buf
      rw [cbcDecLoopInPlaceF, cbcDecLoopInPlace]
      cases rdBlk buf pos with
      | none => rfl
      | some c =>
        simp only [callF_works (hw _), Option.bind_eq_bind, Option.bind_some, if_true]
        cases wrBlk buf pos (E c ^^^ iv) with
        | none => rfl
        | some o => exact ih _ _ _ _ _
  refine ⟨fun moved m out => ?_, fun inp out inlen h1 h2 => ?_, fun t buf inlen h1 h2 => ?_⟩
  · unfold cbcEncryptF Model.cbcEncrypt
    cases pkcs7Merge m with
    | none => rfl
    | some afin =>
      simp only [l1, Option.bind_eq_bind, Option.bind_some]
      cases cbcEncLoop E afin (afin.length / 16) 0 iv out <;> rfl
  · unfold cbcDecryptF Model.cbcDecrypt
    rw [if_neg (show ¬ (inlen % 16 ≠ 0 ∨ 2 ^ 31 ≤ inlen) by omega), cbcCounts_small h2]
    simp only [l2, h1, cbcDecTail]
    cases cbcDecLoop E inp (inlen / 16) 0 iv out <;> rfl
  · unfold cbcDecryptInPlaceF cbcDecryptInPlace
    rw [if_neg (show ¬ (inlen % 16 ≠ 0 ∨ 2 ^ 31 ≤ inlen) by omega), cbcCounts_small h2]
    simp only [l3, h1, cbcDecTail]
    cases cbcDecLoopInPlace E (inlen / 16) 0 iv buf <;> rfl

/-- Two padded blocks, the second call failing with its buffer left alone. -/
example : ∃ ps : List Block, fromBlocks ps = Spec.pkcs7 (List.replicate 20 7) ∧ 1 < ps.length ∧
    ∀ x, (fun k _ b => if k = 1 then some b else none : Faults) (0 + 1) x x = some x := by
  obtain ⟨ps, h⟩ := exists_blocks (Spec.pkcs7 (List.replicate 20 7)) (by decide)
  refine ⟨ps, h, ?_, fun x => rfl⟩
  have := congrArg List.length h
  rw [length_fromBlocks] at this
  have h2 : (Spec.pkcs7 (List.replicate 20 7)).length = 32 := by decide
  omega

end Verif.Props
