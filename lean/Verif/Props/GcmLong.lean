import Verif.Props.GcmOrder

/-!
# GCM messages longer than the counter

`WBCRYPTO_gcm_encrypt` and `WBCRYPTO_gcm_decrypt` (gcm128.c lines 152-250) add one to the last four bytes of the counter block for
each block of data and never look at how much data there has been. SP 800-38D allows `2^32 - 2` blocks for each IV. What happens
to messages longer than that, given in pieces of whole blocks, each short enough for a call.
-/
set_option autoImplicit false

namespace Verif.Props
open Verif Spec Model

/-! ### pieces -/

theorem gctr_append_aligned (E : Block → Block) (q : List Byte) (p : List Byte) : ∀ v, p.length % 16 = 0 →
    gctr E v (p ++ q) = gctr E v p ++ gctr E (incN (chunks p).length v) q := by
  induction p using chunks_induction with
  | nil => intro v _; rfl
  | step p hp ih =>
    intro v h
    have h1 := List.length_pos_iff.mpr hp
    rw [gctr_step E v (p ++ q) (by simp [hp]), gctr_step E v p hp, List.take_append_of_le_length (by omega),
      List.drop_append_of_le_length (by omega), ih _ (by simp; omega), chunks_of_ne_nil hp, List.length_cons, incN_succ',
      List.append_assoc]

theorem incN_inc (n : Nat) (v : BitVec 128) : incN n (inc32 v) = inc32 (incN n v) := by
  rw [← incN_succ']; rfl

theorem steps_enc_out (E : Block → Block) (ps : List (List Byte)) : ∀ cb, Aligned ps →
    (stepsOut E cb (ps.map .enc)).flatten = gctr E (inc32 cb) ps.flatten ∧
    stepsBlocks E cb (ps.map .enc) = (chunks (gctr E (inc32 cb) ps.flatten)).map padBV := by
  induction ps with
  | nil => intro cb _; exact ⟨rfl, rfl⟩
  | cons p ps ih =>
    intro cb ha
    cases ps with
    | nil => simp [stepsOut, stepsBlocks]
    | cons q ps =>
      obtain ⟨h1, h2⟩ := ih (incN (chunks p).length cb) ha.2
      have hg : gctr E (inc32 cb) (p :: q :: ps).flatten = gctr E (inc32 cb) p ++
          gctr E (inc32 (incN (chunks p).length cb)) (q :: ps).flatten := by
        rw [List.flatten_cons, gctr_append_aligned E _ p _ ha.1, incN_inc]
      constructor
      · rw [List.map_cons, stepsOut, List.flatten_cons, h1, hg]
      · rw [List.map_cons, stepsBlocks, h2, hg, chunks_append_aligned _ _ (by rw [length_gctr]; exact ha.1), List.map_append]

theorem steps_dec_out (E : Block → Block) (ps : List (List Byte)) : ∀ cb, Aligned ps →
    (stepsOut E cb (ps.map .dec)).flatten = gctr E (inc32 cb) ps.flatten ∧
    stepsBlocks E cb (ps.map .dec) = (chunks ps.flatten).map padBV := by
  induction ps with
  | nil => intro cb _; exact ⟨rfl, rfl⟩
  | cons p ps ih =>
    intro cb ha
    cases ps with
    | nil => simp [stepsOut, stepsBlocks]
    | cons q ps =>
      obtain ⟨h1, h2⟩ := ih (incN (chunks p).length cb) ha.2
      have hg : gctr E (inc32 cb) (p :: q :: ps).flatten = gctr E (inc32 cb) p ++
          gctr E (inc32 (incN (chunks p).length cb)) (q :: ps).flatten := by
        rw [List.flatten_cons, gctr_append_aligned E _ p _ ha.1, incN_inc]
      constructor
      · rw [List.map_cons, stepsOut, List.flatten_cons, h1, hg]
      · rw [List.map_cons, stepsBlocks, h2, List.flatten_cons (l := p), chunks_append_aligned _ _ ha.1, List.map_append]

theorem dataLen_enc (ps : List (List Byte)) : dataLen (ps.map .enc) = ps.flatten.length := by
  induction ps with
  | nil => rfl
  | cons p ps ih => simp [dataLen, ih]

theorem dataLen_dec (ps : List (List Byte)) : dataLen (ps.map .dec) = ps.flatten.length := by
  induction ps with
  | nil => rfl
  | cons p ps ih => simp [dataLen, ih]

theorem aadLen_enc (n : Nat) (ps : List (List Byte)) : aadLen n (ps.map .enc) = n := by
  induction ps with
  | nil => rfl
  | cons p ps ih => simp [aadLen, ih]

theorem aadLen_dec (n : Nat) (ps : List (List Byte)) : aadLen n (ps.map .dec) = n := by
  induction ps with
  | nil => rfl
  | cons p ps ih => simp [aadLen, ih]

/-- C123: a message of any length below `2^61` bytes, in pieces of whole blocks each shorter than `2^31` bytes, is encrypted in
counter mode with a 32-bit counter and gets the tag of SP 800-38D; no call refuses because the message is too long for its IV. -/
theorem C123_encrypt (E : Block → Block) (ops : List GcmOp) (c : GcmCtx) (hc : runOps (gcmInit E) ops = some c) (junk : Byte)
    (iv a : List Byte) (ps : List (List Byte)) (hiv : iv.length < 2 ^ 29) (ha : a.length < 2 ^ 61) (hal : Aligned ps)
    (hp : ∀ p ∈ ps, p.length < 2 ^ 31) (hn : ps.flatten.length < 2 ^ 61) (h0 : 0 < ps.flatten.length) :
    ∃ o, stepsTag c junk iv (.aad a :: ps.map .enc) 0 = some (o, (gcmTag E iv a o.flatten).toList) ∧
      o.flatten = gcmCipher E iv ps.flatten := by
  have h := C114_tag E ops c hc junk iv (.aad a :: ps.map .enc) 0 hiv
    (by
      intro x hx
      rcases List.mem_cons.mp hx with rfl | hx
      · exact ha
      · obtain ⟨p, hpm, rfl⟩ := List.mem_map.mp hx
        exact hp p hpm)
    (by rw [dataLen, dataLen_enc]; exact hn) (by rw [aadLen, aadLen_enc]; exact ha)
    (Or.inl (by rw [dataLen, dataLen_enc]; exact h0))
  obtain ⟨h1, h2⟩ := steps_enc_out E ps (j0 E iv) hal
  have ho : (stepsOut E (j0 E iv) (.aad a :: ps.map .enc)).flatten = gcmCipher E iv ps.flatten := by
    rw [stepsOut, List.flatten_cons, h1]; rfl
  refine ⟨_, ?_, ho⟩
  rw [h, ho, dataLen, dataLen_enc, aadLen, aadLen_enc, stepsBlocks, h2, gcmTag, lenBlock, length_gcmCipher]
  rfl

/-- C123: decryption of the pieces of a ciphertext, in the same way. -/
theorem C123_decrypt (E : Block → Block) (ops : List GcmOp) (c : GcmCtx) (hc : runOps (gcmInit E) ops = some c) (junk : Byte)
    (iv a : List Byte) (ps : List (List Byte)) (hiv : iv.length < 2 ^ 29) (ha : a.length < 2 ^ 61) (hal : Aligned ps)
    (hp : ∀ p ∈ ps, p.length < 2 ^ 31) (hn : ps.flatten.length < 2 ^ 61) (h0 : 0 < ps.flatten.length) :
    ∃ o, stepsTag c junk iv (.aad a :: ps.map .dec) 0 = some (o, (gcmTag E iv a ps.flatten).toList) ∧
      ps.flatten = gcmCipher E iv o.flatten := by
  have h := C114_tag E ops c hc junk iv (.aad a :: ps.map .dec) 0 hiv
    (by
      intro x hx
      rcases List.mem_cons.mp hx with rfl | hx
      · exact ha
      · obtain ⟨p, hpm, rfl⟩ := List.mem_map.mp hx
        exact hp p hpm)
    (by rw [dataLen, dataLen_dec]; exact hn) (by rw [aadLen, aadLen_dec]; exact ha)
    (Or.inl (by rw [dataLen, dataLen_dec]; exact h0))
  obtain ⟨h1, h2⟩ := steps_dec_out E ps (j0 E iv) hal
  have ho : (stepsOut E (j0 E iv) (.aad a :: ps.map .dec)).flatten = gcmCipher E iv ps.flatten := by
    rw [stepsOut, List.flatten_cons, h1]; rfl
  refine ⟨_, ?_, by rw [ho, gcmCipher_twice]⟩
  rw [h, dataLen, dataLen_dec, aadLen, aadLen_dec, stepsBlocks, h2, gcmTag, lenBlock]
  rfl

/-! ### where the counter comes round -/

theorem incN_eq_iff (x : BitVec 128) (i j : Nat) : incN i x = incN j x ↔ i % 2 ^ 32 = j % 2 ^ 32 := by
  obtain ⟨b, rfl⟩ : ∃ b, x = toBV b := ⟨ofBV x, (toBV_ofBV x).symm⟩
  rw [toBV_split, incN_append, incN_append]
  constructor
  · intro h
    have h2 := (append_inj h).2
    have := congrArg BitVec.toNat h2
    simp only [BitVec.toNat_add, BitVec.toNat_ofNat] at this
    have := (lo32 b).isLt
    omega
  · intro h
    rw [show BitVec.ofNat 32 i = BitVec.ofNat 32 j from BitVec.eq_of_toNat_eq (by simpa using h)]

/-- C123: the counter blocks of `n` blocks of data are different from each other and from the one that masks the tag exactly when
`n < 2^32`. -/
theorem C123_limit (x : BitVec 128) (n : Nat) :
    ((∀ i j, i < n → j < n → incN (i + 1) x = incN (j + 1) x → i = j) ∧ ∀ i, i < n → incN (i + 1) x ≠ x) ↔ n < 2 ^ 32 := by
  constructor
  · intro ⟨_, h⟩
    by_contra hn
    exact h (2 ^ 32 - 1) (by omega) ((incN_eq_iff x _ 0).2 (by omega))
  · intro hn
    refine ⟨fun i j hi hj h => ?_, fun i hi h => ?_⟩
    · have := (incN_eq_iff x _ _).1 h
      omega
    · have := (incN_eq_iff x (i + 1) 0).1 h
      omega

theorem cipher_byte (E : Block → Block) (iv p : List Byte) (k : Nat) (hk : k < p.length) :
    (gcmCipher E iv p).getD k 0 = (E (ofBV (incN (k / 16 + 1) (j0 E iv)))).toList.getD (k % 16) 0 ^^^ p.getD k 0 := by
  have h := gctr_getElem? E p (ofBV (j0 E iv)) k hk
  rw [toBV_ofBV] at h
  rw [gcmCipher, List.getD_eq_getElem?_getD, h]
  rfl

theorem xor_four (k a b : Byte) : (k ^^^ a) ^^^ (k ^^^ b) = a ^^^ b := by
  rw [BitVec.xor_comm k a, BitVec.xor_assoc, ← BitVec.xor_assoc k k b, BitVec.xor_self, BitVec.zero_xor]

/-- C123: bytes of the ciphertext at a distance that is a multiple of `2^36` differ by what the bytes of the message differ by. -/
theorem C123_repeat (E : Block → Block) (ops : List GcmOp) (c : GcmCtx) (hc : runOps (gcmInit E) ops = some c) (junk : Byte)
    (iv a : List Byte) (ps : List (List Byte)) (hiv : iv.length < 2 ^ 29) (ha : a.length < 2 ^ 61) (hal : Aligned ps)
    (hp : ∀ p ∈ ps, p.length < 2 ^ 31) (hn : ps.flatten.length < 2 ^ 61)
    (i j : Nat) (hi : i < ps.flatten.length) (hj : j < ps.flatten.length) (hij : i % 2 ^ 36 = j % 2 ^ 36) :
    ∃ o t, stepsTag c junk iv (.aad a :: ps.map .enc) 0 = some (o, t) ∧
      o.flatten.getD i 0 ^^^ o.flatten.getD j 0 = ps.flatten.getD i 0 ^^^ ps.flatten.getD j 0 := by
  obtain ⟨o, h1, h2⟩ := C123_encrypt E ops c hc junk iv a ps hiv ha hal hp hn (by omega)
  refine ⟨o, _, h1, ?_⟩
  rw [h2, cipher_byte E iv _ i hi, cipher_byte E iv _ j hj, (incN_eq_iff (j0 E iv) (i / 16 + 1) (j / 16 + 1)).2 (by omega),
    show i % 16 = j % 16 by omega, xor_four]

/-- The reader of C123: the first `2^36` bytes are known, the others follow from the ciphertext. -/
def readOn (known ct : List Byte) : List Byte :=
  (List.range ct.length).map fun i => known.getD (i % 2 ^ 36) 0 ^^^ (ct.getD i 0 ^^^ ct.getD (i % 2 ^ 36) 0)

/-- C123: whoever knows the first `2^36` bytes of a message reads all the others from the ciphertext, whatever the key and the IV. -/
theorem C123_read (E : Block → Block) (ops : List GcmOp) (c : GcmCtx) (hc : runOps (gcmInit E) ops = some c) (junk : Byte)
    (iv a : List Byte) (ps : List (List Byte)) (hiv : iv.length < 2 ^ 29) (ha : a.length < 2 ^ 61) (hal : Aligned ps)
    (hp : ∀ p ∈ ps, p.length < 2 ^ 31) (hn : ps.flatten.length < 2 ^ 61) (h0 : 0 < ps.flatten.length) :
    ∃ o t, stepsTag c junk iv (.aad a :: ps.map .enc) 0 = some (o, t) ∧
      readOn (ps.flatten.take (2 ^ 36)) o.flatten = ps.flatten := by
  obtain ⟨o, h1, h2⟩ := C123_encrypt E ops c hc junk iv a ps hiv ha hal hp hn h0
  refine ⟨o, _, h1, ?_⟩
  have hl : o.flatten.length = ps.flatten.length := by rw [h2, length_gcmCipher]
  apply List.ext_getElem
  · simp [readOn, hl]
  · intro i h3 h4
    have hm : i % 2 ^ 36 ≤ i := Nat.mod_le _ _
    have hm2 : i % 2 ^ 36 < 2 ^ 36 := Nat.mod_lt _ (by norm_num)
    have hx : o.flatten.getD i 0 ^^^ o.flatten.getD (i % 2 ^ 36) 0 =
        ps.flatten.getD i 0 ^^^ ps.flatten.getD (i % 2 ^ 36) 0 := by
      rw [h2, cipher_byte E iv _ i h4, cipher_byte E iv _ (i % 2 ^ 36) (by omega),
        (incN_eq_iff (j0 E iv) (i / 16 + 1) (i % 2 ^ 36 / 16 + 1)).2 (by omega), show i % 2 ^ 36 % 16 = i % 16 by omega, xor_four]
    have hk : (ps.flatten.take (2 ^ 36)).getD (i % 2 ^ 36) 0 = ps.flatten.getD (i % 2 ^ 36) 0 := by
      rw [List.getD_eq_getElem?_getD, List.getElem?_take_of_lt hm2, List.getD_eq_getElem?_getD]
    have hi : ps.flatten.getD i 0 = ps.flatten[i] := by
      rw [List.getD_eq_getElem?_getD, List.getElem?_eq_getElem h4]; rfl
    simp only [readOn, List.getElem_map, List.getElem_range]
    rw [hx, hk, hi, BitVec.xor_comm ps.flatten[i], ← BitVec.xor_assoc,
      BitVec.xor_self, BitVec.zero_xor]

/-- C123: block number `2^32 - 1` of the message is encrypted with what masks the tag. The tag, that block of the ciphertext and
that block of the message together are the hash of AAD, ciphertext and lengths under the hash key: the mask is gone. -/
theorem C123_mask (E : Block → Block) (ops : List GcmOp) (c : GcmCtx) (hc : runOps (gcmInit E) ops = some c) (junk : Byte)
    (iv a : List Byte) (ps : List (List Byte)) (hiv : iv.length < 2 ^ 29) (ha : a.length < 2 ^ 61) (hal : Aligned ps)
    (hp : ∀ p ∈ ps, p.length < 2 ^ 31) (hn : ps.flatten.length < 2 ^ 61) (h0 : 2 ^ 36 ≤ ps.flatten.length) (k : Nat) (hk : k < 16) :
    ∃ o t, stepsTag c junk iv (.aad a :: ps.map .enc) 0 = some (o, t) ∧
      o.flatten.getD (2 ^ 36 - 16 + k) 0 ^^^ ps.flatten.getD (2 ^ 36 - 16 + k) 0 = (E (ofBV (j0 E iv))).toList.getD k 0 ∧
      t.getD k 0 ^^^ (o.flatten.getD (2 ^ 36 - 16 + k) 0 ^^^ ps.flatten.getD (2 ^ 36 - 16 + k) 0) =
        (ofBV (ghash (hashKey E) ((chunks a).map padBV ++ (chunks o.flatten).map padBV ++ [lenBlock a o.flatten]))).toList.getD k 0 := by
  obtain ⟨o, h1, h2⟩ := C123_encrypt E ops c hc junk iv a ps hiv ha hal hp hn (by omega)
  refine ⟨o, _, h1, ?_⟩
  have hm : o.flatten.getD (2 ^ 36 - 16 + k) 0 ^^^ ps.flatten.getD (2 ^ 36 - 16 + k) 0 = (E (ofBV (j0 E iv))).toList.getD k 0 := by
    rw [h2, cipher_byte E iv _ _ (by omega), (incN_eq_iff (j0 E iv) _ 0).2 (by omega), show (2 ^ 36 - 16 + k) % 16 = k by omega,
      BitVec.xor_assoc, BitVec.xor_self, BitVec.xor_zero]
    rfl
  refine ⟨hm, ?_⟩
  rw [hm, gcmTag]
  simp only [List.getD_eq_getElem?_getD, Vector.getElem?_toList, Vector.getElem?_eq_getElem hk, Option.getD_some,
    Vec.getElem_xor]
  rw [BitVec.xor_comm, ← BitVec.xor_assoc, BitVec.xor_self, BitVec.zero_xor]

/- A message of `2^36 + 2^30 + 5` bytes in 66 pieces meets the hypotheses. -/
example : let ps := List.replicate 65 (List.replicate (2 ^ 30) (7 : Byte)) ++ [[1, 2, 3, 4, 5]]
    Aligned ps ∧ (∀ p ∈ ps, p.length < 2 ^ 31) ∧ ps.flatten.length = 2 ^ 36 + 2 ^ 30 + 5 := by
  intro ps
  have ha : ∀ n, Aligned (List.replicate n (List.replicate (2 ^ 30) (7 : Byte)) ++ [[1, 2, 3, 4, 5]]) := by
    intro n
    induction n with
    | zero => trivial
    | succ n ih =>
      cases n with
      | zero => exact ⟨by rw [List.length_replicate]; norm_num, trivial⟩
      | succ n => exact ⟨by rw [List.length_replicate]; norm_num, ih⟩
  refine ⟨ha 65, ?_, ?_⟩
  · intro p hp
    rcases List.mem_append.mp hp with h | h
    · rw [(List.mem_replicate.mp h).2, List.length_replicate]; norm_num
    · rw [List.mem_singleton.mp h]; norm_num
  · show (List.replicate 65 (List.replicate (2 ^ 30) (7 : Byte)) ++ [[1, 2, 3, 4, 5]]).flatten.length = _
    rw [List.flatten_append, List.length_append, List.flatten_replicate_replicate, List.length_replicate]
    norm_num

/-- What C123 means for one bit: a message of `2^36 + 1` equal bytes has equal first and last bytes in its ciphertext, under every
key and IV. -/
theorem C123_first_last (E : Block → Block) (junk : Byte) (iv a : List Byte) (ps : List (List Byte)) (hiv : iv.length < 2 ^ 29)
    (ha : a.length < 2 ^ 61) (hal : Aligned ps) (hp : ∀ p ∈ ps, p.length < 2 ^ 31) (hn : ps.flatten.length = 2 ^ 36 + 1) :
    ∃ o t, stepsTag (gcmInit E) junk iv (.aad a :: ps.map .enc) 0 = some (o, t) ∧
      (o.flatten.getD 0 0 = o.flatten.getD (2 ^ 36) 0 ↔ ps.flatten.getD 0 0 = ps.flatten.getD (2 ^ 36) 0) := by
  obtain ⟨o, t, h1, h2⟩ := C123_repeat E [] (gcmInit E) rfl junk iv a ps hiv ha hal hp (by rw [hn]; norm_num) 0 (2 ^ 36)
    (by omega) (by omega) (by norm_num)
  refine ⟨o, t, h1, ?_⟩
  rw [← BitVec.xor_eq_zero_iff, h2, BitVec.xor_eq_zero_iff]

end Verif.Props
