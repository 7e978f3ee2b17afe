import Verif.Props.Api
import Verif.Props.DocsCn
import Verif.Props.WbGcmExtract
import Verif.Props.Wbsm4File

/-! C121: what the programs in the documentation do. -/
set_option autoImplicit false

namespace Verif.Props
open Verif Spec Model

theorem length_zeroBuf (n : Nat) : (zeroBuf n).length = n := List.length_replicate

theorem zeroBuf_drop (n cap : Nat) (h : n < cap) : (zeroBuf cap).drop n = 0 :: zeroBuf (cap - n - 1) := by
  unfold zeroBuf
  rw [List.drop_replicate, show cap - n = (cap - n - 1) + 1 by omega, List.replicate_succ]
  rfl

/-! ### CBC -/

/-- The CBC example on a message of whole blocks, for any two block functions. -/
theorem docCbc_run (E D : Block → Block) (m : List Byte) (iv : Block) (ps : List Block) (hps : fromBlocks ps = m)
    (hne : ps ≠ []) (hm : m.length < 2 ^ 31 - 16) :
    ∃ n, docCbc E D m iv = some (fromBlocks (Spec.cbcDecrypt D iv (Spec.cbcEncrypt E iv ps)), n) ∧
      separateLength (fromBlocks (Spec.cbcDecrypt D iv (Spec.cbcEncrypt E iv ps))) = some n := by
  have hlen : m.length = 16 * ps.length := by rw [← hps]; simp
  have hpos : 0 < ps.length := List.length_pos_iff.2 hne
  have hpm : Spec.pkcs7 m = m := by
    have : m.length % 16 = 0 := by omega
    simp [Spec.pkcs7, Spec.padCount, this]
  have henc := C03_cbc_encrypt E m (zeroBuf m.length) m.length iv ps (by rw [hpm, hps]) hm
    (by rw [hpm]) (by rw [length_zeroBuf])
  have hcl : (Spec.cbcEncrypt E iv ps).length = ps.length := length_specCbcEncrypt E iv ps
  have hdec := cbcDecrypt_aligned D (Spec.cbcEncrypt E iv ps) ((zeroBuf m.length).drop (16 * ps.length)) (zeroBuf m.length)
    m.length iv (by omega) (by omega) (by rw [length_zeroBuf])
  have hz : (zeroBuf m.length).drop (16 * ps.length) = [] := List.drop_of_length_le (by rw [length_zeroBuf]; omega)
  rw [hcl, hz, List.append_nil, List.append_nil] at hdec
  rw [hz, List.append_nil] at henc
  have hdl : (fromBlocks (Spec.cbcDecrypt D iv (Spec.cbcEncrypt E iv ps))).length = 16 * ps.length := by
    have : ∀ (cs : List Block) (v : Block), (Spec.cbcDecrypt D v cs).length = cs.length := by
      intro cs
      induction cs with
      | nil => intro v; rfl
      | cons c cs ih => intro v; simp [Spec.cbcDecrypt, ih]
    simp [this, hcl]
  obtain ⟨n, hn⟩ := separateLength_defined (fromBlocks (Spec.cbcDecrypt D iv (Spec.cbcEncrypt E iv ps)))
    (by rw [← List.length_pos_iff]; omega)
  refine ⟨n, ?_, hn⟩
  unfold docCbc
  rw [cbcEncryptWrapper_eq, henc]
  simp only [Option.bind_some]
  rw [show (BitVec.ofNat 64 (16 * ps.length)).toNat = 16 * ps.length by simp; omega, cbcDecryptWrapper, hdec]
  simp only [Option.bind_eq_bind, Option.bind_some]
  rw [if_neg (by decide), List.take_of_length_le (by omega), hn, if_neg (by omega)]
  rfl

/-- C121: with buffers "as large as the message", as the documents say, encryption of a message that is not a multiple
of 16 bytes is refused, and the program goes on with an uninitialised `use_len`; an empty message is read before its
beginning. -/
theorem C121_cbc_refused (E D : Block → Block) (m : List Byte) (iv : Block) (hm : m.length < 2 ^ 31 - 16)
    (hu : m.length % 16 ≠ 0 ∨ m = []) : docCbc E D m iv = none := by
  by_cases h0 : m = []
  · subst h0
    have henc := C03_cbc_encrypt E [] (zeroBuf 0) 0 iv [] rfl (by decide) (by decide) (by decide)
    unfold docCbc
    rw [cbcEncryptWrapper_eq]
    simp only [List.length_nil]
    rw [henc]
    rfl
  · have hu : m.length % 16 ≠ 0 := hu.resolve_right h0
    have hl : m.length < (Spec.pkcs7 m).length := by
      simp only [Spec.pkcs7, Spec.padCount, List.length_append, List.length_replicate]
      omega
    unfold docCbc
    rw [cbcEncryptWrapper_eq, (C08_capacity_refused E D false m [] (zeroBuf m.length) 0 m.length iv hm).1 hl]
    rfl

/-- C121: a message of whole blocks comes back; the length the program ends up with is the message's exactly if the last
byte is 0 or above 16, and otherwise smaller by that byte. -/
theorem C121_cbc (E D : Block → Block) (hDE : ∀ b, D (E b) = b) (m : List Byte) (iv : Block) (hne : m ≠ [])
    (hm : m.length < 2 ^ 31 - 16) (ha : m.length % 16 = 0) :
    ∃ n, docCbc E D m iv = some (m, n) ∧
      n.toNat = (if m.getLast hne = 0 ∨ 16 < (m.getLast hne).toNat then m.length else m.length - (m.getLast hne).toNat) := by
  obtain ⟨ps, hps⟩ := exists_blocks m ha
  have hp : ps ≠ [] := by rintro rfl; exact hne (by rw [← hps]; rfl)
  obtain ⟨n, h1, h2⟩ := docCbc_run E D m iv ps hps hp hm
  rw [specCbc_roundtrip E D hDE, hps] at h1 h2
  refine ⟨n, h1, ?_⟩
  have h16 : 16 ≤ m.length := by
    have := List.length_pos_iff.2 hne
    omega
  obtain ⟨-, -, hloss⟩ := C02_aligned_loss m hne hm ha
  split
  · rename_i hb
    have hz : stripNum (m.getLast hne) = 0 := by
      unfold stripNum
      rcases hb with hb | hb
      · simp [hb]
      · simp [hb]
    unfold separateLength at h2
    rw [dif_pos hne] at h2
    simp only [hz] at h2
    injection h2 with h2
    rw [← h2, show (BitVec.ofNat 32 m.length - BitVec.ofNat 32 0) = BitVec.ofNat 32 m.length by simp,
      signExtend_ofNat (by omega)]
    simp; omega
  · rename_i hb
    have h0 : m.getLast hne ≠ 0 := fun h => hb (.inl h)
    have hle : (m.getLast hne).toNat ≤ 16 := by
      rcases Nat.lt_or_ge 16 (m.getLast hne).toNat with h | h
      · exact absurd (.inr h) hb
      · exact h
    have hpos : 1 ≤ (m.getLast hne).toNat := by
      rcases Nat.eq_zero_or_pos (m.getLast hne).toNat with h | h
      · exact absurd (BitVec.eq_of_toNat_eq h) h0
      · exact h
    have := (hloss hpos hle).2
    rw [h2] at this
    injection this with this
    rw [this]
    simp; omega

/-- C121: the white-box example, with one group of dummy rounds as the document shows it.  The memory that
`WBCRYPTO_wbsm4_context_init` gets for the constants of the dummy rounds is never written.  If it xors to zero in both contexts,
the message comes back; if in exactly one of them, another text comes back. -/
theorem C121_wbsm4_cbc (r r' : Wbsm4Rnd) (junk junk' : Nat → WbRound) (key m : List Byte) (iv : Block) (hne : m ≠ [])
    (hm : m.length < 2 ^ 31 - 16) (ha : m.length % 16 = 0) :
    ∃ a a' enc dec, a ≤ 32 ∧ a' ≤ 32 ∧ wbsm4GenTable r junk .encrypt 1 key = some enc ∧
      wbsm4GenTable r' junk' .decrypt 1 key = some dec ∧
      ((∀ k, k < 4 → junkXor (junk (a + k)) = 0) → (∀ k, k < 4 → junkXor (junk' (a' + k)) = 0) →
        ∃ n, docCbc (wbsm4Encrypt enc) (wbsm4Decrypt dec) m iv = some (m, n)) ∧
      (¬ ((∀ k, k < 4 → junkXor (junk (a + k)) = 0) ↔ (∀ k, k < 4 → junkXor (junk' (a' + k)) = 0)) →
        ∃ p n, docCbc (wbsm4Encrypt enc) (wbsm4Decrypt dec) m iv = some (p, n) ∧ p ≠ m) := by
  obtain ⟨a, enc, h1, h2, h3⟩ := C37_one_group r junk .encrypt key
  obtain ⟨a', dec, h1', h2', h3'⟩ := C37_one_group r' junk' .decrypt key
  have hd : ∀ x, (wbsm4Decrypt dec x = Model.sm4Decrypt (sm4InitKey key .encrypt) x ↔
      ∀ k, k < 4 → junkXor (junk' (a' + k)) = 0) := by
    intro x
    rw [← (C31_decrypt_mode key x).1]
    exact h3' x
  refine ⟨a, a', enc, dec, h1, h1', h2, h2', ?_, ?_⟩
  · intro g g'
    obtain ⟨n, h, -⟩ := C121_cbc (wbsm4Encrypt enc) (wbsm4Decrypt dec) (fun b => by
      rw [(h3 b).2 g, (hd _).2 g', (C29_sm4_inverse _ b).1]) m iv hne hm ha
    exact ⟨n, h⟩
  · intro hg
    obtain ⟨ps, hps⟩ := exists_blocks m ha
    cases ps with
    | nil => exact absurd hps.symm hne
    | cons p0 ps =>
      obtain ⟨n, h, -⟩ := docCbc_run (wbsm4Encrypt enc) (wbsm4Decrypt dec) m iv _ hps (by simp) hm
      refine ⟨_, n, h, fun e => hg ?_⟩
      rw [← hps] at e
      have e16 := congrArg (List.take 16) e
      simp only [Spec.cbcEncrypt, Spec.cbcDecrypt, fromBlocks, List.flatMap_cons] at e16
      rw [List.take_left' (by simp), List.take_left' (by simp), Vector.toList_inj] at e16
      have hx : wbsm4Decrypt dec (wbsm4Encrypt enc (p0 ^^^ iv)) = p0 ^^^ iv := by
        have := congrArg (fun b : Block => b ^^^ iv) e16
        simpa only [Vec.xor_assoc, Vec.xor_self, Vec.xor_zero] using this
      constructor
      · intro g
        rw [(h3 _).2 g] at hx
        refine (hd (Model.sm4Encrypt (sm4InitKey key .encrypt) (p0 ^^^ iv))).1 ?_
        rw [hx, (C29_sm4_inverse _ _).1]
      · intro g'
        refine (h3 (p0 ^^^ iv)).1 ?_
        rw [(hd _).2 g'] at hx
        have := congrArg (Model.sm4Encrypt (sm4InitKey key .encrypt)) hx
        rwa [(C29_sm4_inverse _ _).2] at this

/-- A message of 11 bytes is refused; one of 16 bytes ending in 2 comes back, with a length of 14. -/
example (E D : Block → Block) (iv : Block) : docCbc E D (List.replicate 11 0x61) iv = none :=
  C121_cbc_refused E D _ iv (by decide) (.inl (by decide))

example (E D : Block → Block) (hDE : ∀ b, D (E b) = b) (iv : Block) :
    docCbc E D (List.replicate 16 2) iv = some (List.replicate 16 2, 14) := by
  obtain ⟨n, h, hn⟩ := C121_cbc E D hDE (List.replicate 16 2) iv (by decide) (by decide) (by decide)
  rw [h, show n = 14 from BitVec.eq_of_toNat_eq (hn.trans (by decide))]

/-- Two garbage memories of which only the first xors to zero. -/
example (r r' : Wbsm4Rnd) (iv : Block) (junk junk' : Nat → WbRound) (h : ∀ k, junkXor (junk k) = 0)
    (h' : ∀ k, junkXor (junk' k) ≠ 0) : ∃ enc dec, wbsm4GenTable r junk .encrypt 1 [] = some enc ∧
      wbsm4GenTable r' junk' .decrypt 1 [] = some dec ∧ ∃ p n,
        docCbc (wbsm4Encrypt enc) (wbsm4Decrypt dec) (List.replicate 16 0x61) iv = some (p, n) ∧ p ≠ List.replicate 16 0x61 := by
  obtain ⟨a, a', enc, dec, -, -, e, d, -, hbad⟩ := C121_wbsm4_cbc r r' junk junk' [] (List.replicate 16 0x61) iv
    (by decide) (by decide) (by decide)
  exact ⟨enc, dec, e, d, hbad fun hi => h' _ (hi.1 (fun k _ => h _) 0 (by decide))⟩

/-! ### GCM -/

theorem finish_length (c : GcmCtx) (n : Nat) (t : List Byte × GcmCtx) (h : gcmFinish c n = some t) : t.1.length = n := by
  unfold gcmFinish at h
  split at h
  · cases h
  · simp only at h
    split at h
    · injection h with h
      rw [← h]
      simp
      omega
    · injection h with h
      rw [← h]
      simp
      omega

/-- C121: whatever happens to the ciphertext on the way, the GCM example decrypts it and ends with `tag_gcm` holding the tag of the
ciphertext that arrived: the tag of the sender, with which the comment in the last line wants it compared, has been
overwritten. -/
theorem C121_gcm (E : Block → Block) (iv aad msg : List Byte) (travel : List Byte → List Byte)
    (hiv : iv.length < 2 ^ 29) (ha : aad.length < 2 ^ 61) (hp : msg.length < 2 ^ 31)
    (ht : ∀ c, (travel c).length = c.length) :
    docGcm E iv aad msg travel = some (gcmCipher E iv (travel (gcmCipher E iv msg)),
      (gcmTag E iv aad (travel (gcmCipher E iv msg))).toList) := by
  generalize hc : travel (gcmCipher E iv msg) = ct
  have hcl : ct.length = msg.length := by rw [← hc, ht, length_gcmCipher]
  have h1 := (gcm_across E iv aad msg (zeroBuf msg.length) (zeroBuf msg.length) msg.length msg.length 16 (by decide) hiv ha hp
    (Nat.le_refl _) (by rw [length_zeroBuf]) (Nat.le_refl _) (by rw [length_zeroBuf])).1
  have h2 := (gcm_across E iv aad (gcmCipher E iv ct) (zeroBuf msg.length) (zeroBuf msg.length) msg.length msg.length 16 (by decide) hiv ha
    (by rw [length_gcmCipher]; omega) (by rw [length_gcmCipher]; omega) (by rw [length_zeroBuf])
    (by rw [length_gcmCipher]; omega) (by rw [length_zeroBuf])).2
  rw [gcmCipher_twice] at h2
  have hz : (zeroBuf msg.length).drop msg.length = [] := List.drop_of_length_le (by rw [length_zeroBuf])
  rw [hz, List.append_nil, List.take_of_length_le (by simp)] at h1
  rw [length_gcmCipher, hcl, hz, List.append_nil, List.take_of_length_le (by simp)] at h2
  unfold sealMsg at h1
  unfold openMsg at h2
  unfold docGcm
  simp only [Option.bind_eq_bind] at h1 h2 ⊢
  cases e1 : gcmEncrypt (gcmAad (gcmSetiv (gcmInit E) iv) aad) msg (zeroBuf msg.length) msg.length with
  | none => rw [e1] at h1; cases h1
  | some r1 =>
    rw [e1] at h1
    simp only [Option.bind_some] at h1 ⊢
    cases e2 : gcmFinish r1.ctx 16 with
    | none => rw [e2] at h1; cases h1
    | some t1 =>
      rw [e2] at h1
      simp only [Option.bind_some] at h1 ⊢
      obtain ⟨a1, a2⟩ := some_triple h1
      rw [a1, hc]
      cases e3 : gcmDecrypt (gcmAad (gcmSetiv (gcmInit E) iv) aad) ct (zeroBuf msg.length) msg.length with
      | none => rw [e3] at h2; cases h2
      | some r2 =>
        rw [e3] at h2
        simp only [Option.bind_some] at h2 ⊢
        cases e4 : gcmFinish r2.ctx 16 with
        | none => rw [e4] at h2; cases h2
        | some t2 =>
          rw [e4] at h2
          simp only [Option.bind_some] at h2 ⊢
          obtain ⟨b1, b2⟩ := some_triple h2
          rw [b1, b2, List.drop_of_length_le (by rw [finish_length _ _ _ e2]), List.append_nil]

/-- An attacker who changes the first byte: the program shows a message with that byte changed and no other difference that
it could have noticed. -/
example (E : Block → Block) := C121_gcm E [1] [2] [0x61, 0x62] (fun c => c.set 0 (c.headD 0 ^^^ 1)) (by decide) (by decide)
  (by decide) (fun c => List.length_set)

/-! ### FF1 and FF3 -/

/-- C121: the FPE example has no room for the terminator when `cipher` is as large as the number of characters, and its FF3 half
reads outside a tweak of fewer than eight bytes ("可为空": may be empty, say the documents); otherwise both halves give the input back. -/
theorem C121_fpe (E : Block → Block) (lg : Nat → Nat → Nat) (hlg : LgOk lg) (tweak : List Byte) (radix : Nat)
    (input : List Byte) (cap : Nat) (h2 : 2 ≤ radix) (h36 : radix ≤ 36) (hn : 2 ≤ input.length)
    (hs : ∀ c ∈ input, IsNumeral radix c) :
    (cap ≤ input.length → docFf1 E lg tweak radix input cap = none) ∧
    (tweak.length < 8 → ∀ cipher plain, docFf3 E lg tweak radix input cipher plain = none) ∧
    (docFpe E lg tweak radix input cap ≠ none ↔ input.length < cap ∧ 8 ≤ tweak.length) ∧
    (input.length < cap → 8 ≤ tweak.length → ∃ cipher1 plain1 cipher3 plain3,
      docFf1 E lg tweak radix input cap = some (cipher1, plain1) ∧ cstr plain1 = some input ∧
      docFf3 E lg tweak radix input cipher1 plain1 = some (cipher3, plain3) ∧ cstr plain3 = some input) := by
  have hi : fpeInit tweak radix E = some ⟨E, radix, tweak⟩ := by
    unfold fpeInit
    rw [if_neg (by omega)]
  have hz : ∀ c ∈ input, c ≠ 0 := fun c hc => numeral_ne_zero c (hs c hc)
  have p1 : cap ≤ input.length → docFf1 E lg tweak radix input cap = none := by
    intro hc
    unfold docFf1
    rw [hi, Option.bind_some, (no_room ⟨E, radix, tweak⟩ lg input [] (zeroBuf cap) hz (by rw [length_zeroBuf]; exact hc)).1]
    rfl
  have p2 : tweak.length < 8 → ∀ cipher plain, docFf3 E lg tweak radix input cipher plain = none := by
    intro ht cipher plain
    unfold docFf3
    rw [hi, Option.bind_some, (C49_ff3_short_tweak tweak radix E _ hi ht lg (input ++ [0]) cipher).1]
    rfl
  have p4 : input.length < cap → 8 ≤ tweak.length → ∃ cipher1 plain1 cipher3 plain3,
      docFf1 E lg tweak radix input cap = some (cipher1, plain1) ∧ cstr plain1 = some input ∧
      docFf3 E lg tweak radix input cipher1 plain1 = some (cipher3, plain3) ∧ cstr plain3 = some input := by
    intro hc ht
    obtain ⟨c1, l1, n1, e1, d1⟩ := engine_fwd ⟨E, .ff1⟩ lg hlg radix h2 h36 E tweak input (show _ ∧ _ by omega) hs
    obtain ⟨c3, l3, n3, e3, d3⟩ := engine_fwd ⟨E, .ff3⟩ lg hlg radix h2 h36 E tweak input (show _ ∧ _ by omega) hs
    simp only [encFn, decFn] at e1 d1 e3 d3
    refine ⟨c1 ++ 0 :: (zeroBuf cap).drop (input.length + 1), input ++ 0 :: (zeroBuf cap).drop (input.length + 1),
      c3 ++ 0 :: (c1 ++ 0 :: (zeroBuf cap).drop (input.length + 1)).drop (input.length + 1),
      input ++ 0 :: (input ++ 0 :: (zeroBuf cap).drop (input.length + 1)).drop (input.length + 1),
      ?_, cstr_append input _ hz, ?_, cstr_append input _ hz⟩
    · unfold docFf1
      rw [hi, Option.bind_some, e1 [] _ (by rw [length_zeroBuf]; exact hc), Option.bind_some,
        d1 _ _ (by rw [length_zeroBuf]; exact hc), Option.bind_some]
    · unfold docFf3
      rw [hi, Option.bind_some, e3 [] _ (by simp [l1]), Option.bind_some,
        d3 _ _ (by simp), Option.bind_some]
  refine ⟨p1, p2, ⟨fun h => ⟨?_, ?_⟩, fun h => ?_⟩, p4⟩
  · by_contra hc
    exact h (by unfold docFpe; rw [p1 (by omega)]; rfl)
  · by_contra ht
    refine h ?_
    unfold docFpe
    cases docFf1 E lg tweak radix input cap with
    | none => rfl
    | some b => exact p2 (by omega) _ _
  · obtain ⟨c1, q1, c3, q3, a, -, b, -⟩ := p4 h.1 h.2
    unfold docFpe
    rw [a, Option.bind_some, b]
    simp

/-- "0123456789" in radix 12 with `char cipher[10]` and `tweak[] = {}`, as the document has it: not defined. -/
example (E : Block → Block) : docFpe E (fun r k => Nat.clog 2 (r ^ k)) [] 12
    [0x30, 0x31, 0x32, 0x33, 0x34, 0x35, 0x36, 0x37, 0x38, 0x39] 10 = none := by
  have h := (C121_fpe E _ lgOk_clog [] 12 [0x30, 0x31, 0x32, 0x33, 0x34, 0x35, 0x36, 0x37, 0x38, 0x39] 10 (by decide) (by decide)
    (by decide) (by decide)).2.2.1
  by_contra hc
  exact absurd (h.1 hc).1 (by decide)

/-! ### the application examples -/

theorem docApp_run (enc dec : Nat → AppFn) (text sample o o' : List Byte) (cap : Nat)
    (ht : ∀ c ∈ text, c ≠ 0) (ho : ∀ c ∈ o, c ≠ 0) (ho' : ∀ c ∈ o', c ≠ 0) (l1 : o.length = text.length)
    (hc : text.length < cap)
    (e1 : ∀ i after, text.length ≤ after.length → enc i (text ++ [0]) [0] after = some (o ++ after.drop text.length))
    (d1 : ∀ i rest after, text.length ≤ after.length →
      dec i (o ++ 0 :: rest) [0] after = some (text ++ after.drop text.length))
    (e2 : ∀ i after, text.length ≤ after.length →
      enc i (text ++ [0]) (sample ++ [0]) after = some (o' ++ after.drop text.length))
    (d2 : ∀ i rest after, text.length ≤ after.length →
      dec i (o' ++ 0 :: rest) (sample ++ [0]) after = some (text ++ after.drop text.length)) :
    docApp enc dec text sample cap = some [o, text, o', text] := by
  unfold docApp
  rw [e1 0 _ (by rw [length_zeroBuf]; omega), Option.bind_some, zeroBuf_drop _ _ hc, cstr_append o _ ho, Option.bind_some,
    d1 1 _ _ (by rw [length_zeroBuf]; omega), Option.bind_some, zeroBuf_drop _ _ hc, cstr_append text _ ht, Option.bind_some,
    e2 2 _ (by simp; omega), Option.bind_some, List.drop_left' l1, cstr_append o' _ ho', Option.bind_some,
    d2 3 _ _ (by simp), Option.bind_some, List.drop_left' rfl, cstr_append text _ ht, Option.bind_some]

/-- C121: the telephone number example with FF1 prints, for every number of at most 19 digits and every sample of at least its length with
two asterisks, whatever the uninitialised memory holds: some digits, the number, the number with other digits
in the places of the asterisks, the number. -/
theorem C121_phone (app : FpeApp) (hf : app.ffx = .ff1) (lg : Nat → Nat → Nat) (hlg : LgOk lg) (mem : Nat → AppMem)
    (text sample : List Byte) (hd : ∀ c ∈ text, IsNumeral 10 c) (hs0 : ∀ c ∈ sample, c ≠ 0) (h2 : 2 ≤ text.length)
    (h20 : text.length < 20) (hl : text.length ≤ sample.length) (hk : 2 ≤ (sample.take text.length).count 0x2a)
    (hm : ∀ i, 1 ≤ (mem i).slack) :
    ∃ o o', docPhone app lg mem text sample = some [o, text, o', text] ∧ o.length = text.length ∧ o'.length = text.length ∧
      (∀ c ∈ o, IsNumeral 10 c) ∧ (∀ c ∈ o', IsNumeral 10 c) ∧
      ∀ i : Nat, sample[i]? ≠ some 0x2a → o'[i]? = text[i]? := by
  have ht : ∀ c ∈ text, c ≠ 0 := fun c hc => numeral_ne_zero c (hd c hc)
  have hne : sample ≠ [] := by
    rintro rfl
    simp at hl
    simp [hl] at h2
  have hh : ∀ smp, ∀ i (hi : i < text.length), Hidden smp i → IsNumeral 10 text[i] := fun _ i hi _ => hd _ (List.getElem_mem _)
  obtain ⟨o, l1, z1, s1, f1, g1⟩ := phone_core app text [] ht (by simp) (.inl rfl) _ _
    (inverts_fwd app lg hlg [] text (.inl rfl) (hh []) (by unfold HiddenOk; rw [hf]; exact h2))
  obtain ⟨o', l2, z2, s2, f2, g2⟩ := phone_core app text sample ht hs0 (.inr hl) _ _
    (inverts_fwd app lg hlg sample text (.inr hl) (hh sample)
      (by unfold HiddenOk hiddenCount; rw [hf, if_neg hne]; exact hk))
  obtain ⟨-, n1⟩ := shown_kept (.inl rfl) l1 s1
  obtain ⟨k2, n2⟩ := shown_kept (.inr hl) l2 s2
  refine ⟨o, o', ?_, l1, l2, ?_, ?_, ?_⟩
  · exact docApp_run _ _ text sample o o' 20 ht z1 z2 l1 h20
      (fun i after h => f1 (mem i) [] [] after (hm i) h) (fun i rest after h => g1 (mem i) rest [] after (hm i) h)
      (fun i after h => f2 (mem i) [] [] after (hm i) h) (fun i rest after h => g2 (mem i) rest [] after (hm i) h)
  · intro c hc
    obtain ⟨i, hi, rfl⟩ := List.mem_iff_getElem.1 hc
    exact n1 i hi (.inl rfl)
  · intro c hc
    obtain ⟨i, hi, rfl⟩ := List.mem_iff_getElem.1 hc
    by_cases hst : Hidden sample i
    · exact n2 i hi hst
    · have := k2 i hst
      rw [List.getElem?_eq_getElem hi, List.getElem?_eq_getElem (by omega)] at this
      rw [Option.some.inj this]
      exact hd _ (List.getElem_mem _)
  · intro i hi
    exact k2 i (fun h => h.elim hne hi)

/-- "13888888888" with "138********". -/
example (E : Block → Block) (mem : Nat → AppMem) (hm : ∀ i, 1 ≤ (mem i).slack) := C121_phone ⟨E, .ff1⟩ rfl _ lgOk_clog mem
  [0x31, 0x33, 0x38, 0x38, 0x38, 0x38, 0x38, 0x38, 0x38, 0x38, 0x38]
  [0x31, 0x33, 0x38, 0x2a, 0x2a, 0x2a, 0x2a, 0x2a, 0x2a, 0x2a, 0x2a] (by decide) (by decide) (by decide) (by decide) (by decide)
  (by decide) hm

/-- C121: the identity number example with FF1, in the same way; a final `X` stays where it is. -/
theorem C121_idcard (app : FpeApp) (hf : app.ffx = .ff1) (lg : Nat → Nat → Nat) (hlg : LgOk lg) (mem : Nat → AppMem)
    (body tail sample : List Byte) (hform : CardForm body tail) (hd : ∀ c ∈ body, IsNumeral 10 c)
    (hs0 : ∀ c ∈ sample, c ≠ 0) (h2 : 2 ≤ body.length)
    (h20 : (body ++ tail).length < 20) (hl : body.length ≤ sample.length) (hk : 2 ≤ (sample.take body.length).count 0x2a)
    (hm : ∀ i, 1 ≤ (mem i).slack) :
    ∃ o o', docIdcard app lg mem (body ++ tail) sample = some [o ++ tail, body ++ tail, o' ++ tail, body ++ tail] ∧
      o.length = body.length ∧ o'.length = body.length ∧ (∀ c ∈ o, IsNumeral 10 c) ∧ (∀ c ∈ o', IsNumeral 10 c) ∧
      ∀ i : Nat, sample[i]? ≠ some 0x2a → o'[i]? = body[i]? := by
  have ht : ∀ c ∈ body, c ≠ 0 := fun c hc => numeral_ne_zero c (hd c hc)
  have hne : sample ≠ [] := by
    rintro rfl
    simp at hl
    simp [hl] at h2
  have hh : ∀ smp, ∀ i (hi : i < body.length), Hidden smp i → IsNumeral 10 body[i] := fun _ i hi _ => hd _ (List.getElem_mem _)
  obtain ⟨o, l1, -, n1, f1, g1⟩ := C55_idcard app lg hlg body tail [] hform ht (by simp) (.inl rfl) (hh [])
    (by unfold HiddenOk; rw [hf]; exact h2)
  obtain ⟨o', l2, k2, n2, f2, g2⟩ := C55_idcard app lg hlg body tail sample hform ht hs0 (.inr hl) (hh sample)
    (by unfold HiddenOk hiddenCount; rw [hf, if_neg hne]; exact hk)
  have hn1 : ∀ c ∈ o, IsNumeral 10 c := by
    intro c hc
    obtain ⟨i, hi, rfl⟩ := List.mem_iff_getElem.1 hc
    exact n1 i hi (.inl rfl)
  have hn2 : ∀ c ∈ o', IsNumeral 10 c := by
    intro c hc
    obtain ⟨i, hi, rfl⟩ := List.mem_iff_getElem.1 hc
    by_cases hst : Hidden sample i
    · exact n2 i hi hst
    · have := k2 i hst
      rw [List.getElem?_eq_getElem hi, List.getElem?_eq_getElem (by omega)] at this
      rw [Option.some.inj this]
      exact hd _ (List.getElem_mem _)
  have htz : ∀ c ∈ tail, c ≠ 0 := by
    intro c hc
    rcases hform with rfl | ⟨rfl, _⟩
    · rw [List.mem_singleton.1 hc]; decide
    · cases hc
  have happ : ∀ l : List Byte, (∀ c ∈ l, IsNumeral 10 c) → ∀ c ∈ l ++ tail, c ≠ 0 := fun l hl c hc =>
    (List.mem_append.1 hc).elim (fun h => numeral_ne_zero c (hl c h)) (htz c)
  refine ⟨o, o', ?_, l1, l2, hn1, hn2, fun i hi => k2 i (fun h => h.elim hne hi)⟩
  exact docApp_run _ _ (body ++ tail) sample (o ++ tail) (o' ++ tail) 20 (happ body hd) (happ o hn1) (happ o' hn2)
      (by simp [l1]) h20
      (fun i after h => f1 (mem i) [] [] after (hm i) h) (fun i rest after h => g1 (mem i) rest [] after (hm i) h)
      (fun i after h => f2 (mem i) [] [] after (hm i) h) (fun i rest after h => g2 (mem i) rest [] after (hm i) h)

/-- "40000000000000000X" with "4412**********1234". -/
example (E : Block → Block) (mem : Nat → AppMem) (hm : ∀ i, 1 ≤ (mem i).slack) := C121_idcard ⟨E, .ff1⟩ rfl _ lgOk_clog mem
  (0x34 :: List.replicate 16 0x30) [0x58]
  ([0x34, 0x34, 0x31, 0x32] ++ List.replicate 10 0x2a ++ [0x31, 0x32, 0x33, 0x34]) (.inl rfl) (by decide) (by decide) (by decide)
  (by decide) (by decide) (by decide) hm

/-- C121: the address example, where the sample has fewer characters than the text (14 for 15 in the documents).  If the
uninitialised tweak bytes are the same in the last two calls, the program prints the text again and seems to work: but the end of the
text shown comes from the earlier calls without sample, through the reused buffers, and whoever decrypts the third output into
a fresh buffer gets the text without its end. -/
theorem C121_cn (app : FpeApp) (hf : app.ffx = .ff1) (lg : Nat → Nat → Nat) (hlg : LgOk lg) (mem : Nat → AppMem)
    (cps : List Nat) (items : List (Option (Byte × Byte × Byte))) (hr : ∀ cp ∈ cps, InCnRange cp) (hok : SampleOk items)
    (hne : items ≠ []) (hlt : items.length < cps.length) (h1 : none ∈ items) (hcap : 3 * cps.length < 100)
    (hm : ∀ i, 1 ≤ (mem i).slack) (hj : (mem 2).tweak = (mem 3).tweak) :
    ∃ o o' : List Nat, o.length = cps.length ∧ o'.length = items.length ∧ (∀ cp ∈ o ++ o', InCnRange cp) ∧
      (∀ (i : Nat) (t : Byte × Byte × Byte), items[i]? = some (some t) → o'[i]? = cps[i]?) ∧
      docCn app lg mem (utf8Text cps) (sampleOf items) =
        some [utf8Text o, utf8Text cps, utf8Text (o' ++ o.drop items.length), utf8Text cps] ∧
      ∀ m : AppMem, 1 ≤ m.slack → m.tweak = (mem 2).tweak → ∀ rest,
        decryptCn app lg m (utf8Text (o' ++ o.drop items.length) ++ 0 :: rest) (sampleOf items ++ [0]) (zeroBuf 100) =
          some (utf8Text (cps.take items.length) ++ zeroBuf (100 - 3 * items.length)) := by
  obtain ⟨o, l1, r1, -, f1, g1⟩ := C56_cn_roundtrip app lg hlg cps [] (List.replicate cps.length false) hr (.inl ⟨rfl, rfl⟩)
    (by unfold CnOk; rw [hf]; simp; omega)
  obtain ⟨o', l2, r2, k2, f2, g2⟩ := cn_short_core app lg hlg (mem 2).tweak cps items hr hok hne (Nat.le_of_lt hlt) h1
    (fun h => by rw [hf] at h; cases h)
  have hod : ∀ cp ∈ o.drop items.length, InCnRange cp := fun c hc => r1 c (List.mem_of_mem_drop hc)
  have hl3 : items.length + (o.drop items.length).length = cps.length := by rw [List.length_drop]; omega
  have hro : ∀ cp ∈ o' ++ o.drop items.length, InCnRange cp := fun c hc => (List.mem_append.1 hc).elim (r2 c) (hod c)
  refine ⟨o, o', l1, l2, fun c hc => (List.mem_append.1 hc).elim (r1 c) (r2 c), k2, ?_, ?_⟩
  · have c1 := f1 (mem 0) [] [] (zeroBuf 100) (hm 0) (by rw [length_zeroBuf]; omega)
    have c2 := fun rest => g1 (mem 1) rest [] (zeroBuf 100) (hm 1) (by rw [length_zeroBuf]; omega)
    have c3 := fun after h => f2 (mem 2) (cps.drop items.length) [] [] after rfl (hm 2)
      (fun c hc => hr c (List.mem_of_mem_drop hc)) (by rw [List.length_drop]; omega) h
    have c4 := fun rest after h => g2 (mem 3) (o.drop items.length) rest [] after hj.symm (hm 3) hod hl3 h
    rw [List.take_append_drop] at c3
    rw [zeroBuf_drop _ _ hcap] at c1 c2
    have hd3 : ∀ (l : List Nat) (rest : List Byte), (utf8Text l ++ 0 :: rest).drop (3 * items.length) =
        utf8Text (l.drop items.length) ++ 0 :: rest ∨ l.length < items.length := by
      intro l rest
      rcases Nat.lt_or_ge l.length items.length with h | h
      · exact .inr h
      · left
        rw [utf8Text_take_drop l items.length, List.append_assoc, List.drop_left' (by
          rw [length_utf8Text, List.length_take, Nat.min_eq_left h])]
    have hj1 : ∀ (a b : List Nat) (rest : List Byte), utf8Text a ++ (utf8Text b ++ 0 :: rest) = utf8Text (a ++ b) ++ 0 :: rest := by
      intro a b rest
      rw [utf8Text, utf8Text, utf8Text, List.flatMap_append, List.append_assoc]
    simp only [List.nil_append] at c1 c2
    unfold docCn docApp
    simp only
    rw [c1, Option.bind_some, cstr_append _ _ (utf8Text_ne_zero o r1), Option.bind_some, c2, Option.bind_some,
      cstr_append _ _ (utf8Text_ne_zero cps hr), Option.bind_some,
      c3 _ (by rw [List.length_append, length_utf8Text]; omega), Option.bind_some,
      (hd3 o _).resolve_right (by omega), hj1, cstr_append _ _ (utf8Text_ne_zero _ hro), Option.bind_some,
      c4 _ _ (by rw [List.length_append, length_utf8Text]; omega), Option.bind_some,
      (hd3 cps _).resolve_right (by omega), hj1, List.take_append_drop, cstr_append _ _ (utf8Text_ne_zero cps hr), Option.bind_some]
  · intro m hs ht rest
    rw [g2 m (o.drop items.length) rest [] (zeroBuf 100) ht hs hod hl3 (by rw [length_zeroBuf]; omega)]
    unfold zeroBuf
    rw [List.drop_replicate]

/-- A text of 15 characters with "**省**市**区*****", 14 characters. -/
example (E : Block → Block) (mem : Nat → AppMem) (hm : ∀ i, 1 ≤ (mem i).slack) (hj : (mem 2).tweak = (mem 3).tweak) :=
  C121_cn ⟨E, .ff1⟩ rfl _ lgOk_clog mem
    [0x5E7F, 0x4E1C, 0x7701, 0x5E7F, 0x5DDE, 0x5E02, 0x5929, 0x6CB3, 0x533A, 0x534E, 0x5357, 0x5E08, 0x8303, 0x5927, 0x5B66]
    [none, none, some (0xE7, 0x9C, 0x81), none, none, some (0xE5, 0xB8, 0x82), none, none, some (0xE5, 0x8C, 0xBA),
      none, none, none, none, none] (by unfold InCnRange; decide)
    (by intro a b c hm; simp at hm; rcases hm with h | h | h <;> simp [h]) (by decide) (by decide) (by decide) (by decide) hm hj

/-- C121: with FF3, which the documents name as the other choice, none of the three application examples is defined, whatever
number, text, sample and memory: already the first call, without a sample, has a tweak of one byte. -/
theorem C121_ff3 (app : FpeApp) (hf : app.ffx = .ff3) (lg : Nat → Nat → Nat) (mem : Nat → AppMem) (sample : List Byte) :
    (∀ text : List Byte, (∀ c ∈ text, c ≠ 0) → docPhone app lg mem text sample = none) ∧
    (∀ body tail : List Byte, CardForm body tail → (∀ c ∈ body, c ≠ 0) → docIdcard app lg mem (body ++ tail) sample = none) ∧
    (∀ cps : List Nat, (∀ cp ∈ cps, InCnRange cp) → docCn app lg mem (utf8Text cps) sample = none) := by
  refine ⟨fun text ht => ?_, fun body tail hform hb => ?_, fun cps hr => ?_⟩
  · have h := (C54_phone_ff3_tweak app lg (mem 0) text [] [] [] (zeroBuf 20) ht (by simp) (.inl rfl) hf
      (by simp [hiddenCount])).1
    unfold docPhone docApp
    simp only
    rw [show encryptPhone app lg (mem 0) (text ++ [0]) [0] (zeroBuf 20) = none from h]
    rfl
  · have h := (C55_idcard_ff3_tweak app lg (mem 0) body tail [] [] [] (zeroBuf 20) hform hb (by simp) (.inl rfl) hf
      (by simp [hiddenCount])).1
    unfold docIdcard docApp
    simp only
    rw [show encryptIdcard app lg (mem 0) (body ++ tail ++ [0]) [0] (zeroBuf 20) = none from h]
    rfl
  · have h := (C56_cn_ff3_tweak app lg (mem 0) cps [] [] [] (zeroBuf 100) (List.replicate cps.length false) hr
      (.inl ⟨rfl, rfl⟩) hf (by rw [List.count_eq_zero.2 (by simp)]; decide)).1
    unfold docCn docApp
    simp only
    rw [show encryptCn app lg (mem 0) (utf8Text cps ++ [0]) [0] (zeroBuf 100) = none from h]
    rfl

/-! ### key exchange -/

/-- C121: the key import example ("the parameters of this initialisation do not matter"): reading the file of a context with `d` groups
of dummy rounds into a context made for `d'` groups is defined exactly if `d ≤ d'`, and then the received context computes
what the sender's does. -/
theorem C121_import (sender found : Wbsm4Mem) (d d' : Nat) (hr : sender.rounds = BitVec.ofNat 32 (32 + 4 * d)) (hd : d < 2 ^ 28) :
    (docImport sender d' found ≠ none ↔ d ≤ d') ∧
    (d ≤ d' → ∃ m, docImport sender d' found = some (true, m) ∧
      ∀ x, wbsm4Encrypt m.toCtx x = wbsm4Encrypt sender.toCtx x) := by
  have hb : loopBound sender.rounds = 32 + 4 * d := by
    unfold loopBound
    rw [hr, BitVec.toInt_eq_toNat_cond, BitVec.toNat_ofNat, Nat.mod_eq_of_lt (by omega), if_pos (by omega)]
    rfl
  have h2 : d ≤ d' → ∃ m, docImport sender d' found = some (true, m) ∧
      ∀ x, wbsm4Encrypt m.toCtx x = wbsm4Encrypt sender.toCtx x := by
    intro h
    obtain ⟨m, e, -, -, -, hc⟩ := C39_round_trip (32 + 4 * d') sender found (by omega)
    exact ⟨m, e, (hc (by omega)).2⟩
  refine ⟨⟨fun h => ?_, fun h => ?_⟩, h2⟩
  · by_contra hc
    exact h (C39_more_rounds (32 + 4 * d') sender found (by omega))
  · obtain ⟨m, e, -⟩ := h2 h
    rw [e]
    simp

/-- A context made with two groups, imported into one made with one group, as in the document. -/
example (sender found : Wbsm4Mem) (hr : sender.rounds = 40) : docImport sender 1 found = none := by
  by_contra h
  exact absurd ((C121_import sender found 2 1 hr (by decide)).1.1 h) (by decide)

end Verif.Props
