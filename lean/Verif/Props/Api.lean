import Verif.Model.Api
import Verif.Props.AesWrap
import Verif.Props.Cbc
import Verif.Props.FpeMac
import Verif.Props.GcmFile
import Verif.Props.Wbaes
import Verif.Props.Wbsm4

/-! C68-C72: the mode functions of the public interface, and interoperation of white-box and plain contexts. -/
set_option autoImplicit false

namespace Verif.Props
open Verif Spec Model

theorem cbcEncryptWrapper_eq (E : Block → Block) (moved : Bool) (m out : List Byte) (maxOlen : Nat) (iv : Block) :
    cbcEncryptWrapper E moved m out maxOlen iv = Model.cbcEncrypt E moved m out maxOlen iv := by
  have h : ∀ r, Model.cbcEncrypt E moved m out maxOlen iv = some r → r.ret = 0 ∨ r.ret = 1 := by
    intro r hr
    unfold Model.cbcEncrypt at hr
    simp only [Option.bind_eq_bind, Option.bind_eq_some_iff] at hr
    obtain ⟨a, -, hr⟩ := hr
    split at hr
    · injection hr with hr; subst hr; exact .inl rfl
    · split at hr
      · cases hr
      · obtain ⟨b, -, hr⟩ := Option.bind_eq_some_iff.1 hr
        injection hr with hr; subst hr; exact .inr rfl
  unfold cbcEncryptWrapper
  cases hc : Model.cbcEncrypt E moved m out maxOlen iv with
  | none => rfl
  | some r =>
    show (if r.ret = 0 then _ else _) = _
    rcases h r hc with h0 | h1
    · rw [if_pos h0, ← h0]
    · rw [if_neg (by omega), ← h1]

theorem sm4Encrypt_ctx (key : Block) : Model.sm4Encrypt (sm4InitKey key.toList .encrypt) = Spec.sm4Encrypt key :=
  funext fun x => (C30_sm4_standard key x).1

theorem sm4Decrypt_ctx (key : Block) : Model.sm4Decrypt (sm4InitKey key.toList .encrypt) = Spec.sm4Decrypt key :=
  funext fun x => (C30_sm4_standard key x).2

theorem sm4_spec_inverse (key x : Block) :
    Spec.sm4Decrypt key (Spec.sm4Encrypt key x) = x ∧ Spec.sm4Encrypt key (Spec.sm4Decrypt key x) = x := by
  rw [← sm4Encrypt_ctx, ← sm4Decrypt_ctx]
  exact C29_sm4_inverse _ x

/-- C68: `WBCRYPTO_sm4_cbc_encrypt` is SM4 (GB/T 32907) in CBC mode on the padded message. -/
theorem C68_sm4_cbc (key : Block) (m out : List Byte) (maxOlen : Nat) (iv : Block)
    (ps : List Block) (hps : fromBlocks ps = Spec.pkcs7 m) (hm : m.length < 2 ^ 31 - 16)
    (hcap : (Spec.pkcs7 m).length ≤ maxOlen) (hout : maxOlen ≤ out.length) :
    sm4CbcEncrypt (sm4InitKey key.toList .encrypt) false m out maxOlen iv = some
      { ret := 1,
        out := fromBlocks (Spec.cbcEncrypt (Spec.sm4Encrypt key) iv ps) ++ out.drop (16 * ps.length),
        useOlen := some (BitVec.ofNat 64 (16 * ps.length)),
        ivec := iv } := by
  unfold sm4CbcEncrypt
  rw [cbcEncryptWrapper_eq, sm4Encrypt_ctx]
  exact C03_cbc_encrypt _ m out maxOlen iv ps hps hm hcap hout

/-- C68: the same for AES-128 and white-box AES. -/
theorem C68_aes_cbc (key : Block) (keylen : Nat) (r : WbaesRnd) (ro : Fin 16 → Fin 2 → Nat → BitVec 32)
    (m out : List Byte) (maxOlen : Nat) (iv : Block)
    (ps : List Block) (hps : fromBlocks ps = Spec.pkcs7 m) (hm : m.length < 2 ^ 31 - 16)
    (hcap : (Spec.pkcs7 m).length ≤ maxOlen) (hout : maxOlen ≤ out.length) :
    ∃ ctx res, aesInitKey key.toList keylen = some ctx ∧ aesCbcEncrypt ctx false m out maxOlen iv = some res ∧
      wbaesCbcEncrypt (wbaesGenTable r ro key) false m out maxOlen iv = some res ∧ res.ret = 1 ∧
      res.out = fromBlocks (Spec.cbcEncrypt (aes128 key) iv ps) ++ out.drop (16 * ps.length) ∧
      res.useOlen = some (BitVec.ofNat 64 (16 * ps.length)) := by
  obtain ⟨k, ctx, hk, hctx, hE⟩ := C61_aes_encrypt key.toList keylen (by simp)
  have hk' : k = key := by
    apply Vector.toList_inj.1
    rw [hk]; simp
  subst hk'
  refine ⟨ctx, { ret := 1, out := fromBlocks (Spec.cbcEncrypt (aes128 k) iv ps) ++ out.drop (16 * ps.length),
                 useOlen := some (BitVec.ofNat 64 (16 * ps.length)), ivec := iv }, hctx, ?_, ?_, rfl, rfl, rfl⟩
  · unfold aesCbcEncrypt
    rw [cbcEncryptWrapper_eq, funext hE]
    exact C03_cbc_encrypt _ m out maxOlen iv ps hps hm hcap hout
  · unfold wbaesCbcEncrypt
    rw [cbcEncryptWrapper_eq, funext (C41_wbaes_is_aes r ro k)]
    exact C03_cbc_encrypt _ m out maxOlen iv ps hps hm hcap hout

/-- C68: with one context, `WBCRYPTO_sm4_cbc_decrypt` returns the message and its length. -/
theorem C68_sm4_cbc_roundtrip (key : List Byte) (m out out' : List Byte) (iv : Block)
    (hm : m.length < 2 ^ 31 - 16) (hu : m.length % 16 ≠ 0)
    (hout : (Spec.pkcs7 m).length ≤ out.length) (hout' : (Spec.pkcs7 m).length ≤ out'.length) :
    ∃ r n r', sm4CbcEncrypt (sm4InitKey key .encrypt) false m out out.length iv = some r ∧ r.ret = 1 ∧
      r.useOlen = some (BitVec.ofNat 64 n) ∧
      sm4CbcDecrypt (sm4InitKey key .encrypt) r.out n out' out'.length iv = some r' ∧ r'.ret = 1 ∧
      r'.useOlen = some (BitVec.ofNat 64 m.length) ∧ r'.out.take m.length = m := by
  obtain ⟨r, n, r', h1, h2, h3, -, h5⟩ := C04_cbc_roundtrip (Model.sm4Encrypt (sm4InitKey key .encrypt))
    (Model.sm4Decrypt (sm4InitKey key .encrypt)) (fun b => (C29_sm4_inverse _ b).1) m out out' iv hm hu hout hout'
  refine ⟨r, n, r', ?_, h2, h3, h5⟩
  unfold sm4CbcEncrypt
  rw [cbcEncryptWrapper_eq]
  exact h1

example : ∃ ps, fromBlocks ps = Spec.pkcs7 [1, 2, 3] ∧ (Spec.pkcs7 [1, 2, 3]).length ≤ 16 :=
  ⟨[#v[1, 2, 3, 13, 13, 13, 13, 13, 13, 13, 13, 13, 13, 13, 13, 13]], by decide⟩

/-! ### white-box SM4 -/

theorem wbsm4_ctx (r : Wbsm4Rnd) (junk : Nat → WbRound) (mode : EncMode) (key : List Byte) :
    ∃ ctx, wbsm4GenTable r junk mode 0 key = some ctx ∧ wbsm4Encrypt ctx = Model.sm4Encrypt (sm4InitKey key mode) := by
  obtain ⟨ctx, h, e⟩ := no_dummy r junk mode key
  exact ⟨ctx, h, funext e⟩

/-- C69: the CBC functions of white-box SM4 (an encryption-mode context to encrypt, a decryption-mode context to decrypt, no
dummy rounds) do exactly what the CBC functions of SM4 do, on all inputs. -/
theorem C69_wbsm4_cbc (r r' : Wbsm4Rnd) (junk junk' : Nat → WbRound) (key : List Byte) :
    ∃ enc dec, wbsm4GenTable r junk .encrypt 0 key = some enc ∧ wbsm4GenTable r' junk' .decrypt 0 key = some dec ∧
      (∀ moved m out maxOlen iv, wbsm4CbcEncrypt enc moved m out maxOlen iv =
        sm4CbcEncrypt (sm4InitKey key .encrypt) moved m out maxOlen iv) ∧
      (∀ inp inlen out maxOlen iv, wbsm4CbcDecrypt dec inp inlen out maxOlen iv =
        sm4CbcDecrypt (sm4InitKey key .encrypt) inp inlen out maxOlen iv) := by
  obtain ⟨enc, h1, e1⟩ := wbsm4_ctx r junk .encrypt key
  obtain ⟨dec, h2, e2⟩ := wbsm4_ctx r' junk' .decrypt key
  refine ⟨enc, dec, h1, h2, fun moved m out maxOlen iv => ?_, fun inp inlen out maxOlen iv => ?_⟩
  · unfold wbsm4CbcEncrypt sm4CbcEncrypt
    rw [e1]
  · unfold wbsm4CbcDecrypt sm4CbcDecrypt
    rw [show wbsm4Decrypt dec = Model.sm4Decrypt (sm4InitKey key .encrypt) from
      e2.trans (funext fun x => (C31_decrypt_mode key x).1)]

/-- C69: a message encrypted by the white box is decrypted by SM4, and the reverse. -/
theorem C69_wbsm4_cbc_across (r r' : Wbsm4Rnd) (junk junk' : Nat → WbRound) (key : List Byte)
    (m out out' : List Byte) (iv : Block) (hm : m.length < 2 ^ 31 - 16) (hu : m.length % 16 ≠ 0)
    (hout : (Spec.pkcs7 m).length ≤ out.length) (hout' : (Spec.pkcs7 m).length ≤ out'.length) :
    ∃ enc dec c n p, wbsm4GenTable r junk .encrypt 0 key = some enc ∧ wbsm4GenTable r' junk' .decrypt 0 key = some dec ∧
      wbsm4CbcEncrypt enc false m out out.length iv = some c ∧ c.ret = 1 ∧ c.useOlen = some (BitVec.ofNat 64 n) ∧
      sm4CbcEncrypt (sm4InitKey key .encrypt) false m out out.length iv = some c ∧
      sm4CbcDecrypt (sm4InitKey key .encrypt) c.out n out' out'.length iv = some p ∧
      wbsm4CbcDecrypt dec c.out n out' out'.length iv = some p ∧ p.ret = 1 ∧
      p.useOlen = some (BitVec.ofNat 64 m.length) ∧ p.out.take m.length = m := by
  obtain ⟨enc, dec, h1, h2, h3, h4⟩ := C69_wbsm4_cbc r r' junk junk' key
  obtain ⟨c, n, p, a1, a2, a3, a4, a5, a6, a7⟩ := C68_sm4_cbc_roundtrip key m out out' iv hm hu hout hout'
  exact ⟨enc, dec, c, n, p, h1, h2, (h3 ..).trans a1, a2, a3, a1, a4, (h4 ..).trans a4, a5, a6, a7⟩

example : ([1, 2, 3] : List Byte).length % 16 ≠ 0 ∧ (Spec.pkcs7 [1, 2, 3]).length ≤ (List.replicate 16 (0 : Byte)).length := by
  decide

/-- One-block messages: what comes back is the message exactly if `D (E x) = x` for the block that enters the cipher. -/
theorem cbc_one_block (E D : Block → Block) (x iv : Block) :
    ∃ r r', Model.cbcEncrypt E false (x ^^^ iv).toList (List.replicate 16 0) 16 iv = some r ∧ r.ret = 1 ∧
      cbcDecryptWrapper D r.out 16 (List.replicate 16 0) 16 iv = some r' ∧ r'.ret = 1 ∧
      r'.out.length = 16 ∧ (r'.out = (x ^^^ iv).toList ↔ D (E x) = x) := by
  have hp : Spec.pkcs7 (x ^^^ iv).toList = (x ^^^ iv).toList := by simp [Spec.pkcs7, Spec.padCount]
  have e1 := C03_cbc_encrypt E (x ^^^ iv).toList (List.replicate 16 0) 16 iv [x ^^^ iv]
    (by rw [hp]; simp [fromBlocks]) (by simp) (by rw [hp]; simp) (by simp)
  have e2 := cbcDecrypt_exact D [E x] iv (by simp)
  have hx : (x ^^^ iv) ^^^ iv = x := by rw [Vec.xor_assoc, Vec.xor_self, Vec.xor_zero]
  simp only [Spec.cbcEncrypt, hx, List.length_cons, List.length_nil, Nat.zero_add, Nat.mul_one, List.drop_replicate,
    Nat.sub_self, List.replicate_zero, List.append_nil] at e1
  simp only [Spec.cbcDecrypt, List.length_cons, List.length_nil, Nat.zero_add, Nat.mul_one] at e2
  obtain ⟨n, hn⟩ := separateLength_defined (fromBlocks [D (E x) ^^^ iv]) (by rw [← List.length_pos_iff]; simp)
  refine ⟨_, { ret := 1, out := fromBlocks [D (E x) ^^^ iv], useOlen := some n, ivec := [E x].getLastD iv },
    e1, rfl, ?_, rfl, ?_, ?_⟩
  · rw [cbcDecryptWrapper, e2]
    simp only [Option.bind_eq_bind, Option.bind_some]
    rw [if_neg (by decide), List.take_of_length_le (by simp), hn, if_neg (by simp)]
    rfl
  · simp
  · simp only [fromBlocks, List.flatMap_cons, List.flatMap_nil, List.append_nil]
    rw [Vector.toList_inj]
    refine ⟨fun e => ?_, fun e => by rw [e]⟩
    have := congrArg (fun b : Block => b ^^^ iv) e
    simpa only [hx, Vec.xor_assoc, Vec.xor_self, Vec.xor_zero] using this

/-- C69: `WBCRYPTO_wbsm4_cbc_decrypt` with the context used for encryption: both calls report success; a one-block message
comes back exactly if SM4 maps the cipher input back to itself in two applications. -/
theorem C69_encrypt_context_decrypts_iff (r : Wbsm4Rnd) (junk : Nat → WbRound) (key x iv : Block) :
    ∃ ctx c p, wbsm4GenTable r junk .encrypt 0 key.toList = some ctx ∧
      wbsm4CbcEncrypt ctx false (x ^^^ iv).toList (List.replicate 16 0) 16 iv = some c ∧ c.ret = 1 ∧
      wbsm4CbcDecrypt ctx c.out 16 (List.replicate 16 0) 16 iv = some p ∧ p.ret = 1 ∧
      (p.out = (x ^^^ iv).toList ↔ Spec.sm4Encrypt key (Spec.sm4Encrypt key x) = x) := by
  obtain ⟨ctx, h, e⟩ := wbsm4_ctx r junk .encrypt key.toList
  rw [sm4Encrypt_ctx] at e
  obtain ⟨c, p, a1, a2, a3, a4, -, a6⟩ := cbc_one_block (Spec.sm4Encrypt key) (Spec.sm4Encrypt key) x iv
  refine ⟨ctx, c, p, h, ?_, a2, ?_, a4, a6⟩
  · unfold wbsm4CbcEncrypt
    rw [cbcEncryptWrapper_eq, e]
    exact a1
  · unfold wbsm4CbcDecrypt
    rw [show wbsm4Decrypt ctx = Spec.sm4Encrypt key from e]
    exact a3

/-- C69: there are a key and a block for which it does not come back, whatever the random choices and the IV. -/
theorem C69_encrypt_context_cannot_decrypt : ∃ key x : Block, ∀ (r : Wbsm4Rnd) (junk : Nat → WbRound) (iv : Block),
    ∃ ctx c p, wbsm4GenTable r junk .encrypt 0 key.toList = some ctx ∧
      wbsm4CbcEncrypt ctx false (x ^^^ iv).toList (List.replicate 16 0) 16 iv = some c ∧ c.ret = 1 ∧
      wbsm4CbcDecrypt ctx c.out 16 (List.replicate 16 0) 16 iv = some p ∧ p.ret = 1 ∧ p.out ≠ (x ^^^ iv).toList := by
  refine ⟨zeroBlock, zeroBlock, fun r junk iv => ?_⟩
  obtain ⟨ctx, c, p, h1, h2, h3, h4, h5, h6⟩ := C69_encrypt_context_decrypts_iff r junk zeroBlock zeroBlock iv
  exact ⟨ctx, c, p, h1, h2, h3, h4, h5, fun e => absurd (h6.1 e) (by decide +kernel)⟩

/-! ### GCM -/

theorem some_triple {α β γ : Type} {a a' : α} {b b' : β} {c c' : γ} (h : some (a, b, c) = some (a', b', c')) :
    b = b' ∧ c = c' := by
  injection h with h
  injection h with _ h
  injection h with h1 h2
  exact ⟨h1, h2⟩

theorem gcm_across (E : Block → Block) (iv aad p out out2 : List Byte) (outlen outlen2 n : Nat)
    (hn : n ≤ 16) (hiv : iv.length < 2 ^ 29) (ha : aad.length < 2 ^ 61) (hp : p.length < 2 ^ 31)
    (ho : p.length ≤ outlen) (hb : outlen ≤ out.length) (ho2 : p.length ≤ outlen2) (hb2 : outlen2 ≤ out2.length) :
    sealMsg (gcmInit E) iv aad p out outlen n = some (1, gcmCipher E iv p ++ out.drop p.length,
        (gcmTag E iv aad (gcmCipher E iv p)).toList.take n) ∧
    openMsg (gcmInit E) iv aad (gcmCipher E iv p) out2 outlen2 n = some (1, p ++ out2.drop p.length,
        (gcmTag E iv aad (gcmCipher E iv p)).toList.take n) := by
  have h1 : sealMsg (gcmInit E) iv aad p out outlen n = some (1, gcmCipher E iv p ++ out.drop p.length,
        (gcmTag E iv aad (gcmCipher E iv p)).toList.take n) :=
    seal_eq (gcmInit E) (init_ok E) iv aad p out outlen n hn hiv ha hp ho hb
  refine ⟨h1, ?_⟩
  obtain ⟨o, tag, a1, -, a3⟩ := C13_gcm_tags_agree (gcmInit E) iv aad p out out2 outlen outlen2 n hn hp ho hb ho2 hb2
  rw [h1] at a1
  obtain ⟨rfl, rfl⟩ := some_triple a1
  have hl : (gcmCipher E iv p).length = p.length := by
    obtain ⟨r, -, -, -, h⟩ := C10_gcm_gctr E iv p out outlen hiv hp ho hb
    exact h
  rwa [List.take_left' hl] at a3

/-- C70: white-box AES seals, AES opens, and the reverse; both produce AES-128-GCM. -/
theorem C70_wbaes_gcm (key : Block) (keylen : Nat) (r : WbaesRnd) (ro : Fin 16 → Fin 2 → Nat → BitVec 32)
    (iv aad p out out2 : List Byte) (outlen outlen2 n : Nat)
    (hn : n ≤ 16) (hiv : iv.length < 2 ^ 29) (ha : aad.length < 2 ^ 61) (hp : p.length < 2 ^ 31)
    (ho : p.length ≤ outlen) (hb : outlen ≤ out.length) (ho2 : p.length ≤ outlen2) (hb2 : outlen2 ≤ out2.length) :
    ∃ ctx tag, aesInitKey key.toList keylen = some ctx ∧
      tag = (gcmTag (aes128 key) iv aad (gcmCipher (aes128 key) iv p)).toList.take n ∧
      sealMsg (wbaesGcmInit (wbaesGenTable r ro key)) iv aad p out outlen n =
        some (1, gcmCipher (aes128 key) iv p ++ out.drop p.length, tag) ∧
      sealMsg (aesGcmInit ctx) iv aad p out outlen n =
        some (1, gcmCipher (aes128 key) iv p ++ out.drop p.length, tag) ∧
      openMsg (aesGcmInit ctx) iv aad (gcmCipher (aes128 key) iv p) out2 outlen2 n =
        some (1, p ++ out2.drop p.length, tag) ∧
      openMsg (wbaesGcmInit (wbaesGenTable r ro key)) iv aad (gcmCipher (aes128 key) iv p) out2 outlen2 n =
        some (1, p ++ out2.drop p.length, tag) := by
  obtain ⟨k, ctx, hk, hctx, hE⟩ := C61_aes_encrypt key.toList keylen (by simp)
  have hk' : k = key := Vector.toList_inj.1 (by rw [hk]; simp)
  subst hk'
  have e1 : aesGcmInit ctx = gcmInit (aes128 k) := by unfold aesGcmInit; rw [funext hE]
  have e2 : wbaesGcmInit (wbaesGenTable r ro k) = gcmInit (aes128 k) := by
    unfold wbaesGcmInit; rw [funext (C41_wbaes_is_aes r ro k)]
  obtain ⟨a, b⟩ := gcm_across (aes128 k) iv aad p out out2 outlen outlen2 n hn hiv ha hp ho hb ho2 hb2
  refine ⟨ctx, _, hctx, rfl, ?_⟩
  rw [e1, e2]
  exact ⟨a, a, b, b⟩

/-- C70: the same for white-box SM4 without dummy rounds and SM4. -/
theorem C70_wbsm4_gcm (key : Block) (r : Wbsm4Rnd) (junk : Nat → WbRound)
    (iv aad p out out2 : List Byte) (outlen outlen2 n : Nat)
    (hn : n ≤ 16) (hiv : iv.length < 2 ^ 29) (ha : aad.length < 2 ^ 61) (hp : p.length < 2 ^ 31)
    (ho : p.length ≤ outlen) (hb : outlen ≤ out.length) (ho2 : p.length ≤ outlen2) (hb2 : outlen2 ≤ out2.length) :
    ∃ ctx tag, wbsm4GenTable r junk .encrypt 0 key.toList = some ctx ∧
      tag = (gcmTag (Spec.sm4Encrypt key) iv aad (gcmCipher (Spec.sm4Encrypt key) iv p)).toList.take n ∧
      sealMsg (wbsm4GcmInit ctx) iv aad p out outlen n =
        some (1, gcmCipher (Spec.sm4Encrypt key) iv p ++ out.drop p.length, tag) ∧
      sealMsg (sm4GcmInit (sm4InitKey key.toList .encrypt)) iv aad p out outlen n =
        some (1, gcmCipher (Spec.sm4Encrypt key) iv p ++ out.drop p.length, tag) ∧
      openMsg (sm4GcmInit (sm4InitKey key.toList .encrypt)) iv aad (gcmCipher (Spec.sm4Encrypt key) iv p) out2 outlen2 n =
        some (1, p ++ out2.drop p.length, tag) ∧
      openMsg (wbsm4GcmInit ctx) iv aad (gcmCipher (Spec.sm4Encrypt key) iv p) out2 outlen2 n =
        some (1, p ++ out2.drop p.length, tag) := by
  obtain ⟨ctx, h, e⟩ := wbsm4_ctx r junk .encrypt key.toList
  rw [sm4Encrypt_ctx] at e
  have e1 : sm4GcmInit (sm4InitKey key.toList .encrypt) = gcmInit (Spec.sm4Encrypt key) := by
    unfold sm4GcmInit; rw [sm4Encrypt_ctx]
  have e2 : wbsm4GcmInit ctx = gcmInit (Spec.sm4Encrypt key) := by unfold wbsm4GcmInit; rw [e]
  obtain ⟨a, b⟩ := gcm_across (Spec.sm4Encrypt key) iv aad p out out2 outlen outlen2 n hn hiv ha hp ho hb ho2 hb2
  refine ⟨ctx, _, h, rfl, ?_⟩
  rw [e1, e2]
  exact ⟨a, a, b, b⟩

/-- C70: a decryption-mode white-box SM4 context handed to GCM gives counter mode and GHASH under the inverse of SM4. -/
theorem C70_wbsm4_gcm_wrong_mode (key : Block) (r : Wbsm4Rnd) (junk : Nat → WbRound) :
    ∃ ctx, wbsm4GenTable r junk .decrypt 0 key.toList = some ctx ∧ wbsm4GcmInit ctx = gcmInit (Spec.sm4Decrypt key) := by
  obtain ⟨ctx, h, e⟩ := wbsm4_ctx r junk .decrypt key.toList
  refine ⟨ctx, h, ?_⟩
  unfold wbsm4GcmInit
  rw [e, ← sm4Decrypt_ctx]
  exact congrArg gcmInit (funext fun x => (C31_decrypt_mode key.toList x).1)

example : (16 : Nat) ≤ 16 ∧ (List.replicate 12 (0 : Byte)).length < 2 ^ 29 ∧ ([1, 2, 3] : List Byte).length ≤ 3 := by decide

/-! ### format-preserving encryption -/

/-- C71: FF1 strings encrypted with a white-box AES context are decrypted with an AES context, and both contexts compute
FF1 of the standard with AES-128. -/
theorem C71_wbaes_ff1 (key : Block) (keylen : Nat) (r : WbaesRnd) (ro : Fin 16 → Fin 2 → Nat → BitVec 32)
    (twk : List Byte) (radix : Nat) (h2 : 2 ≤ radix) (h36 : radix ≤ 36) (s rest rest' out out' : List Byte)
    (hs : ∀ c ∈ s, IsNumeral radix c) (hn : 2 ≤ s.length) (hn' : s.length < 2 ^ 30)
    (hT : QOk (fun r k => Nat.clog 2 (r ^ k)) twk radix s.length) (ho : s.length < out.length) (ho' : s.length < out'.length) :
    ∃ ctx wb pl ct, aesInitKey key.toList keylen = some ctx ∧ wbaesFpeInit (wbaesGenTable r ro key) twk radix = some wb ∧
      aesFpeInit ctx twk radix = some pl ∧
      ct = (ff1Enc (aes128 key) radix twk (s.map numeralVal)).map numeralChar ∧
      ff1Encrypt wb (fun r k => Nat.clog 2 (r ^ k)) (s ++ 0 :: rest) out = some (ct ++ 0 :: out.drop (s.length + 1)) ∧
      ff1Encrypt pl (fun r k => Nat.clog 2 (r ^ k)) (s ++ 0 :: rest) out = some (ct ++ 0 :: out.drop (s.length + 1)) ∧
      ff1Decrypt pl (fun r k => Nat.clog 2 (r ^ k)) (ct ++ 0 :: rest') out' = some (s ++ 0 :: out'.drop (s.length + 1)) ∧
      ff1Decrypt wb (fun r k => Nat.clog 2 (r ^ k)) (ct ++ 0 :: rest') out' = some (s ++ 0 :: out'.drop (s.length + 1)) := by
  obtain ⟨k, ctx, hk, hctx, hE⟩ := C61_aes_encrypt key.toList keylen (by simp)
  have hk' : k = key := Vector.toList_inj.1 (by rw [hk]; simp)
  subst hk'
  have hi : fpeInit twk radix (aes128 k) = some ⟨aes128 k, radix, twk⟩ := by
    unfold fpeInit; rw [if_neg (by omega)]
  have e1 : aesFpeInit ctx twk radix = some ⟨aes128 k, radix, twk⟩ := by
    unfold aesFpeInit; rw [funext hE]; exact hi
  have e2 : wbaesFpeInit (wbaesGenTable r ro k) twk radix = some ⟨aes128 k, radix, twk⟩ := by
    unfold wbaesFpeInit; rw [funext (C41_wbaes_is_aes r ro k)]; exact hi
  have a := (C65_ff1_nist _ twk radix _ hi s rest out hs hn hn' hT ho).1
  obtain ⟨ct, b1, b2⟩ := C44_ff1_roundtrip _ twk radix _ hi _ lgOk_clog s rest rest' out out' hs hn hT ho ho'
  have : ct = (ff1Enc (aes128 k) radix twk (s.map numeralVal)).map numeralChar := by
    rw [a] at b1
    exact (List.append_cancel_right (Option.some.inj b1)).symm
  subst this
  exact ⟨ctx, _, _, _, hctx, e2, e1, rfl, b1, b1, b2, b2⟩

example : (∀ c ∈ ([49, 50, 51] : List Byte), IsNumeral 10 c) ∧
    QOk (fun r k => Nat.clog 2 (r ^ k)) [] 10 3 := ⟨by unfold IsNumeral; decide, by decide⟩

/-- C71: for every tweak and radix the white-box AES and the AES context are the same (or both refused), so that every
function of the FPE interface, with or without a MAC, gives the same result with both. -/
theorem C71_wbaes_fpe (key : Block) (keylen : Nat) (r : WbaesRnd) (ro : Fin 16 → Fin 2 → Nat → BitVec 32)
    (twk : List Byte) (radix : Nat) :
    ∃ ctx, aesInitKey key.toList keylen = some ctx ∧
      wbaesFpeInit (wbaesGenTable r ro key) twk radix = aesFpeInit ctx twk radix ∧
      (aesFpeInit ctx twk radix = none ↔ ¬ (2 ≤ radix ∧ radix ≤ 36)) := by
  obtain ⟨k, ctx, hk, hctx, hE⟩ := C61_aes_encrypt key.toList keylen (by simp)
  have hk' : k = key := Vector.toList_inj.1 (by rw [hk]; simp)
  subst hk'
  refine ⟨ctx, hctx, ?_, ?_⟩
  · unfold wbaesFpeInit aesFpeInit
    rw [funext hE, funext (C41_wbaes_is_aes r ro k)]
  · unfold aesFpeInit fpeInit
    split
    · simp only [true_iff]; omega
    · simp only [reduceCtorEq, false_iff]; omega

/-- C71: the same for white-box SM4 without dummy rounds and SM4. -/
theorem C71_wbsm4_fpe (key : List Byte) (r : Wbsm4Rnd) (junk : Nat → WbRound) (twk : List Byte) (radix : Nat) :
    ∃ ctx, wbsm4GenTable r junk .encrypt 0 key = some ctx ∧
      wbsm4FpeInit ctx twk radix = sm4FpeInit (sm4InitKey key .encrypt) twk radix ∧
      (wbsm4FpeInit ctx twk radix = none ↔ ¬ (2 ≤ radix ∧ radix ≤ 36)) := by
  obtain ⟨ctx, h, e⟩ := wbsm4_ctx r junk .encrypt key
  refine ⟨ctx, h, ?_, ?_⟩
  · unfold wbsm4FpeInit sm4FpeInit
    rw [e]
  · unfold wbsm4FpeInit fpeInit
    split
    · simp only [true_iff]; omega
    · simp only [reduceCtorEq, false_iff]; omega

/-- C71: FF3 strings encrypted with a white-box SM4 context are decrypted with an SM4 context; within the length limit of the
standard both compute FF3 of the standard with SM4. -/
theorem C71_wbsm4_ff3 (key : Block) (r : Wbsm4Rnd) (junk : Nat → WbRound)
    (twk : List Byte) (radix : Nat) (h2 : 2 ≤ radix) (h36 : radix ≤ 36) (ht : 8 ≤ twk.length)
    (lg : Nat → Nat → Nat) (hlg : LgOk lg) (s rest rest' out out' : List Byte)
    (hs : ∀ c ∈ s, IsNumeral radix c) (hn : 1 ≤ s.length) (hmax : radix ^ ((s.length + 1) / 2) ≤ 2 ^ 96)
    (ho : s.length < out.length) (ho' : s.length < out'.length) :
    ∃ ctx wb pl ct, wbsm4GenTable r junk .encrypt 0 key.toList = some ctx ∧ wbsm4FpeInit ctx twk radix = some wb ∧
      sm4FpeInit (sm4InitKey key.toList .encrypt) twk radix = some pl ∧
      ct = (ff3Enc (Spec.sm4Encrypt key) radix (twk.take 8) (s.map numeralVal)).map numeralChar ∧
      ff3Encrypt wb lg (s ++ 0 :: rest) out = some (ct ++ 0 :: out.drop (s.length + 1)) ∧
      ff3Encrypt pl lg (s ++ 0 :: rest) out = some (ct ++ 0 :: out.drop (s.length + 1)) ∧
      ff3Decrypt pl lg (ct ++ 0 :: rest') out' = some (s ++ 0 :: out'.drop (s.length + 1)) ∧
      ff3Decrypt wb lg (ct ++ 0 :: rest') out' = some (s ++ 0 :: out'.drop (s.length + 1)) := by
  obtain ⟨ctx, h, e⟩ := wbsm4_ctx r junk .encrypt key.toList
  rw [sm4Encrypt_ctx] at e
  have hi : fpeInit twk radix (Spec.sm4Encrypt key) = some ⟨Spec.sm4Encrypt key, radix, twk⟩ := by
    unfold fpeInit; rw [if_neg (by omega)]
  have e1 : sm4FpeInit (sm4InitKey key.toList .encrypt) twk radix = some ⟨Spec.sm4Encrypt key, radix, twk⟩ := by
    unfold sm4FpeInit; rw [sm4Encrypt_ctx]; exact hi
  have e2 : wbsm4FpeInit ctx twk radix = some ⟨Spec.sm4Encrypt key, radix, twk⟩ := by
    unfold wbsm4FpeInit; rw [e]; exact hi
  have a := (C66_ff3_nist _ twk radix _ hi ht lg hlg s rest out hs hn hmax ho).1
  obtain ⟨ct, b1, b2⟩ := C47_ff3_roundtrip _ twk radix _ hi ht lg hlg s rest rest' out out' hs hn ho ho'
  have : ct = (ff3Enc (Spec.sm4Encrypt key) radix (twk.take 8) (s.map numeralVal)).map numeralChar := by
    rw [a] at b1
    exact (List.append_cancel_right (Option.some.inj b1)).symm
  subst this
  exact ⟨ctx, _, _, _, h, e2, e1, rfl, b1, b1, b2, b2⟩

example : (∀ c ∈ ([49, 50, 51] : List Byte), IsNumeral 10 c) ∧ 10 ^ ((3 + 1) / 2) ≤ 2 ^ 96 ∧
    8 ≤ (List.replicate 8 (0 : Byte)).length := by
  unfold IsNumeral; decide

/-! ### files -/

/-- C72: a file encrypted through the white-box AES context is decrypted through the AES context, and the reverse. -/
theorem C72_wbaes_file (key : Block) (keylen : Nat) (r : WbaesRnd) (ro : Fin 16 → Fin 2 → Nat → BitVec 32)
    (iv aad : List Byte) (junk : Vector Byte 4) (fs : FS)
    (inp out out2 : Path) (d : List Byte) (hiv : iv.length < 2 ^ 29) (ha : aad.length < 2 ^ 61)
    (h1 : inp ≠ out) (h2 : inp ≠ tmpPath out) (h3 : out ≠ out2) (hd : fs inp = some d) (hl : d.length < 2 ^ 31) :
    ∃ ctx e p, aesInitKey key.toList keylen = some ctx ∧
      gcmfileEncrypt (gcmAad (gcmSetiv (wbaesGcmInit (wbaesGenTable r ro key)) iv) aad) junk fs inp out = some e ∧ e.ret = 1 ∧
      gcmfileEncrypt (gcmAad (gcmSetiv (aesGcmInit ctx) iv) aad) junk fs inp out = some e ∧
      applyOps fs e.log out = some ((gcmTag (aes128 key) iv aad (gcmCipher (aes128 key) iv d)).toList ++
        ((List.range 4).map (fun i => BitVec.ofNat 8 (d.length / 256 ^ i)) ++ junk.toList) ++ gcmCipher (aes128 key) iv d) ∧
      gcmfileDecrypt (gcmAad (gcmSetiv (aesGcmInit ctx) iv) aad) (applyOps fs e.log) out out2 = some p ∧ p.ret = 1 ∧
      gcmfileDecrypt (gcmAad (gcmSetiv (wbaesGcmInit (wbaesGenTable r ro key)) iv) aad) (applyOps fs e.log) out out2 = some p ∧
      applyOps (applyOps fs e.log) p.log out2 = some d := by
  obtain ⟨k, ctx, hk, hctx, hE⟩ := C61_aes_encrypt key.toList keylen (by simp)
  have hk' : k = key := Vector.toList_inj.1 (by rw [hk]; simp)
  subst hk'
  have e1 : aesGcmInit ctx = gcmInit (aes128 k) := by unfold aesGcmInit; rw [funext hE]
  have e2 : wbaesGcmInit (wbaesGenTable r ro k) = gcmInit (aes128 k) := by
    unfold wbaesGcmInit; rw [funext (C41_wbaes_is_aes r ro k)]
  obtain ⟨e, fs', a1, a2, rfl, a4, -, -, -, p, a8, a9, a10, -⟩ :=
    C24_file_roundtrip (aes128 k) iv aad junk fs inp out out2 d hiv ha h1 h2 h3 hd hl
  refine ⟨ctx, e, p, hctx, ?_⟩
  rw [e1, e2]
  exact ⟨a1, a2, a1, a4, a8, a9, a8, a10⟩

/-- C72: the same for white-box SM4 without dummy rounds and SM4. -/
theorem C72_wbsm4_file (key : Block) (r : Wbsm4Rnd) (rj : Nat → WbRound)
    (iv aad : List Byte) (junk : Vector Byte 4) (fs : FS)
    (inp out out2 : Path) (d : List Byte) (hiv : iv.length < 2 ^ 29) (ha : aad.length < 2 ^ 61)
    (h1 : inp ≠ out) (h2 : inp ≠ tmpPath out) (h3 : out ≠ out2) (hd : fs inp = some d) (hl : d.length < 2 ^ 31) :
    ∃ ctx e p, wbsm4GenTable r rj .encrypt 0 key.toList = some ctx ∧
      gcmfileEncrypt (gcmAad (gcmSetiv (wbsm4GcmInit ctx) iv) aad) junk fs inp out = some e ∧ e.ret = 1 ∧
      gcmfileEncrypt (gcmAad (gcmSetiv (sm4GcmInit (sm4InitKey key.toList .encrypt)) iv) aad) junk fs inp out = some e ∧
      applyOps fs e.log out = some ((gcmTag (Spec.sm4Encrypt key) iv aad (gcmCipher (Spec.sm4Encrypt key) iv d)).toList ++
        ((List.range 4).map (fun i => BitVec.ofNat 8 (d.length / 256 ^ i)) ++ junk.toList) ++
          gcmCipher (Spec.sm4Encrypt key) iv d) ∧
      gcmfileDecrypt (gcmAad (gcmSetiv (sm4GcmInit (sm4InitKey key.toList .encrypt)) iv) aad) (applyOps fs e.log) out out2 =
        some p ∧ p.ret = 1 ∧
      gcmfileDecrypt (gcmAad (gcmSetiv (wbsm4GcmInit ctx) iv) aad) (applyOps fs e.log) out out2 = some p ∧
      applyOps (applyOps fs e.log) p.log out2 = some d := by
  obtain ⟨ctx, h, eq⟩ := wbsm4_ctx r rj .encrypt key.toList
  rw [sm4Encrypt_ctx] at eq
  have e1 : sm4GcmInit (sm4InitKey key.toList .encrypt) = gcmInit (Spec.sm4Encrypt key) := by
    unfold sm4GcmInit; rw [sm4Encrypt_ctx]
  have e2 : wbsm4GcmInit ctx = gcmInit (Spec.sm4Encrypt key) := by unfold wbsm4GcmInit; rw [eq]
  obtain ⟨e, fs', a1, a2, rfl, a4, -, -, -, p, a8, a9, a10, -⟩ :=
    C24_file_roundtrip (Spec.sm4Encrypt key) iv aad junk fs inp out out2 d hiv ha h1 h2 h3 hd hl
  refine ⟨ctx, e, p, h, ?_⟩
  rw [e1, e2]
  exact ⟨a1, a2, a1, a4, a8, a9, a8, a10⟩

example : (['a'] : Path) ≠ ['b'] ∧ (['a'] : Path) ≠ tmpPath ['b'] ∧ (['b'] : Path) ≠ ['c'] := by decide

end Verif.Props
