import Verif.Props.GcmIv
import Verif.Props.Api
import Verif.Props.Fpe3

/-! Property C145: one key in several modes. A service that gives tags of the empty message for IVs chosen by the caller, or CBC
ciphertexts, gives the block cipher, and with it everything in GCM, FF1 and FF3. -/
set_option autoImplicit false

namespace Verif.Props
open Verif Spec Model

/-! ### what the services answer -/

/-- The tag of the empty message under an IV of the caller's choice. -/
def emptyTag (c : GcmCtx) (iv : List Byte) : List Byte :=
  match sealMsg c iv [] [] [] 0 16 with
  | some (_, _, t) => t
  | none => []

/-- The CBC ciphertext of one block. -/
def cbcBlock (E : Block → Block) (iv p : Block) : List Byte :=
  match Model.cbcEncrypt E false p.toList (List.replicate 16 0) 16 iv with
  | some r => r.out
  | none => []

/-! ### what the caller computes -/

def answerBlock (l : List Byte) : Block := Vector.ofFn fun i => l.getD i.1 0

theorem answerBlock_toList (b : Block) : answerBlock b.toList = b := by
  apply Vector.ext
  intro i hi
  simp [answerBlock]

/-- The inverse in the field of GHASH. -/
noncomputable def gfInverse (a : BitVec 128) : BitVec 128 := by
  classical
  exact if h : (⟨a⟩ : Gf) ≠ 0 then (Gf.exists_inv ⟨a⟩ h).choose.val else 0

theorem gfInverse_spec (a : BitVec 128) (h : a ≠ 0#128) : gfMul (gfInverse a) a = gfOne := by
  have h1 : (⟨a⟩ : Gf) ≠ 0 := fun e => h (congrArg Gf.val e)
  have := congrArg Gf.val (Gf.exists_inv ⟨a⟩ h1).choose_spec
  rw [Gf.val_mul, Gf.val_one] at this
  rw [gfInverse, dif_pos h1, gfMul_comm]
  exact this

/-- The IV of 16 bytes whose first counter block is `x`, for the hash key `h`. -/
noncomputable def tagIv (h : List Byte) (x : Block) : List Byte :=
  let inv := gfInverse (padBV h)
  (ofBV (gfMul (gfMul (toBV x) inv ^^^ BitVec.ofNat 128 128) inv)).toList

/-- The value of the cipher at `x` from two tags. -/
noncomputable def viaTags (q : List Byte → List Byte) (x : Block) : Block := answerBlock (q (tagIv (q []) x))

/-- The value of the cipher at `x` from one CBC ciphertext, under whatever IV. -/
def viaCbc (q : Block → Block → List Byte) (iv x : Block) : Block := answerBlock (q iv (x ^^^ iv))

/-! ### the property -/

theorem emptyTag_eq (E : Block → Block) (ops : List GcmOp) (c : GcmCtx) (hc : runOps (gcmInit E) ops = some c) (iv : List Byte)
    (hiv : iv.length < 2 ^ 29) : emptyTag c iv = (gcmTag E iv [] []).toList := by
  have h1 : gcmCipher E iv [] = [] := gctr_nil _ _
  rw [emptyTag, (C16_reuse E ops c hc iv [] [] [] 0 16).1, C12_gcm_nist E iv [] [] [] 0 hiv (by simp) (by simp) (by simp) (by simp), h1]

theorem tag_nothing (E : Block → Block) (iv : List Byte) : gcmTag E iv [] [] = E (ofBV (j0 E iv)) := by
  apply toBV_injective
  rw [gcmTag_blocks]
  have : ghash (toBV (E zeroBlock)) (gcmBlocks [] []) = 0 := by
    show gfMul (0 ^^^ (BitVec.ofNat 64 0 ++ BitVec.ofNat 64 0)) _ = 0
    rw [show (0 ^^^ (BitVec.ofNat 64 0 ++ BitVec.ofNat 64 0) : BitVec 128) = 0#128 from rfl, gf_zero_mul]
    rfl
  simp [this]

theorem tagIv_j0 (E : Block → Block) (x : Block) (hz : E zeroBlock ≠ zeroBlock) : ofBV (j0 E (tagIv (E zeroBlock).toList x)) = x := by
  have hh : toBV (E zeroBlock) ≠ 0#128 := by
    intro h
    apply hz
    have := congrArg ofBV h
    rw [ofBV_toBV, ofBV_zero] at this
    exact this
  have hl : (tagIv (E zeroBlock).toList x).length = 16 := by simp [tagIv]
  have hi := gfInverse_spec _ hh
  rw [j0, if_neg (by omega), chunks_short _ (by intro h; rw [h] at hl; simp at hl) (by omega), hl]
  show ofBV (gfMul (gfMul (0 ^^^ padBV _) (hashKey E) ^^^ BitVec.ofNat 128 (8 * 16)) (hashKey E)) = x
  rw [show (0 : BitVec 128) = 0#128 from rfl, BitVec.zero_xor, tagIv, padBV_toList, padBV_toList, toBV_ofBV, hashKey]
  simp only [gfMul_assoc, hi, gfMul_one, BitVec.xor_assoc, BitVec.xor_self, BitVec.xor_zero, ofBV_toBV]

/-- C145: two tags of the empty message, under the empty IV and one IV of 16 bytes, give the block cipher at any block, in fresh and
used contexts (unless the hash key is zero). -/
theorem C145_tags (E : Block → Block) (hz : E zeroBlock ≠ zeroBlock) (ops : List GcmOp) (c : GcmCtx)
    (hc : runOps (gcmInit E) ops = some c) (x : Block) : viaTags (emptyTag c) x = E x := by
  have h0 : emptyTag c [] = (E zeroBlock).toList := by
    rw [emptyTag, C100_empty_iv_tag E ops c hc 16 (Nat.le_refl _)]
    simp
  have hl : (tagIv (E zeroBlock).toList x).length = 16 := by simp [tagIv]
  rw [viaTags, h0, emptyTag_eq E ops c hc _ (by rw [hl]; decide), answerBlock_toList, tag_nothing, tagIv_j0 E x hz]

/-- C145: one CBC ciphertext of one block, under any IV, gives the block cipher at any block. -/
theorem C145_cbc (E : Block → Block) (iv x : Block) : viaCbc (cbcBlock E) iv x = E x := by
  have hp : Spec.pkcs7 (x ^^^ iv).toList = (x ^^^ iv).toList := by simp [Spec.pkcs7, Spec.padCount]
  have e1 := C03_cbc_encrypt E (x ^^^ iv).toList (List.replicate 16 0) 16 iv [x ^^^ iv]
    (by rw [hp]; simp [fromBlocks]) (by simp) (by rw [hp]; simp) (by simp)
  have hx : (x ^^^ iv) ^^^ iv = x := by rw [Vec.xor_assoc, Vec.xor_self, Vec.xor_zero]
  rw [viaCbc, cbcBlock, e1]
  simp [Spec.cbcEncrypt, fromBlocks, hx, answerBlock_toList]

/-- `F` is computed with one of the services of the cipher `E`. -/
inductive Served (E : Block → Block) : (Block → Block) → Prop
  | tags (ops : List GcmOp) (c : GcmCtx) (hc : runOps (gcmInit E) ops = some c) (hz : E zeroBlock ≠ zeroBlock) :
    Served E (viaTags (emptyTag c))
  | cbc (iv : Block) : Served E (viaCbc (cbcBlock E) iv)

theorem served_eq {E F : Block → Block} (h : Served E F) : F = E := by
  cases h with
  | tags ops c hc hz => exact funext (C145_tags E hz ops c hc)
  | cbc iv => exact funext (C145_cbc E iv)

/-- C145: who is served reads every GCM message and makes every message with its tag. -/
theorem C145_gcm (E F : Block → Block) (hF : Served E F) (iv aad p out out2 : List Byte) (outlen outlen2 n : Nat) (hn : n ≤ 16)
    (hp : p.length < 2 ^ 31) (ho : p.length ≤ outlen) (hb : outlen ≤ out.length) (ho2 : p.length ≤ outlen2)
    (hb2 : outlen2 ≤ out2.length) :
    ∃ o tag, sealMsg (gcmInit E) iv aad p out outlen n = some (1, o, tag) ∧ tag.length = n ∧
      openMsg (gcmInit F) iv aad (o.take p.length) out2 outlen2 n = some (1, p ++ out2.drop p.length, tag) ∧
      sealMsg (gcmInit F) iv aad p out outlen n = some (1, o, tag) := by
  rw [served_eq hF]
  obtain ⟨o, tag, h1, h2, h3⟩ := C13_gcm_tags_agree (gcmInit E) iv aad p out out2 outlen outlen2 n hn hp ho hb ho2 hb2
  exact ⟨o, tag, h1, h2, h3, h1⟩

/-- C145: who is served decrypts what was encrypted with FF1 or FF3, though neither service ever decrypts. -/
theorem C145_fpe (E F : Block → Block) (hF : Served E F) (tweak : List Byte) (radix : Nat) (ctx : FpeCtx)
    (hc : fpeInit tweak radix E = some ctx) (lg : Nat → Nat → Nat) (hlg : LgOk lg) :
    ∃ ctx', fpeInit tweak radix F = some ctx' ∧
      ∀ s rest rest' out out' : List Byte, (∀ c ∈ s, IsNumeral radix c) → s.length < out.length → s.length < out'.length →
        (2 ≤ s.length → QOk lg tweak radix s.length →
          ∃ ct, ff1Encrypt ctx lg (s ++ 0 :: rest) out = some (ct ++ 0 :: out.drop (s.length + 1)) ∧
            ff1Decrypt ctx' lg (ct ++ 0 :: rest') out' = some (s ++ 0 :: out'.drop (s.length + 1))) ∧
        (1 ≤ s.length → 8 ≤ tweak.length →
          ∃ ct, ff3Encrypt ctx lg (s ++ 0 :: rest) out = some (ct ++ 0 :: out.drop (s.length + 1)) ∧
            ff3Decrypt ctx' lg (ct ++ 0 :: rest') out' = some (s ++ 0 :: out'.drop (s.length + 1))) := by
  rw [served_eq hF]
  refine ⟨ctx, hc, fun s rest rest' out out' hs ho ho' => ⟨fun hn hT => ?_, fun hn ht => ?_⟩⟩
  · exact C44_ff1_roundtrip ctx tweak radix E hc lg hlg s rest rest' out out' hs hn hT ho ho'
  · exact C47_ff3_roundtrip ctx tweak radix E hc ht lg hlg s rest rest' out out' hs hn ho ho'

/-- C145: with the interface functions: what `WBCRYPTO_sm4_cbc_encrypt` answers for one block is SM4 at any block wanted. -/
theorem C145_sm4 (key iv x : Block) : ∃ r, sm4CbcEncrypt (sm4InitKey key.toList .encrypt) false (x ^^^ iv).toList
    (List.replicate 16 0) 16 iv = some r ∧ r.ret = 1 ∧ r.out = (Spec.sm4Encrypt key x).toList := by
  have hp : Spec.pkcs7 (x ^^^ iv).toList = (x ^^^ iv).toList := by simp [Spec.pkcs7, Spec.padCount]
  have e1 := C68_sm4_cbc key (x ^^^ iv).toList (List.replicate 16 0) 16 iv [x ^^^ iv]
    (by rw [hp]; simp [fromBlocks]) (by simp) (by rw [hp]; simp) (by simp)
  have hx : (x ^^^ iv) ^^^ iv = x := by rw [Vec.xor_assoc, Vec.xor_self, Vec.xor_zero]
  refine ⟨_, e1, rfl, ?_⟩
  simp [Spec.cbcEncrypt, fromBlocks, hx]

/-- Both services exist for a cipher that adds one to every byte. -/
example : ∃ E F G : Block → Block, Served E F ∧ Served E G ∧ E zeroBlock ≠ zeroBlock := by
  have hz : (fun b : Block => (Vector.ofFn fun i => b[i] + 1 : Block)) zeroBlock ≠ zeroBlock := by
    intro h
    have := congrArg (fun v : Block => v[0]) h
    simp only [Vector.getElem_ofFn] at this
    revert this
    decide
  exact ⟨fun b : Block => (Vector.ofFn fun i => b[i] + 1 : Block), _, _, .tags [] _ rfl hz, .cbc zeroBlock, hz⟩

end Verif.Props
