import Verif.Model.KeyArg
import Verif.Props.FpeAppInit
import Verif.Props.SeWbsm4
import Verif.Props.WbGcm

/-! C99: keys of any length. -/
set_option autoImplicit false

namespace Verif.Props
open Verif Spec Model

theorem padKey_toList (key : List Byte) : (padKey key).toList =
    if key.length < 16 then key ++ List.replicate (16 - key.length) (BitVec.ofNat 8 (16 - key.length)) else key.take 16 :=
  (C30_sm4_any_key key zeroBlock).2

theorem keyArg_some (key : List Byte) (keylen : Nat) (h : min keylen 16 ≤ key.length) :
    keyArg key keylen = some (key.take (min keylen 16)) := by
  unfold keyArg
  by_cases h16 : keylen > 16
  · rw [if_pos h16, show min keylen 16 = 16 by omega] at *
    exact if_neg (by omega)
  · rw [if_neg h16, show min keylen 16 = keylen by omega] at *
    exact if_neg (by omega)

theorem keyArg_none (key : List Byte) (keylen : Nat) (h : key.length < min keylen 16) : keyArg key keylen = none := by
  unfold keyArg
  by_cases h16 : keylen > 16
  · rw [if_pos h16]; exact if_pos (by omega)
  · rw [if_neg h16]; exact if_pos (by omega)

theorem arg_block (key : List Byte) (keylen : Nat) (h : min keylen 16 ≤ key.length) :
    (padKey (key.take (min keylen 16))).toList = if keylen < 16 then
      key.take keylen ++ List.replicate (16 - keylen) (BitVec.ofNat 8 (16 - keylen)) else key.take 16 := by
  rw [padKey_toList]
  by_cases hk : keylen < 16
  · rw [show min keylen 16 = keylen by omega] at *
    rw [if_pos hk, List.length_take, show min keylen key.length = keylen by omega, if_pos hk]
  · rw [show min keylen 16 = 16 by omega] at *
    rw [if_neg hk, List.length_take, if_neg (by omega), List.take_take, show min 16 16 = 16 by rfl]

theorem sm4Init_pad (key : List Byte) (mode : EncMode) : sm4InitKey key mode = sm4InitKey (padKey key).toList mode := by
  have h : padKey (padKey key).toList = padKey key := padKey_16 _
  apply Vector.toList_inj.1
  cases mode
  · rw [(initKey_eq key).1, (initKey_eq (padKey key).toList).1]
    exact congrArg (fun p => sm4RoundKeys (quadOf p)) h.symm
  · rw [(initKey_eq key).2, (initKey_eq (padKey key).toList).2]
    exact congrArg (fun p => (sm4RoundKeys (quadOf p)).reverse) h.symm

/-- C99: SM4, white-box SM4 (without dummy rounds) and the white-box SM4 from self-equivalences take a key of any length,
read only the bytes that belong to it, and use SM4 under the key cut to 16 bytes or filled up as in PKCS#7. -/
theorem C99_sm4_key (key : List Byte) (keylen : Nat) (h : min keylen 16 ≤ key.length) (r : Wbsm4Rnd) (junk : Nat → WbRound)
    (se : SeRnd) :
    ∃ (k : Block) (ctx : Sm4Ctx) (wb wbd : Wbsm4Ctx) (sc sd : SeCtx),
      k.toList = (if keylen < 16 then key.take keylen ++ List.replicate (16 - keylen) (BitVec.ofNat 8 (16 - keylen))
        else key.take 16) ∧
      sm4InitKeyArg key keylen .encrypt = some ctx ∧
      wbsm4GenTableArg r junk .encrypt 0 key keylen = some wb ∧ wbsm4GenTableArg r junk .decrypt 0 key keylen = some wbd ∧
      seGenTableArg se .encrypt key keylen = some sc ∧ seGenTableArg se .decrypt key keylen = some sd ∧
      ∀ x, Model.sm4Encrypt ctx x = Spec.sm4Encrypt k x ∧ Model.sm4Decrypt ctx x = Spec.sm4Decrypt k x ∧
        wbsm4Encrypt wb x = Spec.sm4Encrypt k x ∧ wbsm4Encrypt wbd x = Spec.sm4Decrypt k x ∧
        seEncrypt sc x = Spec.sm4Encrypt k x ∧ seEncrypt sd x = Spec.sm4Decrypt k x := by
  have hb := arg_block key keylen h
  have ha := keyArg_some key keylen h
  generalize key.take (min keylen 16) = kk at ha hb
  obtain ⟨⟨wb, hw, hwx⟩, ⟨wbd, hd, hdx⟩⟩ := C36_wbsm4_is_sm4 r junk (padKey kk)
  have gen : ∀ mode, wbsm4GenTable r junk mode 0 (padKey kk).toList = wbsm4GenTable r junk mode 0 kk := by
    intro mode
    have e : genTableWith r junk mode (padKey kk).toList = genTableWith r junk mode kk := by
      funext da
      rw [genTableWith, genTableWith, sm4Init_pad kk]
    rw [wbsm4GenTable, wbsm4GenTable, e]
  have seg : ∀ mode, seGenTable se mode (padKey kk).toList = seGenTable se mode kk := by
    intro mode
    rw [seGenTable, seGenTable, sm4Init_pad kk]
  refine ⟨padKey kk, sm4InitKey kk .encrypt, wb, wbd, seGenTable se .encrypt kk, seGenTable se .decrypt kk, hb,
    ?_, ?_, ?_, ?_, ?_, fun x => ⟨?_, ?_, hwx x, hdx x, ?_, ?_⟩⟩
  · rw [sm4InitKeyArg, ha]; rfl
  · rw [wbsm4GenTableArg, ha, ← hw, gen .encrypt]; rfl
  · rw [wbsm4GenTableArg, ha, ← hd, gen .decrypt]; rfl
  · rw [seGenTableArg, ha]; rfl
  · rw [seGenTableArg, ha]; rfl
  · rw [sm4Init_pad kk]; exact (C30_sm4_standard (padKey kk) x).1
  · rw [sm4Init_pad kk]; exact (C30_sm4_standard (padKey kk) x).2
  · rw [← seg .encrypt]; exact (C40_se_wbsm4_is_sm4 se (padKey kk) x).1
  · rw [← seg .decrypt]; exact (C40_se_wbsm4_is_sm4 se (padKey kk) x).2

/-- A key of five bytes in an object of five. -/
example : min 5 16 ≤ ([1, 2, 3, 4, 5] : List Byte).length := by decide

/-- C99, defect: `keylen = 0` is accepted and means the constant key 10 10 .. 10 (hexadecimal), whatever is at `key`. -/
theorem C99_sm4_empty_key (key : List Byte) : ∃ ctx, sm4InitKeyArg key 0 .encrypt = some ctx ∧
    ∀ x, Model.sm4Encrypt ctx x = Spec.sm4Encrypt (Vector.replicate 16 0x10) x := by
  refine ⟨sm4InitKey [] .encrypt, ?_, fun x => ?_⟩
  · rw [sm4InitKeyArg, keyArg_some key 0 (by simp)]; rfl
  · have := (C30_sm4_any_key [] x).1
    rw [this]
    congr 1

/-- C99: the AES contexts (plain, white-box, and the two white-box GCM modes) use AES-128 under the first 16 bytes at `key`; `keylen`
has no influence, so longer keys do not mean AES-192 or AES-256. -/
theorem C99_aes_key (key : List Byte) (keylen : Nat) (h : 16 ≤ key.length) (r rd : WbaesRnd)
    (ro rod : Fin 16 → Fin 2 → Nat → BitVec 32) (r1 r2 : Fin 16 → Nat → BitVec 32) (junk : Vector (Fin 256) 256) (rm : WbMaskRnd) :
    ∃ (k : Block) (ctx : AesSched) (wb : WbaesCtx) (ee : WbEeKey) (mk : WbMaskKey × WbMaskKey), k.toList = key.take 16 ∧
      aesInitKey key keylen = some ctx ∧ wbaesGenTableArg r ro key keylen = some wb ∧
      wbEeGenTableArg r r1 r2 junk key keylen = some ee ∧ wbMaskGenTableArg r rd ro rod rm key keylen = some mk ∧
      (∀ x, Model.aesEncrypt ctx x = aes128 k x ∧ wbaesEncrypt wb x = aes128 k x) ∧
      (∀ iv aad p out : List Byte, iv.length < 2 ^ 29 → aad.length < 2 ^ 61 → p.length < 2 ^ 31 → p.length ≤ out.length →
        (∃ tag, wbSeal (wbEeInit ee) iv aad p out out.length 16 = some (1, gcmCipher (aes128 k) iv p ++ out.drop p.length, tag)) ∧
        ∃ tag, wbSeal (wbMaskInit mk.1) iv aad p out out.length 16 =
          some (1, layer (maskL rm) (gcmCipher (aes128 k) iv p) ++ out.drop p.length, tag)) := by
  obtain ⟨k, hk, ht⟩ := rdBlk_take key h
  obtain ⟨k', ctx, ht', hc, hx⟩ := C61_aes_encrypt key keylen h
  have hkk : k' = k := Vector.toList_inj.1 (by rw [ht, ht'])
  subst hkk
  refine ⟨k', ctx, wbaesGenTable r ro k', wbEeGenTable r r1 r2 junk k', wbMaskGenTable r rd ro rod rm k', ht, hc, ?_, ?_, ?_,
    fun x => ⟨hx x, C41_wbaes_is_aes r ro k' x⟩, fun iv aad p out hiv ha hp ho => ⟨?_, ?_⟩⟩
  · rw [wbaesGenTableArg, hk]; rfl
  · rw [wbEeGenTableArg, hk]; rfl
  · rw [wbMaskGenTableArg, hk]; rfl
  · obtain ⟨tag, h1, _⟩ := C42_ee_is_gcm r r1 r2 junk k' iv aad p out out.length 16 (by decide) hiv ha hp ho (Nat.le_refl _)
    exact ⟨tag, h1⟩
  · obtain ⟨o, tag, tag', h1, h2, _⟩ := C43_mask_roundtrip r rd ro rod rm k' iv aad p out out out.length out.length 16 16 (by decide)
      (by decide) hiv ha hp ho (Nat.le_refl _) ho (Nat.le_refl _)
    exact ⟨tag, by rw [h1, h2]⟩

example : 16 ≤ (List.replicate 32 (7 : Byte)).length := by decide

/-- C99, defect: none of the AES contexts can be made from an object of fewer than 16 bytes without reading past its end, also when
`keylen` gives its true length. -/
theorem C99_aes_short_object (key : List Byte) (keylen : Nat) (h : key.length < 16) (r rd : WbaesRnd)
    (ro rod : Fin 16 → Fin 2 → Nat → BitVec 32) (r1 r2 : Fin 16 → Nat → BitVec 32) (junk : Vector (Fin 256) 256) (rm : WbMaskRnd) :
    aesInitKey key keylen = none ∧ wbaesGenTableArg r ro key keylen = none ∧ wbEeGenTableArg r r1 r2 junk key keylen = none ∧
      wbMaskGenTableArg r rd ro rod rm key keylen = none := by
  have hn : rdBlk key 0 = none := by unfold rdBlk; rw [dif_neg (by omega)]
  refine ⟨C61_aes_short_key key keylen h, ?_, ?_, ?_⟩
  · rw [wbaesGenTableArg, hn]; rfl
  · rw [wbEeGenTableArg, hn]; rfl
  · rw [wbMaskGenTableArg, hn]; rfl

/-- C99, defect: for every `keylen` below 16 there are two memories that agree on the key, with which plain and white-box AES encrypt
the zero block differently: bytes behind the key take part. -/
theorem C99_aes_reads_behind_key (keylen : Nat) (hk : keylen < 16) (r r' : WbaesRnd) (ro ro' : Fin 16 → Fin 2 → Nat → BitVec 32) :
    ∃ (m m' : List Byte) (c c' : AesSched) (w w' : WbaesCtx), m.length = 16 ∧ m'.length = 16 ∧ m.take keylen = m'.take keylen ∧
      aesInitKey m keylen = some c ∧ aesInitKey m' keylen = some c' ∧
      wbaesGenTableArg r ro m keylen = some w ∧ wbaesGenTableArg r' ro' m' keylen = some w' ∧
      Model.aesEncrypt c zeroBlock ≠ Model.aesEncrypt c' zeroBlock ∧ wbaesEncrypt w zeroBlock ≠ wbaesEncrypt w' zeroBlock := by
  have hb : ∀ k : Block, rdBlk k.toList 0 = some k := by
    intro k
    obtain ⟨k', h1, h2⟩ := rdBlk_take k.toList (by simp)
    rw [h1]
    congr 1
    apply Vector.toList_inj.1
    rw [h2, List.take_of_length_le (by simp)]
  have hc : ∀ k : Block, aesInitKey k.toList keylen = some (aesSetEncryptKey k) := by
    intro k
    rw [aesInitKey, if_neg (by simp), hb]
    rfl
  have hw : aes128 zeroBlock zeroBlock ≠ aes128 (zeroBlock.set 15 1) zeroBlock := by
    rw [← aesEval_eq, ← aesEval_eq]
    exact last_byte_witness
  refine ⟨zeroBlock.toList, (zeroBlock.set 15 1).toList, _, _, wbaesGenTable r ro zeroBlock, wbaesGenTable r' ro' (zeroBlock.set 15 1),
    by simp, by simp, ?_, hc _, hc _, ?_, ?_, ?_, ?_⟩
  · apply List.ext_getElem
    · simp
    · intro i h1 h2
      have hi : i < keylen := by
        rw [List.length_take] at h1; omega
      simp only [List.getElem_take, Vector.getElem_toList, Vector.getElem_set]
      rw [if_neg (by omega)]
  · rw [wbaesGenTableArg, hb]; rfl
  · rw [wbaesGenTableArg, hb]; rfl
  · rw [show Model.aesEncrypt (aesSetEncryptKey zeroBlock) zeroBlock = aes128 zeroBlock zeroBlock from libEncrypt_eq _ _,
      show Model.aesEncrypt (aesSetEncryptKey (zeroBlock.set 15 1)) zeroBlock = aes128 (zeroBlock.set 15 1) zeroBlock from
        libEncrypt_eq _ _]
    exact hw
  · rw [C41_wbaes_is_aes, C41_wbaes_is_aes]
    exact hw

/-- C99: the SM4 contexts are functions of the key alone: memory behind it, and key bytes after the sixteenth, have no influence. -/
theorem C99_sm4_reads_key_only (m m' : List Byte) (n n' : Nat) (h : n ≤ m.length) (h' : n' ≤ m'.length)
    (he : (m.take n).take 16 = (m'.take n').take 16) (r : Wbsm4Rnd) (junk : Nat → WbRound) (mode : EncMode) (d : Nat) (se : SeRnd) :
    sm4InitKeyArg m n mode = sm4InitKeyArg m' n' mode ∧
    wbsm4GenTableArg r junk mode d m n = wbsm4GenTableArg r junk mode d m' n' ∧
    seGenTableArg se mode m n = seGenTableArg se mode m' n' := by
  rw [List.take_take, List.take_take] at he
  have e : keyArg m n = keyArg m' n' := by
    rw [keyArg_some m n (by omega), keyArg_some m' n' (by omega), Nat.min_comm n, Nat.min_comm n', he]
  exact ⟨by rw [sm4InitKeyArg, sm4InitKeyArg, e], by rw [wbsm4GenTableArg, wbsm4GenTableArg, e],
    by rw [seGenTableArg, seGenTableArg, e]⟩

example : (([1, 2, 3, 9] : List Byte).take 3).take 16 = (([1, 2, 3, 8, 7] : List Byte).take 3).take 16 := by decide

end Verif.Props
