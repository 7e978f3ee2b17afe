import Verif.Model.FpeAppInit
import Verif.Props.AesWrap
import Verif.Props.Wbaes
import Verif.Props.Wbsm4
import Verif.Props.FpeApp

/-!
# C67: the context of the format preserving functions

Which cipher a context of a given name computes, for every key and every random choice.
-/
set_option autoImplicit false

namespace Verif.Props
open Verif Spec Model

theorem appInputKey_long (mem : AppInitMem) (key : List Byte) (keylen : Nat) (k : Block) (hk : 16 ≤ keylen)
    (ht : k.toList = key.take 16) : appInputKey mem key keylen = some k := by
  have hl : 16 ≤ key.length := by
    have := congrArg List.length ht
    simp at this
    omega
  unfold appInputKey
  simp only [if_pos hk]
  rw [if_pos hl]
  congr 1
  apply Vector.ext
  intro i hi
  rw [Vector.getElem_ofFn, if_pos hi]
  have : key[i]? = some k[i] := by
    have : (key.take 16)[i]? = k.toList[i]? := by rw [ht]
    rw [List.getElem?_take_of_lt hi] at this
    rw [this]
    simp
  simp [List.getD, this]

theorem aesInitKey_block (k : Block) : aesInitKey k.toList 16 = some (aesSetEncryptKey k) := by
  have := rdBlk_append [] k []
  simp only [List.nil_append, List.length_nil, List.append_nil] at this
  rw [aesInitKey, if_neg (by simp), this]
  rfl

theorem aesEncrypt_fun (k : Block) : Model.aesEncrypt (aesSetEncryptKey k) = aes128 k :=
  funext fun x => libEncrypt_eq k x

theorem appInit_of_key (mem : AppInitMem) (key : List Byte) (keylen : Nat) (ffx : String) (k : Block)
    (hk : appInputKey mem key keylen = some k) :
    fpeAppInit mem key keylen "aes" ffx = some ⟨aes128 k, ffxOf ffx⟩ ∧
    fpeAppInit mem key keylen "wbaes" ffx = some ⟨aes128 k, ffxOf ffx⟩ ∧
    fpeAppInit mem key keylen "sm4" ffx = some ⟨Spec.sm4Encrypt k, ffxOf ffx⟩ ∧
    (∀ name, name ≠ "sm4" → name ≠ "wbsm4" → name ≠ "wbaes" →
      fpeAppInit mem key keylen name ffx = some ⟨aes128 k, ffxOf ffx⟩) := by
  have hw : wbaesEncrypt (wbaesGenTable mem.aes mem.aesOut k) = aes128 k :=
    funext fun x => C41_wbaes_is_aes mem.aes mem.aesOut k x
  have hs : Model.sm4Encrypt (sm4InitKey k.toList .encrypt) = Spec.sm4Encrypt k := funext fun x => (C30_sm4_standard k x).1
  refine ⟨?_, ?_, ?_, ?_⟩
  · rw [fpeAppInit, hk]
    simp only [Option.bind_some]
    rw [if_neg (by decide), if_neg (by decide), if_pos True.intro, aesInitKey_block, Option.bind_some, aesEncrypt_fun]
  · rw [fpeAppInit, hk]
    simp only [Option.bind_some]
    rw [if_neg (by decide), if_neg (by decide), if_neg (by decide), if_pos True.intro, hw]
  · rw [fpeAppInit, hk]
    simp only [Option.bind_some]
    rw [if_pos True.intro, hs]
  · intro name h1 h2 h3
    rw [fpeAppInit, hk]
    simp only [Option.bind_some]
    rw [if_neg h1, if_neg h2, if_neg h3, aesInitKey_block, Option.bind_some, aesEncrypt_fun, ite_self]

/-- C67: with at least 16 key bytes, `aes`, `wbaes` and every unknown name give AES-128 under the first 16 bytes, `sm4` gives
SM4; the white-box random choices and the memory contents have no influence. -/
theorem C67_app_cipher (mem : AppInitMem) (key : List Byte) (keylen : Nat) (ffx : String) (k : Block) (hk : 16 ≤ keylen)
    (ht : k.toList = key.take 16) :
    fpeAppInit mem key keylen "aes" ffx = some ⟨aes128 k, ffxOf ffx⟩ ∧
    fpeAppInit mem key keylen "wbaes" ffx = some ⟨aes128 k, ffxOf ffx⟩ ∧
    fpeAppInit mem key keylen "sm4" ffx = some ⟨Spec.sm4Encrypt k, ffxOf ffx⟩ ∧
    (∀ name, name ≠ "sm4" → name ≠ "wbsm4" → name ≠ "wbaes" →
      fpeAppInit mem key keylen name ffx = some ⟨aes128 k, ffxOf ffx⟩) :=
  appInit_of_key mem key keylen ffx k (appInputKey_long mem key keylen k hk ht)

/-- C67, `wbsm4`: the context is always made, and there is a position `a ≤ 32` of the dummy group such that on every
block it computes SM4 exactly if the uninitialised dummy tables cancel. -/
theorem C67_app_wbsm4 (mem : AppInitMem) (key : List Byte) (keylen : Nat) (ffx : String) (k : Block) (hk : 16 ≤ keylen)
    (ht : k.toList = key.take 16) :
    ∃ a app, a ≤ 32 ∧ fpeAppInit mem key keylen "wbsm4" ffx = some app ∧ app.ffx = ffxOf ffx ∧
      ∀ x, (app.E x = Spec.sm4Encrypt k x ↔ ∀ j, j < 4 → junkXor (mem.sm4Junk (a + j)) = 0) := by
  obtain ⟨a, ctx, ha, hg, he⟩ := C37_one_group mem.sm4 mem.sm4Junk .encrypt k.toList
  refine ⟨a, ⟨wbsm4Encrypt ctx, ffxOf ffx⟩, ha, ?_, rfl, fun x => ?_⟩
  · rw [fpeAppInit, appInputKey_long mem key keylen k hk ht]
    simp only [Option.bind_some]
    rw [if_neg (by decide), if_pos True.intro, hg]
    rfl
  · rw [← (C30_sm4_standard k x).1]
    exact he x

/-- C67, defect: for every key and random choice there are memory contents for which the `wbsm4` context differs from
the `sm4` context on every block. -/
theorem C67_app_wbsm4_wrong (mem : AppInitMem) (key : List Byte) (keylen : Nat) (ffx : String) (k : Block) (hk : 16 ≤ keylen)
    (ht : k.toList = key.take 16) :
    ∃ junk app, fpeAppInit { mem with sm4Junk := junk } key keylen "wbsm4" ffx = some app ∧
      ∀ x, app.E x ≠ Spec.sm4Encrypt k x := by
  let bad : WbRound := ⟨fun _ _ _ => 0, fun _ _ => 0, fun j x => if j = 0 ∧ x = 0 then 5 else 0, fun _ _ => 0⟩
  have hb : junkXor bad ≠ 0 := by decide
  obtain ⟨a, app, _, h1, _, h2⟩ := C67_app_wbsm4 { mem with sm4Junk := fun _ => bad } key keylen ffx k hk ht
  refine ⟨fun _ => bad, app, h1, fun x hx => ?_⟩
  exact hb ((h2 x).1 hx 0 (by decide))

theorem last_byte_witness :
    aesEval zeroBlock zeroBlock ≠ aesEval (zeroBlock.set 15 1) zeroBlock := by decide +kernel

/-- C67, defect: with fewer than 16 key bytes the cipher depends on uninitialised memory. -/
theorem C67_app_short_key (mem : AppInitMem) (keylen : Nat) (ffx : String) (hk : keylen < 16) :
    ∃ (key : List Byte) (j1 j2 : Nat → Byte) (a1 a2 : FpeApp), key.length = keylen ∧
      fpeAppInit { mem with inputKey := j1 } key keylen "aes" ffx = some a1 ∧
      fpeAppInit { mem with inputKey := j2 } key keylen "aes" ffx = some a2 ∧ a1.E zeroBlock ≠ a2.E zeroBlock := by
  have e1 : appInputKey { mem with inputKey := fun _ => 0 } (List.replicate keylen 0) keylen = some zeroBlock := by
    unfold appInputKey
    simp only [if_neg (show ¬ 16 ≤ keylen by omega)]
    rw [if_pos (by simp)]
    congr 1
    apply Vector.ext
    intro i hi
    rw [Vector.getElem_ofFn]
    simp only [zeroBlock, Vector.getElem_replicate]
    split
    · rename_i h; simp [List.getD, h]
    · rfl
  have e2 : appInputKey { mem with inputKey := fun i => if i = 15 then 1 else 0 } (List.replicate keylen 0) keylen =
      some (zeroBlock.set 15 1) := by
    unfold appInputKey
    simp only [if_neg (show ¬ 16 ≤ keylen by omega)]
    rw [if_pos (by simp)]
    congr 1
    apply Vector.ext
    intro i hi
    rw [Vector.getElem_ofFn, Vector.getElem_set]
    simp only [zeroBlock, Vector.getElem_replicate]
    split
    · rename_i h
      rw [if_neg (by omega)]
      simp [List.getD, h]
    · by_cases h15 : i = 15
      · subst h15; rfl
      · rw [if_neg h15, if_neg (by omega)]
  refine ⟨List.replicate keylen 0, fun _ => 0, fun i => if i = 15 then 1 else 0, _, _, by simp,
    (appInit_of_key _ _ _ ffx _ e1).1, (appInit_of_key _ _ _ ffx _ e2).1, ?_⟩
  show aes128 zeroBlock zeroBlock ≠ aes128 (zeroBlock.set 15 1) zeroBlock
  rw [← aesEval_eq, ← aesEval_eq]
  exact last_byte_witness

/-- C67, consequence: phone numbers encrypted through the white-box AES context decrypt through a plain AES context of the same key
(and the other way round), since both are the same function; stated for the hidden digits of any sample. -/
theorem C67_phone_across (mem mem' : AppInitMem) (key : List Byte) (keylen : Nat) (ffx : String) (k : Block)
    (hk : 16 ≤ keylen) (ht : k.toList = key.take 16) (lg : Nat → Nat → Nat) (m m' : AppMem) (p s a : List Byte) :
    ∃ wb pl, fpeAppInit mem key keylen "wbaes" ffx = some wb ∧ fpeAppInit mem' key keylen "aes" ffx = some pl ∧
      encryptPhone wb lg m p s a = encryptPhone pl lg m p s a ∧ decryptPhone wb lg m' p s a = decryptPhone pl lg m' p s a :=
  ⟨_, _, (C67_app_cipher mem key keylen ffx k hk ht).2.1, (C67_app_cipher mem' key keylen ffx k hk ht).1, rfl, rfl⟩

example : (16 : Nat) ≤ 20 ∧ zeroBlock.toList = (List.replicate 20 0).take 16 := by decide

end Verif.Props
