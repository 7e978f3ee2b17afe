import Verif.Props.WbaesExtract
import Verif.Props.WbGcm

/-!
Property C86: the contexts of the white-box GCM modes reveal the key, and the two contexts of the masked mode can each do the
work of the other.
-/
set_option autoImplicit false

namespace Verif.Props
open Verif Spec Model

/-- C86: the key of white-box GCM with external encodings is read off the AES tables of its context; the external encodings
touch the last round only. -/
theorem C86_ee_key_extraction (r : WbaesRnd) (r1 r2 : Fin 16 → Nat → BitVec 32) (junk : Vector (Fin 256) 256) (key : Block) :
    wbaesExtract (wbEeGenTable r r1 r2 junk key).tab = key := extract_tables r _ key

/-- C86: so is the key of the masked mode, from either of the two contexts. -/
theorem C86_mask_key_extraction (re rd : WbaesRnd) (roe rod : Fin 16 → Fin 2 → Nat → BitVec 32) (r : WbMaskRnd) (key : Block) :
    wbaesExtract (wbMaskGenTable re rd roe rod r key).1.tab = key ∧
    wbaesExtract (wbMaskGenTable re rd roe rod r key).2.tab = key :=
  ⟨C81_wbaes_key_extraction re roe key, C81_wbaes_key_extraction rd rod key⟩

/-- The matrices a masked context holds, applied byte by byte. -/
def byOwnMatrices (k : WbMaskKey) (l : List Byte) : List Byte :=
  l.mapIdx fun i b => matMulNum (k.L1 ⟨i % 16, Nat.mod_lt _ (by decide)⟩) b

/-- Decryption with an encryption context only: its own matrices, encryption, its own matrices. -/
def decryptByEncContext (k : WbMaskKey) (iv aad ct : List Byte) : Option (List Byte) :=
  (wbSeal (wbMaskInit k) iv aad (byOwnMatrices k ct) (List.replicate ct.length 0) ct.length 0).map fun o => byOwnMatrices k o.2.1

/-- Encryption with a decryption context only. -/
def encryptByDecContext (k : WbMaskKey) (iv aad p : List Byte) : Option (List Byte) :=
  (wbOpen (wbMaskInit k) iv aad (byOwnMatrices k p) (List.replicate p.length 0) p.length 0).map fun o => byOwnMatrices k o.2.1

theorem layer_layer (L L' : Fin 16 → Byte → Byte) (h : ∀ i b, L' i (L i b) = b) (l : List Byte) : layer L' (layer L l) = l := by
  apply List.ext_getElem
  · simp [layer]
  · intro i h1 h2
    simp [layer, h]

theorem length_layer (L : Fin 16 → Byte → Byte) (l : List Byte) : (layer L l).length = l.length := by simp [layer]

theorem maskL_inv' (r : WbMaskRnd) (i : Fin 16) (b : Byte) : maskL r i (maskLinv r i b) = b := (genM8_ok _).2 b

theorem gctr_gctr (E : Block → Block) (x : List Byte) : ∀ v, gctr E v (gctr E v x) = x := by
  induction x using chunks_induction with
  | nil => intro v; rfl
  | step x hx ih =>
    intro v
    rw [gctr, chunks_gctr_step _ _ _ hx, gctrPieces]
    have h := ih (inc32 v)
    rw [gctr] at h
    rw [h]
    conv => rhs; rw [← List.take_append_drop 16 x]
    congr 1
    apply List.ext_getElem
    · simp
    · intro i h1 h2
      simp [BitVec.xor_assoc]

theorem gcmCipher_twice (E : Block → Block) (iv p : List Byte) : gcmCipher E iv (gcmCipher E iv p) = p := gctr_gctr E p _

theorem length_gcmCipher (E : Block → Block) (iv p : List Byte) : (gcmCipher E iv p).length = p.length := length_gctr E _ _

theorem own_enc (re rd : WbaesRnd) (roe rod : Fin 16 → Fin 2 → Nat → BitVec 32) (r : WbMaskRnd) (key : Block) (l : List Byte) :
    byOwnMatrices (wbMaskGenTable re rd roe rod r key).1 l = layer (maskLinv r) l := rfl

theorem own_dec (re rd : WbaesRnd) (roe rod : Fin 16 → Fin 2 → Nat → BitVec 32) (r : WbMaskRnd) (key : Block) (l : List Byte) :
    byOwnMatrices (wbMaskGenTable re rd roe rod r key).2 l = layer (maskL r) l := rfl

/-- C86: whoever holds the encryption context of the masked mode decrypts everything encrypted with it: without the decryption
context and without looking for the key. -/
theorem C86_enc_context_decrypts (re rd : WbaesRnd) (roe rod : Fin 16 → Fin 2 → Nat → BitVec 32) (r : WbMaskRnd) (key : Block)
    (iv aad p out : List Byte) (outlen n : Nat) (hn : n ≤ 16) (hiv : iv.length < 2 ^ 29)
    (ha : aad.length < 2 ^ 61) (hp : p.length < 2 ^ 31) (ho : p.length ≤ outlen) (hb : outlen ≤ out.length) :
    ∃ o tag, wbSeal (wbMaskInit (wbMaskGenTable re rd roe rod r key).1) iv aad p out outlen n = some (1, o, tag) ∧
      decryptByEncContext (wbMaskGenTable re rd roe rod r key).1 iv aad (o.take p.length) = some p := by
  obtain ⟨o, tag, -, h1, h2, -⟩ := C43_mask_roundtrip re rd roe rod r key iv aad p out out outlen outlen n n hn hn hiv ha hp ho hb ho hb
  refine ⟨o, tag, h1, ?_⟩
  have hl : (layer (maskL r) (gcmCipher (aes128 key) iv p)).length = p.length := by rw [length_layer, length_gcmCipher]
  have ht : o.take p.length = layer (maskL r) (gcmCipher (aes128 key) iv p) := by
    rw [h2, ← hl, List.take_left]
  rw [ht, decryptByEncContext, own_enc, hl, layer_layer _ _ (maskL_inv r)]
  obtain ⟨o2, t2, -, h3, h4, -⟩ := C43_mask_roundtrip re rd roe rod r key iv aad (gcmCipher (aes128 key) iv p)
    (List.replicate p.length 0) (List.replicate p.length 0) p.length p.length 0 0 (by decide) (by decide) hiv ha
    (by rw [length_gcmCipher]; exact hp) (by rw [length_gcmCipher]) (by simp) (by rw [length_gcmCipher]) (by simp)
  rw [h3, Option.map_some, own_enc, h4, gcmCipher_twice, length_gcmCipher, List.drop_of_length_le (by simp), List.append_nil,
    layer_layer _ _ (maskL_inv r)]

/-- C86: whoever holds the decryption context produces the ciphertexts of the encryption context. -/
theorem C86_dec_context_encrypts (re rd : WbaesRnd) (roe rod : Fin 16 → Fin 2 → Nat → BitVec 32) (r : WbMaskRnd) (key : Block)
    (iv aad p out : List Byte) (outlen n : Nat) (hn : n ≤ 16) (hiv : iv.length < 2 ^ 29)
    (ha : aad.length < 2 ^ 61) (hp : p.length < 2 ^ 31) (ho : p.length ≤ outlen) (hb : outlen ≤ out.length) :
    ∃ o tag, wbSeal (wbMaskInit (wbMaskGenTable re rd roe rod r key).1) iv aad p out outlen n = some (1, o, tag) ∧
      encryptByDecContext (wbMaskGenTable re rd roe rod r key).2 iv aad p = some (o.take p.length) := by
  obtain ⟨o, tag, -, h1, h2, -⟩ := C43_mask_roundtrip re rd roe rod r key iv aad p out out outlen outlen n n hn hn hiv ha hp ho hb ho hb
  refine ⟨o, tag, h1, ?_⟩
  have hl : (layer (maskL r) (gcmCipher (aes128 key) iv p)).length = p.length := by rw [length_layer, length_gcmCipher]
  have ht : o.take p.length = layer (maskL r) (gcmCipher (aes128 key) iv p) := by
    rw [h2, ← hl, List.take_left]
  rw [ht, encryptByDecContext, own_dec]
  obtain ⟨o2, t2, t3, h3, h4, h5⟩ := C43_mask_roundtrip re rd roe rod r key iv aad (gcmCipher (aes128 key) iv p)
    (List.replicate p.length 0) (List.replicate p.length 0) p.length p.length 0 0 (by decide) (by decide) hiv ha
    (by rw [length_gcmCipher]; exact hp) (by rw [length_gcmCipher]) (by simp) (by rw [length_gcmCipher]) (by simp)
  have hl2 : (layer (maskL r) p).length = p.length := length_layer _ _
  have ho2 : o2.take (gcmCipher (aes128 key) iv p).length = layer (maskL r) p := by
    rw [h4, gcmCipher_twice, length_gcmCipher, ← hl2, List.take_left]
  rw [ho2] at h5
  rw [h5, Option.map_some, own_dec, length_gcmCipher, List.drop_of_length_le (by simp), List.append_nil]

/-- A case of the hypotheses: 12 bytes of IV, a message of 33 bytes, output buffers of its size. -/
example (re rd : WbaesRnd) (roe rod : Fin 16 → Fin 2 → Nat → BitVec 32) (r : WbMaskRnd) (key : Block) :
    ∃ o tag, wbSeal (wbMaskInit (wbMaskGenTable re rd roe rod r key).1) (List.replicate 12 7) [1, 2] (List.replicate 33 9)
        (List.replicate 33 0) 33 16 = some (1, o, tag) ∧
      decryptByEncContext (wbMaskGenTable re rd roe rod r key).1 (List.replicate 12 7) [1, 2] (o.take 33) =
        some (List.replicate 33 9) :=
  C86_enc_context_decrypts re rd roe rod r key (List.replicate 12 7) [1, 2] (List.replicate 33 9) (List.replicate 33 0) 33 16
    (by decide) (by decide) (by decide) (by decide) (by decide) (by decide)

end Verif.Props
