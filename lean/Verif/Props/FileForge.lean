import Verif.Props.WbGcmFile
import Verif.Props.GcmFileMore
import Verif.Props.GcmParallel

/-! Property C143: what somebody without the key can make of an encrypted file. -/
set_option autoImplicit false

namespace Verif.Props
open Verif Spec Model

/-- File encryption and decryption as a user sees them: return value and what happens to the files. -/
abbrev EncFn := Vector Byte 4 → FS → Path → Path → Option (Nat × List FsOp)
abbrev DecFn := FS → Path → Path → Option (Nat × List FsOp)

def encPlain (c : GcmCtx) : EncFn := fun j fs inp out => (gcmfileEncrypt c j fs inp out).map fun r => (r.ret, r.log)
def decPlain (c : GcmCtx) : DecFn := fun fs inp out => (gcmfileDecrypt c fs inp out).map fun r => (r.ret, r.log)
def encWb (c : WbGcmCtx) : EncFn := fun j fs inp out => (wbgcmfileEncrypt c j fs inp out).map fun r => (r.ret, r.log)
def decWb (c : WbGcmCtx) : DecFn := fun fs inp out => (wbgcmfileDecrypt c fs inp out).map fun r => (r.ret, r.log)

/-- A sender and a receiver: two plain contexts in the same state, or two white-box contexts (ee mode) of one key prepared with
the same IV and AAD. -/
inductive Partners : EncFn → DecFn → Prop
  | plain (c : GcmCtx) : Partners (encPlain c) (decPlain c)
  | ee (r rr : WbaesRnd) (r1 r2 rr1 rr2 : Fin 16 → Nat → BitVec 32) (jt jt' : Vector (Fin 256) 256) (key : Block) (iv aad : List Byte)
      (hiv : iv.length < 2 ^ 29) (ha : aad.length < 2 ^ 61) :
      Partners (encWb (wbgcmAad (wbgcmSetiv (wbEeInit (wbEeGenTable r r1 r2 jt key)) iv) aad))
        (decWb (wbgcmAad (wbgcmSetiv (wbEeInit (wbEeGenTable rr rr1 rr2 jt' key)) iv) aad))

/-! ### specification -/

/-- The file `content` was made from `d`. -/
def Encrypted (enc : EncFn) (d content : List Byte) : Prop :=
  ∃ junk fs inp out log, inp ≠ out ∧ inp ≠ tmpPath out ∧ fs inp = some d ∧ enc junk fs inp out = some (1, log) ∧
    applyOps fs log out = some content

/-- A file `content`, wherever it is, is decrypted to `plain`, and the call returns 1. -/
def Opens (dec : DecFn) (content plain : List Byte) : Prop :=
  ∀ fs inp out, inp ≠ out → fs inp = some content → ∃ log, dec fs inp out = some (1, log) ∧ applyOps fs log out = some plain

/-- Bytes xored one by one (the shorter length). -/
def xorBytes (a b : List Byte) : List Byte := List.zipWith (· ^^^ ·) a b

/-- A file put together: 16 bytes in place of the tag, the length of the body, four bytes, the body. -/
def fileOf (tag : Block) (j : Vector Byte 4) (body : List Byte) : List Byte :=
  tag.toList ++ ((List.range 4).map (fun i => BitVec.ofNat 8 (body.length / 256 ^ i)) ++ j.toList) ++ body

/-! ### lemmas -/

theorem sizeBuf_bytes (n : Nat) (j : Vector Byte 4) (h : n < 2 ^ 31) :
    sizeBuf n j = (List.range 4).map (fun i => BitVec.ofNat 8 (n / 256 ^ i)) ++ j.toList := by
  unfold sizeBuf
  simp only [List.range_succ, List.range_zero, List.nil_append, List.map_cons, List.map_nil, List.cons_append]
  have key : ∀ i, i ≤ 24 → ((BitVec.ofNat 32 n >>> i).truncate 8 : BitVec 8) = BitVec.ofNat 8 (n / 2 ^ i) := by
    intro i hi
    apply BitVec.eq_of_toNat_eq
    simp [BitVec.toNat_ushiftRight, Nat.shiftRight_eq_div_pow, Nat.mod_eq_of_lt (show n < 4294967296 by omega)]
  have k0 : (BitVec.ofNat 32 n).truncate 8 = BitVec.ofNat 8 (n / 256 ^ 0) := by
    simp
  rw [key 8 (by omega), key 16 (by omega), key 24 (by omega), k0]
  rfl

theorem fileOf_eq (tag : Block) (j : Vector Byte 4) (body : List Byte) (h : body.length < 2 ^ 31) :
    fileOf tag j body = encContent tag.toList j body := by
  rw [fileOf, encContent, sizeBuf_bytes _ _ h]

theorem fileOf_drop (tag : Block) (j : Vector Byte 4) (body : List Byte) : (fileOf tag j body).drop 24 = body := by
  rw [fileOf, List.drop_left' (by simp)]

theorem as_block (l : List Byte) (h : l.length = 16) : ∃ b : Block, b.toList = l := by
  obtain ⟨bs, hb⟩ := exists_blocks l (by omega)
  have := congrArg List.length hb
  rw [length_fromBlocks, h] at this
  obtain ⟨b, rfl⟩ := List.length_eq_one_iff.mp (show bs.length = 1 by omega)
  exact ⟨b, by simpa using hb⟩

/-- What the two sides do, in terms of counter mode. -/
structure Stream (enc : EncFn) (dec : DecFn) (S : List Byte → List Byte) : Prop where
  writes : ∀ d content, d.length < 2 ^ 31 → Encrypted enc d content → ∃ tag j, content = fileOf tag j (S d)
  opens : ∀ tag j t, t.length < 2 ^ 31 → Opens dec (fileOf tag j (S t)) t

theorem plain_stream (c : GcmCtx) : Stream (encPlain c) (decPlain c) (gctr c.block (inc32 (toBV c.y))) := by
  constructor
  · rintro d content hl ⟨junk, fs, inp, out, log, h1, h2, hd, he, ho⟩
    obtain ⟨r, tag, c1, c2, a1, a2, -, -, -, a6, a7⟩ := encrypt_eq c junk fs inp out d h1 h2 hd hl
    rw [encPlain, a1] at he
    simp only [Option.map_some, Option.some.injEq, Prod.mk.injEq] at he
    have hr := (log_result fs (tmpPath out) out (gctr c.block (inc32 (toBV c.y)) d)
      (encContent tag junk (gctr c.block (inc32 (toBV c.y)) d)) (tmpPath_ne out)).1
    rw [← a7, he.2, ho] at hr
    obtain ⟨b, rfl⟩ := as_block tag a6
    exact ⟨b, junk, by rw [fileOf_eq _ _ _ (by rwa [length_gctr])]; exact Option.some.inj hr⟩
  · intro tag j t hl fs inp out h1 hf
    have hlen := length_gctr c.block (inc32 (toBV c.y)) t
    rw [fileOf_eq _ _ _ (by omega)] at hf
    obtain ⟨g1, g2, g3⟩ := encContent_drop tag.toList (gctr c.block (inc32 (toBV c.y)) t) j (by simp)
    obtain ⟨r, a1, a2, a3⟩ := decrypt_eq c fs inp out _ h1 hf (by omega) (by omega)
    rw [g1, g2, fileSize_sizeBuf _ _ (by omega), if_pos rfl] at a2
    rw [g1, gctr_gctr] at a3
    refine ⟨r.log, by rw [decPlain, a1, Option.map_some, a2], ?_⟩
    rw [a3]
    exact applyOps_trunc_put fs out t

theorem boxed_stream {w w' : WbGcmCtx} {E : Block → Block} {enc enc' : Fin 16 → Byte → Byte} {comb comb' : Comb}
    (B : Boxed w E enc comb) (B' : Boxed w' E enc' comb') (hinv : ∀ i a e, comb' i (comb i a e) e = a) (iv aad : List Byte)
    (hiv : iv.length < 2 ^ 29) (ha : aad.length < 2 ^ 61) :
    Stream (encWb (wbgcmAad (wbgcmSetiv w iv) aad)) (decWb (wbgcmAad (wbgcmSetiv w' iv) aad)) (stream comb E (inc32 (j0 E iv))) := by
  constructor
  · rintro d content hl ⟨junk, fs, inp, out, log, h1, h2, hd, he, ho⟩
    obtain ⟨r, a1, a2, a3⟩ := wb_encrypt_eq B iv aad junk fs inp out d hiv ha h1 h2 hd hl
    rw [encWb, a1] at he
    simp only [Option.map_some, Option.some.injEq, Prod.mk.injEq] at he
    have hr := (log_result fs (tmpPath out) out (stream comb E (inc32 (j0 E iv)) d)
      (encContent (wbTag enc comb E iv aad (stream comb E (inc32 (j0 E iv)) d) 16) junk
          (stream comb E (inc32 (j0 E iv)) d)) (tmpPath_ne out)).1
    rw [← a3, he.2, ho] at hr
    obtain ⟨b, hb⟩ := as_block _ (length_wbTag enc comb E iv aad (stream comb E (inc32 (j0 E iv)) d))
    exact ⟨b, junk, by rw [fileOf_eq _ _ _ (by rwa [length_stream]), hb]; exact Option.some.inj hr⟩
  · intro tag j t hl fs inp out h1 hf
    rw [fileOf_eq _ _ _ (by rwa [length_stream])] at hf
    obtain ⟨r, a1, a2, a3, -⟩ := wb_decrypt_eq B' comb hinv iv aad tag.toList j fs inp out t hiv h1 hl (by simp) hf
    exact ⟨r.log, by rw [decWb, a1, Option.map_some, a2], a3⟩

theorem partners_stream {enc : EncFn} {dec : DecFn} (h : Partners enc dec) :
    ∃ (E : Block → Block) (y : Block), Stream enc dec (gctr E (inc32 (toBV y))) := by
  cases h with
  | plain c => exact ⟨_, _, plain_stream c⟩
  | ee r rr r1 r2 rr1 rr2 jt jt' key iv aad hiv ha =>
    refine ⟨aes128 key, ofBV (j0 (aes128 key) iv), ?_⟩
    rw [toBV_ofBV]
    have := boxed_stream (ee_boxed r r1 r2 jt key) (ee_boxed rr rr1 rr2 jt' key) xorComb_inv iv aad hiv ha
    rwa [show stream xorComb (aes128 key) (inc32 (j0 (aes128 key) iv)) = gctr (aes128 key) (inc32 (j0 (aes128 key) iv)) from
      funext fun x => stream_xor _ x _] at this

theorem length_xorBytes (a b : List Byte) : (xorBytes a b).length = min a.length b.length := by
  simp [xorBytes]

theorem gctr_xor (E : Block → Block) (v : BitVec 128) (d m : List Byte) (h : m.length = d.length) :
    gctr E v (xorBytes d m) = xorBytes (gctr E v d) m := by
  have hl : (xorBytes d m).length = d.length := by rw [length_xorBytes, h, Nat.min_self]
  rw [gctr_zeros E (xorBytes d m), gctr_zeros E d, hl]
  apply List.ext_getElem
  · simp [xorBytes, length_gctr, h]
  · intro i h1 h2
    simp only [xorBytes, List.getElem_zipWith]
    rw [BitVec.xor_assoc, BitVec.xor_assoc, BitVec.xor_comm (m[i]'_)]

theorem gctr_take (E : Block → Block) (y : Block) (d : List Byte) (k : Nat) (hk : k ≤ d.length) :
    gctr E (inc32 (toBV y)) (d.take k) = (gctr E (inc32 (toBV y)) d).take k := by
  apply List.ext_getElem?
  intro i
  rcases Nat.lt_or_ge i k with h | h
  · rw [gctr_getElem? E _ y i (by simp; omega), List.getElem?_take_of_lt h, gctr_getElem? E _ y i (by omega)]
    congr 2
    rw [List.getD_eq_getElem?_getD, List.getD_eq_getElem?_getD, List.getElem?_take_of_lt h]
  · rw [List.getElem?_eq_none (by rw [length_gctr]; simp; omega), List.getElem?_eq_none (by simp; omega)]

theorem xorBytes_take (a b : List Byte) (t : List Byte) (hab : a.length = b.length) (h : t.length ≤ a.length) :
    xorBytes (xorBytes a b) t = xorBytes (a.take t.length) (xorBytes (b.take t.length) t) := by
  apply List.ext_getElem
  · simp [xorBytes]; omega
  · intro i h1 h2
    simp [xorBytes, BitVec.xor_assoc]

theorem xorBytes_cancel (a t : List Byte) (h : a.length = t.length) : xorBytes a (xorBytes a t) = t := by
  apply List.ext_getElem
  · simp [xorBytes]; omega
  · intro i h1 h2
    simp [xorBytes, ← BitVec.xor_assoc]

theorem gctr_known (E : Block → Block) (y : Block) (d t : List Byte) (h : t.length ≤ d.length) :
    xorBytes (xorBytes (gctr E (inc32 (toBV y)) d) d) t = gctr E (inc32 (toBV y)) t := by
  have hl := length_gctr E (inc32 (toBV y)) d
  have ht : (d.take t.length).length = t.length := by simp; omega
  rw [xorBytes_take _ _ _ hl (by omega), ← gctr_take E y d _ h, ← gctr_xor _ _ _ _ (by rw [length_xorBytes]; omega),
    xorBytes_cancel _ _ ht]

/-! ### the property -/

/-- C143: bits flipped in the body of a file are the bits flipped in what it is decrypted to, with return value 1. -/
theorem C143_flip {enc : EncFn} {dec : DecFn} (h : Partners enc dec) (d content m : List Byte) (hd : d.length < 2 ^ 31)
    (hw : Encrypted enc d content) (hm : m.length = d.length) :
    Opens dec (content.take 24 ++ xorBytes (content.drop 24) m) (xorBytes d m) := by
  obtain ⟨E, y, hs⟩ := partners_stream h
  obtain ⟨tag, j, rfl⟩ := hs.writes d content hd hw
  have hl := length_gctr E (inc32 (toBV y)) d
  have ht : (fileOf tag j (gctr E (inc32 (toBV y)) d)).take 24 =
      tag.toList ++ ((List.range 4).map (fun i => BitVec.ofNat 8 (d.length / 256 ^ i)) ++ j.toList) := by
    rw [fileOf, List.take_left' (by simp), hl]
  have ho := hs.opens tag j (xorBytes d m) (by rw [length_xorBytes]; omega)
  have hx : (xorBytes (gctr E (inc32 (toBV y)) d) m).length = d.length := by rw [length_xorBytes, hl, hm, Nat.min_self]
  rw [gctr_xor _ _ _ _ hm, fileOf, hx] at ho
  rwa [fileOf_drop, ht]

/-- C143: a file cut after `k` bytes of its body, with the length changed to match and anything for the tag, is decrypted to the
first `k` bytes, with return value 1. -/
theorem C143_cut {enc : EncFn} {dec : DecFn} (h : Partners enc dec) (d content : List Byte) (hd : d.length < 2 ^ 31)
    (hw : Encrypted enc d content) (k : Nat) (hk : k ≤ d.length) (tag : Block) (j : Vector Byte 4) :
    Opens dec (fileOf tag j ((content.drop 24).take k)) (d.take k) := by
  obtain ⟨E, y, hs⟩ := partners_stream h
  obtain ⟨tag', j', rfl⟩ := hs.writes d content hd hw
  rw [fileOf_drop, ← gctr_take E y d k hk]
  exact hs.opens tag j _ (by simp; omega)

/-- C143: who knows what is in one file makes, without the key, a file that is decrypted to any text not longer than it. -/
theorem C143_forge {enc : EncFn} {dec : DecFn} (h : Partners enc dec) (d content : List Byte) (hd : d.length < 2 ^ 31)
    (hw : Encrypted enc d content) (t : List Byte) (ht : t.length ≤ d.length) (tag : Block) (j : Vector Byte 4) :
    Opens dec (fileOf tag j (xorBytes (xorBytes (content.drop 24) d) t)) t := by
  obtain ⟨E, y, hs⟩ := partners_stream h
  obtain ⟨tag', j', rfl⟩ := hs.writes d content hd hw
  rw [fileOf_drop, gctr_known E y d t ht]
  exact hs.opens tag j t (by omega)

/-- C143: who knows what is in one file reads every other file made in the same state of the context, as far as the first is
long. -/
theorem C143_read {enc : EncFn} {dec : DecFn} (h : Partners enc dec) (d content d' content' : List Byte) (hd : d.length < 2 ^ 31)
    (hd' : d'.length < 2 ^ 31) (hw : Encrypted enc d content) (hw' : Encrypted enc d' content') (hl : d'.length ≤ d.length) :
    xorBytes (xorBytes (content.drop 24) d) (content'.drop 24) = d' := by
  obtain ⟨E, y, hs⟩ := partners_stream h
  obtain ⟨tag, j, rfl⟩ := hs.writes d content hd hw
  obtain ⟨tag', j', rfl⟩ := hs.writes d' content' hd' hw'
  rw [fileOf_drop, fileOf_drop, gctr_known E y d _ (by rwa [length_gctr]), gctr_gctr]

/-! ### the masked mode -/

theorem layer_xor (L : Fin 16 → Byte → Byte) (hL : ∀ i a b, L i (a ^^^ b) = L i a ^^^ L i b) (a b : List Byte) :
    layer L (xorBytes a b) = xorBytes (layer L a) (layer L b) := by
  apply List.ext_getElem
  · simp [layer, xorBytes]
  · intro i h1 h2
    simp [layer, xorBytes, hL]

theorem layer_undo (L L' : Fin 16 → Byte → Byte) (h : ∀ i a, L i (L' i a) = a) (l : List Byte) : layer L (layer L' l) = l := by
  apply List.ext_getElem
  · simp [layer]
  · intro i h1 h2
    simp [layer, h]

theorem layer_take (L : Fin 16 → Byte → Byte) (l : List Byte) (k : Nat) : layer L (l.take k) = (layer L l).take k := by
  apply List.ext_getElem
  · simp [layer]
  · intro i h1 h2
    simp [layer]

/-- C143: in the masked mode too a cut file is decrypted to the beginning of the text; a change `m` of the body changes the text
by a fixed linear map of each byte of `m`: exactly the changed bytes change. -/
theorem C143_mask (re rd : WbaesRnd) (roe rod : Fin 16 → Fin 2 → Nat → BitVec 32) (r : WbMaskRnd) (key : Block)
    (iv aad : List Byte) (hiv : iv.length < 2 ^ 29) (ha : aad.length < 2 ^ 61) (d content : List Byte) (hd : d.length < 2 ^ 31)
    (hw : Encrypted (encWb (wbgcmAad (wbgcmSetiv (wbMaskInit (wbMaskGenTable re rd roe rod r key).1) iv) aad)) d content) :
    (∀ (tag : Block) (j : Vector Byte 4) (k : Nat), k ≤ d.length →
      Opens (decWb (wbgcmAad (wbgcmSetiv (wbMaskInit (wbMaskGenTable re rd roe rod r key).2) iv) aad))
        (fileOf tag j ((content.drop 24).take k)) (d.take k)) ∧
    ∃ N : Fin 16 → Byte → Byte, (∀ i, Function.Bijective (N i)) ∧ (∀ i a b, N i (a ^^^ b) = N i a ^^^ N i b) ∧
      ∀ m : List Byte, m.length = d.length →
        Opens (decWb (wbgcmAad (wbgcmSetiv (wbMaskInit (wbMaskGenTable re rd roe rod r key).2) iv) aad))
          (content.take 24 ++ xorBytes (content.drop 24) m) (xorBytes d (layer N m)) := by
  have hs := boxed_stream (mask_enc_boxed re roe r key) (mask_dec_boxed rd rod r key)
    (fun i a e => by rw [maskL_inv, BitVec.xor_assoc, BitVec.xor_self, BitVec.xor_zero]) iv aad hiv ha
  rw [show stream (fun i a e => maskL r i (a ^^^ e)) (aes128 key) (inc32 (j0 (aes128 key) iv)) =
    fun x => layer (maskL r) (gctr (aes128 key) (inc32 (j0 (aes128 key) iv)) x) from funext fun x => stream_layer _ _ x _,
    ← toBV_ofBV (j0 (aes128 key) iv)] at hs
  generalize ofBV (j0 (aes128 key) iv) = y at hs
  obtain ⟨tag', j', rfl⟩ := hs.writes d content hd hw
  have hl := length_gctr (aes128 key) (inc32 (toBV y)) d
  have hinv : ∀ i a, maskL r i (maskLinv r i a) = a := fun i a => (genM8_ok _).2 a
  rw [fileOf_drop]
  constructor
  · intro tag j k hk
    have := hs.opens tag j (d.take k) (by simp; omega)
    simp only [gctr_take _ y d k hk, layer_take] at this
    exact this
  · refine ⟨maskLinv r, fun i => ⟨fun a b h => ?_, fun a => ⟨maskL r i a, maskL_inv r i a⟩⟩, fun i a b => matMulNum_xor _ a b, ?_⟩
    · have := congrArg (maskL r i) h
      rwa [hinv, hinv] at this
    · intro m hm
      have hlm : (layer (maskLinv r) m).length = d.length := by simp [layer, hm]
      have ho := hs.opens tag' j' (xorBytes d (layer (maskLinv r) m)) (by rw [length_xorBytes]; omega)
      simp only [gctr_xor _ _ _ _ hlm] at ho
      rw [layer_xor (maskL r) (fun i a b => matMulNum_xor _ a b), layer_undo _ _ hinv] at ho
      have hx : (xorBytes (layer (maskL r) (gctr (aes128 key) (inc32 (toBV y)) d)) m).length = d.length := by
        rw [length_xorBytes, hm]; simp [layer, hl]
      have ht : (fileOf tag' j' (layer (maskL r) (gctr (aes128 key) (inc32 (toBV y)) d))).take 24 =
          tag'.toList ++ ((List.range 4).map (fun i => BitVec.ofNat 8 (d.length / 256 ^ i)) ++ j'.toList) := by
        rw [fileOf, List.take_left' (by simp)]
        simp [layer, hl]
      rw [fileOf, hx] at ho
      rwa [ht]

/-! ### cases meeting the hypotheses -/

/-- Every context makes a file of every text shorter than `2^31` bytes. -/
theorem plain_encrypted (c : GcmCtx) (d : List Byte) (hd : d.length < 2 ^ 31) : ∃ content, Encrypted (encPlain c) d content := by
  obtain ⟨r, tag, c1, c2, a1, a2, -, -, -, -, a7⟩ := encrypt_eq c (Vector.replicate 4 0)
    (fun p => if p = ['i'] then some d else none) ['i'] ['o'] d (by decide) (by decide) (by simp) hd
  have hr := (log_result (fun p => if p = ['i'] then some d else none) (tmpPath ['o']) ['o'] (gctr c.block (inc32 (toBV c.y)) d)
    (encContent tag (Vector.replicate 4 0) (gctr c.block (inc32 (toBV c.y)) d)) (tmpPath_ne ['o'])).1
  rw [← a7] at hr
  exact ⟨_, Vector.replicate 4 0, _, ['i'], ['o'], r.log, by decide, by decide, by simp, by rw [encPlain, a1, Option.map_some, a2], hr⟩

/-- A file with two bytes in it, changed into one with another byte. -/
example : ∃ content, Encrypted (encPlain (gcmInit id)) [1, 2] content ∧
    Opens (decPlain (gcmInit id)) (fileOf zeroBlock (Vector.replicate 4 0) (xorBytes (xorBytes (content.drop 24) [1, 2]) [9])) [9] := by
  obtain ⟨content, h⟩ := plain_encrypted (gcmInit id) [1, 2] (by decide)
  exact ⟨content, h, C143_forge (.plain _) _ _ (by decide) h [9] (by decide) _ _⟩

end Verif.Props
