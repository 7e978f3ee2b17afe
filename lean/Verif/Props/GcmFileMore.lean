import Verif.Model.GcmFileDisk
import Verif.Props.GcmFile
import Verif.Props.GcmAuth
import Verif.Props.WbGcmExtract
import Verif.Props.Wbsm4Disk

/-! Property C111: large files, contexts used for several files, and full devices in `/repo/src/modes/gcmfile.c`. -/
set_option autoImplicit false
set_option linter.unusedSimpArgs false

namespace Verif.Props
open Verif Spec Model

/-! ### the loop on files of any length -/

theorem foldl_const_iter {α : Type} (f : BitVec 128 → BitVec 128) (l : List α) : ∀ v, l.foldl (fun v _ => f v) v = f^[l.length] v := by
  induction l with
  | nil => intro v; rfl
  | cons a l ih => intro v; rw [List.foldl_cons, ih]; rfl

theorem chunks_split128 (d : List Byte) : chunks d = chunks (d.take 128) ++ chunks (d.drop 128) := by
  by_cases hd : d.length ≤ 128
  · rw [List.take_of_length_le hd, List.drop_of_length_le hd]; simp [chunks, chunksAux]
  · conv => lhs; rw [← List.take_append_drop 128 d]
    exact chunks_append_aligned _ _ (by rw [List.length_take]; omega)

theorem enc_loop_any (d : List Byte) : ∀ c : GcmCtx,
    fileLoop gcmEncrypt c (fpieces d) = some (((chunks d).foldl (encPiece c) (c.y, c.buf, [])).2.2,
      { c with
        len := c.len + BitVec.ofNat 64 d.length,
        y := ((chunks d).foldl (encPiece c) (c.y, c.buf, [])).1,
        buf := ((chunks d).foldl (encPiece c) (c.y, c.buf, [])).2.1 }) := by
  induction d using fpieces_induction with
  | nil => intro c; simp [fpieces, fpiecesAux, fileLoop, chunks, chunksAux]
  | step d hd ih =>
    intro c
    rw [fpieces_of_ne_nil hd, chunks_split128 d, enc_fold_append]
    have hlen : (d.take 128).length ≤ 128 := by rw [List.length_take]; omega
    have hl2 : (d.take 128).length + (d.drop 128).length = d.length := by rw [List.length_take, List.length_drop]; omega
    rw [fileLoop, show gcmEncrypt c (d.take 128) = gcmCrypt encPiece c (d.take 128) from rfl,
      gcmCrypt_eq _ c (d.take 128) _ _ (by omega) (Nat.le_refl _) (by simp)]
    simp only [Option.bind_eq_bind, Option.bind_some, Option.pure_def]
    rw [ih]
    have hlo := (fold_out_length c (d.take 128) c.y c.buf).1
    simp only [Option.bind_some, enc_piece_ctx', BitVec.add_assoc, ← BitVec.ofNat_add, hl2]
    rw [List.take_append_of_le_length (by omega), List.take_of_length_le (by omega)]

theorem dec_loop_any (d : List Byte) : ∀ c : GcmCtx,
    fileLoop gcmDecrypt c (fpieces d) = some (((chunks d).foldl (decPiece c) (c.y, c.buf, [])).2.2,
      { c with
        len := c.len + BitVec.ofNat 64 d.length,
        y := ((chunks d).foldl (decPiece c) (c.y, c.buf, [])).1,
        buf := ((chunks d).foldl (decPiece c) (c.y, c.buf, [])).2.1 }) := by
  induction d using fpieces_induction with
  | nil => intro c; simp [fpieces, fpiecesAux, fileLoop, chunks, chunksAux]
  | step d hd ih =>
    intro c
    rw [fpieces_of_ne_nil hd, chunks_split128 d, dec_fold_append]
    have hlen : (d.take 128).length ≤ 128 := by rw [List.length_take]; omega
    have hl2 : (d.take 128).length + (d.drop 128).length = d.length := by rw [List.length_take, List.length_drop]; omega
    rw [fileLoop, show gcmDecrypt c (d.take 128) = gcmCrypt decPiece c (d.take 128) from rfl,
      gcmCrypt_eq _ c (d.take 128) _ _ (by omega) (Nat.le_refl _) (by simp)]
    simp only [Option.bind_eq_bind, Option.bind_some, Option.pure_def]
    rw [ih]
    have hlo := (fold_out_length c (d.take 128) c.y c.buf).2
    simp only [Option.bind_some, dec_piece_ctx', BitVec.add_assoc, ← BitVec.ofNat_add, hl2]
    rw [List.take_append_of_le_length (by omega), List.take_of_length_le (by omega)]

/-- Number of counter blocks a file uses. -/
def fileBlocks (d : List Byte) : Nat := (d.length + 15) / 16

theorem enc_loop_gctr (d : List Byte) (c : GcmCtx) :
    ∃ c', fileLoop gcmEncrypt c (fpieces d) = some (gctr c.block (inc32 (toBV c.y)) d, c') ∧ c'.block = c.block ∧
      toBV c'.y = inc32^[fileBlocks d] (toBV c.y) := by
  have h := enc_loop_any d c
  rw [(fold_enc_out c _ _ _ _).1] at h
  refine ⟨_, h, rfl, ?_⟩
  show toBV ((chunks d).foldl (encPiece c) (c.y, c.buf, [])).1 = _
  rw [(fold_y c _ _ _ _).1, foldl_const_iter, chunks_count]
  rfl

theorem dec_loop_gctr (d : List Byte) (c : GcmCtx) :
    ∃ c', fileLoop gcmDecrypt c (fpieces d) = some (gctr c.block (inc32 (toBV c.y)) d, c') ∧ c'.block = c.block ∧
      toBV c'.y = inc32^[fileBlocks d] (toBV c.y) := by
  have h := dec_loop_any d c
  rw [(fold_enc_out c _ _ _ _).2] at h
  refine ⟨_, h, rfl, ?_⟩
  show toBV ((chunks d).foldl (decPiece c) (c.y, c.buf, [])).1 = _
  rw [(fold_y c _ _ _ _).2, (fold_y c _ _ _ _).1, foldl_const_iter, chunks_count]
  rfl

theorem gcmfileEncrypt_of (c c1 c2 : GcmCtx) (junk : Vector Byte 4) (fs : FS) (inp out : Path) (d ct tag : List Byte)
    (h1 : inp ≠ out) (h2 : inp ≠ tmpPath out) (hd : fs inp = some d)
    (e1 : fileLoop gcmEncrypt c (fpieces d) = some (ct, c1)) (e2 : gcmFinish c1 16 = some (tag, c2)) :
    ∃ r, gcmfileEncrypt c junk fs inp out = some r ∧ r.ret = 1 ∧ r.ctx = c2 ∧
      applyOps fs r.log out = some (tag ++ sizeBuf d.length junk ++ ct) := by
  have hr : applyOps fs [FsOp.trunc (tmpPath out), FsOp.trunc out] inp = some d := by
    rw [applyOps_other, hd]
    intro o ho
    simp at ho
    rcases ho with rfl | rfl
    · exact Ne.symm h2
    · exact Ne.symm h1
  refine ⟨{ ret := 1, ctx := c2, log := [FsOp.trunc (tmpPath out), FsOp.trunc out] ++ ct.map (FsOp.put (tmpPath out)) ++
    (tag ++ sizeBuf d.length junk ++ ct).map (FsOp.put out) ++ [FsOp.remove (tmpPath out)] }, ?_, rfl, rfl,
    (log_result fs (tmpPath out) out _ _ (tmpPath_ne out)).1⟩
  unfold gcmfileEncrypt
  simp only [hd, hr, e1, e2, Option.bind_eq_bind, Option.bind_some, fpieces_flatten]
  rfl

/-- C111: a file of any length is encrypted in counter mode from wherever the context stands, the return value is 1, and the
context stands one block further for every 16 bytes or part of them. -/
theorem C111_encrypt (c : GcmCtx) (junk : Vector Byte 4) (fs : FS) (inp out : Path) (d : List Byte)
    (h1 : inp ≠ out) (h2 : inp ≠ tmpPath out) (hd : fs inp = some d) :
    ∃ r tag, gcmfileEncrypt c junk fs inp out = some r ∧ r.ret = 1 ∧ tag.length = 16 ∧
      applyOps fs r.log out = some (tag ++ sizeBuf d.length junk ++ gctr c.block (inc32 (toBV c.y)) d) ∧
      r.ctx.block = c.block ∧ toBV r.ctx.y = inc32^[(d.length + 15) / 16] (toBV c.y) := by
  obtain ⟨c1, e1, e2, e2'⟩ := enc_loop_gctr d c
  obtain ⟨tag, c2, e3, e4, e5, e6⟩ := finish16 c1
  obtain ⟨r, r1, r2, r3, r4⟩ := gcmfileEncrypt_of c c1 c2 junk fs inp out d _ tag h1 h2 hd e1 e3
  refine ⟨r, tag, r1, r2, e4, r4, by rw [r3, e5, e2], ?_⟩
  rw [r3, e6, e2']; rfl

/-- C111: the same for decryption, up to a body of `2^31 - 1` bytes. -/
theorem C111_decrypt (c : GcmCtx) (fs : FS) (inp out : Path) (tag body : List Byte) (junk : Vector Byte 4)
    (h1 : inp ≠ out) (ht : tag.length = 16) (hd : fs inp = some (tag ++ sizeBuf body.length junk ++ body))
    (hl : body.length < 2 ^ 31) :
    ∃ r, gcmfileDecrypt c fs inp out = some r ∧ r.ret = 1 ∧
      applyOps fs r.log out = some (gctr c.block (inc32 (toBV c.y)) body) ∧
      r.ctx.block = c.block ∧ toBV r.ctx.y = inc32^[(body.length + 15) / 16] (toBV c.y) := by
  obtain ⟨t, c1, f1, _, f2, f3⟩ := finish16 c
  obtain ⟨c2, e, e2, e3⟩ := dec_loop_gctr body c1
  rw [f2, f3] at e
  have hs := length_sizeBuf body.length junk
  have x1 : (tag ++ sizeBuf body.length junk ++ body).drop 24 = body := by
    rw [List.drop_append_of_le_length (by simp [ht, hs]), List.drop_of_length_le (by simp [ht, hs]), List.nil_append]
  have x2 : ((tag ++ sizeBuf body.length junk ++ body).drop 16).take 8 = sizeBuf body.length junk := by
    rw [List.append_assoc, List.drop_append_of_le_length (by omega), List.drop_of_length_le (by omega), List.nil_append,
      List.take_append_of_le_length (by omega), List.take_of_length_le (by omega)]
  have x3 : (tag ++ sizeBuf body.length junk ++ body).take 16 = tag := by
    rw [List.append_assoc, List.take_append_of_le_length (by omega), List.take_of_length_le (by omega)]
  refine ⟨{ ret := 1, ctx := c2, log := FsOp.trunc out :: (gctr c.block (inc32 (toBV c.y)) body).map (FsOp.put out) }, ?_, rfl,
    ?_, by rw [← f2]; exact e2, by rw [← f3]; exact e3⟩
  · unfold gcmfileDecrypt
    simp only [hd, Option.bind_eq_bind, Option.bind_some, x1, x2, x3]
    rw [if_neg h1, if_neg (by intro h; rw [h] at ht; simp at ht), if_neg (by intro h; rw [h] at hs; simp at hs)]
    simp only [f1, e, Option.bind_some]
    rw [if_neg (by omega), fileSize_sizeBuf _ _ hl, if_pos rfl]
    rfl
  · show applyOps (applyOp fs (FsOp.trunc out)) _ out = _
    rw [applyOps_put out _ _ [] (by simp [applyOp, FsOp.path, FsOp.effect])]
    rfl

/-! ### large files -/

/-- C111: encryption works for files of any size that GCM can count; the tag is the NIST tag. -/
theorem C111_large_encrypt (E : Block → Block) (iv aad : List Byte) (junk : Vector Byte 4) (fs : FS) (inp out : Path) (d : List Byte)
    (hiv : iv.length < 2 ^ 29) (ha : aad.length < 2 ^ 61) (hl : d.length < 2 ^ 61)
    (h1 : inp ≠ out) (h2 : inp ≠ tmpPath out) (hd : fs inp = some d) :
    ∃ r, gcmfileEncrypt (gcmAad (gcmSetiv (gcmInit E) iv) aad) junk fs inp out = some r ∧ r.ret = 1 ∧
      applyOps fs r.log out = some ((gcmTag E iv aad (gcmCipher E iv d)).toList ++ sizeBuf d.length junk ++ gcmCipher E iv d) := by
  have ok := init_ok E
  have hy := setiv_y (gcmInit E) ok iv hiv
  have hout : gctr E (inc32 (toBV (gcmSetiv (gcmInit E) iv).y)) d = gcmCipher E iv d := by
    rw [hy]; rfl
  have hlen : (gcmCipher E iv d).length = d.length := length_gctr _ _ _
  obtain ⟨c', hc'⟩ := finish_eq
    { gcmAad (gcmSetiv (gcmInit E) iv) aad with
      len := (gcmAad (gcmSetiv (gcmInit E) iv) aad).len + BitVec.ofNat 64 d.length,
      y := ((chunks d).foldl (encPiece (gcmAad (gcmSetiv (gcmInit E) iv) aad))
        ((gcmAad (gcmSetiv (gcmInit E) iv) aad).y, (gcmAad (gcmSetiv (gcmInit E) iv) aad).buf, [])).1,
      buf := ((chunks d).foldl (encPiece (gcmAad (gcmSetiv (gcmInit E) iv) aad))
        ((gcmAad (gcmSetiv (gcmInit E) iv) aad).y, (gcmAad (gcmSetiv (gcmInit E) iv) aad).buf, [])).2.1 }
    (h := hashKey E) ok 16 (Nat.le_refl _)
    (by
      intro h1 h2
      have h1' : (0 + BitVec.ofNat 64 d.length) * 8 = 0 := h1
      have h2' : BitVec.ofNat 64 aad.length * 8 = 0 := h2
      rw [show (0 : BitVec 64) = 0#64 from rfl, BitVec.zero_add] at h1'
      have e1 := List.length_eq_zero_iff.mp (mul8_eq_zero hl h1')
      have e2 := List.length_eq_zero_iff.mp (mul8_eq_zero ha h2')
      subst e1 e2
      rfl)
  have htag : (gcmSetiv (gcmInit E) iv).baseEctr ^^^
      ofBV (gfMul (toBV ((chunks d).foldl (encPiece (gcmAad (gcmSetiv (gcmInit E) iv) aad))
        ((gcmAad (gcmSetiv (gcmInit E) iv) aad).y, (gcmAad (gcmSetiv (gcmInit E) iv) aad).buf, [])).2.1 ^^^
        ((BitVec.ofNat 64 aad.length * 8) ++ ((0 + BitVec.ofNat 64 d.length) * 8))) (hashKey E)) =
      gcmTag E iv aad (gcmCipher E iv d) := by
    have hbase : (gcmSetiv (gcmInit E) iv).baseEctr = E (ofBV (j0 E iv)) := by
      show _ = (gcmInit E).block (ofBV (j0 (gcmInit E).block iv))
      rw [← hy, ofBV_toBV]; rfl
    rw [hbase, gcmTag]
    congr 2
    rw [fold_enc_buf (gcmAad (gcmSetiv (gcmInit E) iv) aad) (h := hashKey E) ok]
    have hbuf : toBV (gcmAad (gcmSetiv (gcmInit E) iv) aad).buf =
        ghashFrom (hashKey E) 0 ((chunks aad).map padBV) := by
      show toBV (absorb (gcmInit E).HL (gcmInit E).HH zeroBlock aad) = _
      rw [absorb_eq ok]; rfl
    rw [hbuf]
    show gfMul (ghashFrom _ _ ((chunks (gctr E (inc32 (toBV (gcmSetiv (gcmInit E) iv).y)) d)).map padBV) ^^^
      ((BitVec.ofNat 64 aad.length * 8) ++ ((0 + BitVec.ofNat 64 d.length) * 8))) _ = _
    rw [hout, ghash, ghashFrom_append, ghashFrom_append, show (0 : BitVec 64) = 0#64 from rfl, BitVec.zero_add, ofNat_mul8,
      ofNat_mul8, lenBlock, hlen]
    rfl
  have hl' := enc_loop_any d (gcmAad (gcmSetiv (gcmInit E) iv) aad)
  rw [(fold_enc_out (gcmAad (gcmSetiv (gcmInit E) iv) aad) _ _ _ _).1] at hl'
  rw [List.take_of_length_le (by simp)] at hc'
  obtain ⟨r, r1, r2, _, r4⟩ := gcmfileEncrypt_of _ _ c' junk fs inp out d _ _ h1 h2 hd hl' hc'
  refine ⟨r, r1, r2, r4.trans ?_⟩
  rw [← hout]
  rw [hout, ← htag, ← hout]
  rfl

/-- C111: but a file of `2^31` bytes or more, however it was made, has no defined decryption: the count of bytes is an `int`. -/
theorem C111_large_decrypt (c : GcmCtx) (fs : FS) (inp out : Path) (content : List Byte)
    (hd : fs inp = some content) (hl : 2 ^ 31 + 24 ≤ content.length) : gcmfileDecrypt c fs inp out = none := by
  unfold gcmfileDecrypt
  obtain ⟨t, c1, f1, _⟩ := finish16 c
  obtain ⟨c2, e, _⟩ := dec_loop_gctr (content.drop 24) c1
  simp only [hd, Option.bind_eq_bind, Option.bind_some, f1, e]
  rw [if_pos (show 2 ^ 31 ≤ (content.drop 24).length by rw [List.length_drop]; omega)]
  split
  · rfl
  · split
    · rfl
    · split <;> rfl

/-! ### one context for several files -/

theorem gctr_zeros (E : Block → Block) (d : List Byte) : ∀ v,
    gctr E v d = List.zipWith (· ^^^ ·) d (gctr E v (List.replicate d.length 0)) := by
  induction d using chunks_induction with
  | nil => intro v; rfl
  | step d hd ih =>
    intro v
    have hr : List.replicate d.length (0 : Byte) ≠ [] := by
      intro h; exact hd (List.length_eq_zero_iff.mp (by simpa using congrArg List.length h))
    rw [gctr_step _ _ _ hd, gctr_step _ _ _ hr, ih, List.drop_replicate, List.length_drop]
    conv => rhs; rw [← List.take_append_drop 16 d]
    rw [List.zipWith_append (by simp)]
    congr 1
    · apply List.ext_getElem
      · simp
      · intro i h1 h2
        simp
    · rw [List.take_append_drop]

theorem zipWith_xor_inj (a : List Byte) : ∀ k l : List Byte, k.length = a.length → l.length = a.length →
    (List.zipWith (· ^^^ ·) a k = List.zipWith (· ^^^ ·) a l ↔ k = l) := by
  induction a with
  | nil => intro k l hk hl; simp [List.length_eq_zero_iff.mp hk, List.length_eq_zero_iff.mp hl]
  | cons x a ih =>
    intro k l hk hl
    match k, l with
    | u :: k, w :: l =>
      simp only [List.zipWith_cons_cons, List.cons.injEq, ih k l (by simpa using hk) (by simpa using hl)]
      rw [BitVec.xor_right_inj]

theorem gctr_agree (E : Block → Block) (u v : BitVec 128) (d : List Byte) :
    gctr E u (gctr E v d) = d ↔ gctr E u (List.replicate d.length 0) = gctr E v (List.replicate d.length 0) := by
  have h : gctr E u (gctr E v d) = d ↔ gctr E u d = gctr E v d := by
    constructor
    · intro h
      have := congrArg (gctr E u) h
      rw [gctr_gctr] at this
      exact this.symm
    · intro h
      rw [← h, gctr_gctr]
  rw [h, gctr_zeros E d u, gctr_zeros E d v, zipWith_xor_inj _ _ _ (by simp [length_gctr]) (by simp [length_gctr])]

/-- C111: two files encrypted with one context after one `setiv`.  Both calls return 1.  The second file is encrypted from the
counter the first has reached; a context freshly prepared with the same key and IV decrypts it with return value 1 to a text that
is the original exactly if the two stretches of key stream happen to be equal; decrypting both files in order with one context
returns both. -/
theorem C111_reuse (E : Block → Block) (iv aad : List Byte) (j1 j2 : Vector Byte 4) (fs1 fs2 : FS) (i1 o1 i2 o2 : Path)
    (d1 d2 : List Byte) (hiv : iv.length < 2 ^ 29)
    (h1 : i1 ≠ o1) (h1' : i1 ≠ tmpPath o1) (hd1 : fs1 i1 = some d1) (hl1 : d1.length < 2 ^ 31)
    (h2 : i2 ≠ o2) (h2' : i2 ≠ tmpPath o2) (hd2 : fs2 i2 = some d2) (hl2 : d2.length < 2 ^ 31) :
    ∃ r1 r2 f1 f2, gcmfileEncrypt (gcmAad (gcmSetiv (gcmInit E) iv) aad) j1 fs1 i1 o1 = some r1 ∧ r1.ret = 1 ∧
      gcmfileEncrypt r1.ctx j2 fs2 i2 o2 = some r2 ∧ r2.ret = 1 ∧
      applyOps fs1 r1.log o1 = some f1 ∧ applyOps fs2 r2.log o2 = some f2 ∧
      f2.drop 24 = gctr E (inc32^[(d1.length + 15) / 16 + 1] (j0 E iv)) d2 ∧
      (∀ (fs : FS) (p out : Path), p ≠ out → fs p = some f2 →
        ∃ r x, gcmfileDecrypt (gcmAad (gcmSetiv (gcmInit E) iv) aad) fs p out = some r ∧ r.ret = 1 ∧
          applyOps fs r.log out = some x ∧
          (x = d2 ↔ gctr E (inc32 (j0 E iv)) (List.replicate d2.length 0) =
            gctr E (inc32^[(d1.length + 15) / 16 + 1] (j0 E iv)) (List.replicate d2.length 0))) ∧
      (∀ (fs fs' : FS) (p p' out out' : Path), p ≠ out → p' ≠ out' → fs p = some f1 → fs' p' = some f2 →
        ∃ r r', gcmfileDecrypt (gcmAad (gcmSetiv (gcmInit E) iv) aad) fs p out = some r ∧ r.ret = 1 ∧
          applyOps fs r.log out = some d1 ∧
          gcmfileDecrypt r.ctx fs' p' out' = some r' ∧ r'.ret = 1 ∧ applyOps fs' r'.log out' = some d2) := by
  have hy : toBV (gcmAad (gcmSetiv (gcmInit E) iv) aad).y = j0 E iv := by
    show toBV (gcmSetiv (gcmInit E) iv).y = _
    rw [setiv_y _ (init_ok E) iv hiv]; rfl
  have hb : (gcmAad (gcmSetiv (gcmInit E) iv) aad).block = E := rfl
  obtain ⟨r1, t1, a1, a2, a3, a4, a5, a6⟩ := C111_encrypt (gcmAad (gcmSetiv (gcmInit E) iv) aad) j1 fs1 i1 o1 d1 h1 h1' hd1
  obtain ⟨r2, t2, b1, b2, b3, b4, _, _⟩ := C111_encrypt r1.ctx j2 fs2 i2 o2 d2 h2 h2' hd2
  rw [hb, hy] at a4
  rw [a5, hb, a6, hy, ← Function.iterate_succ_apply' inc32] at b4
  refine ⟨r1, r2, _, _, a1, a2, b1, b2, a4, b4, ?_, ?_, ?_⟩
  · have hs := length_sizeBuf d2.length j2
    rw [List.drop_append_of_le_length (by simp [b3, hs]), List.drop_of_length_le (by simp [b3, hs]), List.nil_append]
  · intro fs p out hp hf
    rw [show sizeBuf d2.length j2 = sizeBuf (gctr E (inc32^[(d1.length + 15) / 16 + 1] (j0 E iv)) d2).length j2 by
      rw [length_gctr]] at hf
    obtain ⟨r, c1, c2, c3, _, _⟩ := C111_decrypt (gcmAad (gcmSetiv (gcmInit E) iv) aad) fs p out t2 _ j2 hp b3 hf
      (by rw [length_gctr]; exact hl2)
    refine ⟨r, _, c1, c2, c3, ?_⟩
    rw [hb, hy]
    exact gctr_agree E _ _ d2
  · intro fs fs' p p' out out' hp hp' hf hf'
    rw [show sizeBuf d1.length j1 = sizeBuf (gctr E (inc32 (j0 E iv)) d1).length j1 by rw [length_gctr]] at hf
    rw [show sizeBuf d2.length j2 = sizeBuf (gctr E (inc32^[(d1.length + 15) / 16 + 1] (j0 E iv)) d2).length j2 by
      rw [length_gctr]] at hf'
    obtain ⟨r, c1, c2, c3, c4, c5⟩ := C111_decrypt (gcmAad (gcmSetiv (gcmInit E) iv) aad) fs p out t1 _ j1 hp a3 hf
      (by rw [length_gctr]; exact hl1)
    obtain ⟨r', e1, e2, e3, _, _⟩ := C111_decrypt r.ctx fs' p' out' t2 _ j2 hp' b3 hf' (by rw [length_gctr]; exact hl2)
    refine ⟨r, r', c1, c2, ?_, e1, e2, ?_⟩
    · rw [c3, hb, hy, gctr_gctr]
    · rw [e3, c4, hb, c5, hy, ← Function.iterate_succ_apply' inc32, length_gctr, gctr_gctr]

/-! ### full devices -/

theorem outPutAny_spec (room : Nat) (flush : Nat → Bool) (ws : List (List Byte)) (hw : ∀ x ∈ ws, x ≠ []) :
    ∀ (st : OutStream) (w : List Byte), OutInv room st w →
      outClose room (outPutAny room flush st ws) = (w ++ ws.flatten).take room := by
  induction ws with
  | nil => intro st w h; rw [List.flatten_nil, List.append_nil]; exact outClose_inv room st w h
  | cons x ws ih =>
    intro st w h
    have := (outPut_inv room flush st w x h (hw x List.mem_cons_self)).1
    rw [List.flatten_cons, ← List.append_assoc]
    exact ih (fun y hy => hw y (List.mem_cons_of_mem _ hy)) _ _ this

theorem outInv_start (room : Nat) : OutInv room ⟨[], [], 0⟩ [] := Or.inl ⟨rfl, Nat.zero_le _⟩

theorem fpieces_ne (l : List Byte) : ∀ p ∈ fpieces l, p ≠ [] := by
  induction l using fpieces_induction with
  | nil => intro p hp; simp [fpieces, fpiecesAux] at hp
  | step l hl ih =>
    rw [fpieces_of_ne_nil hl]
    intro p hp
    rcases List.mem_cons.mp hp with rfl | hp
    · intro h
      have := congrArg List.length h
      have := List.length_pos_iff.mpr hl
      simp only [List.length_take, List.length_nil] at *
      omega
    · exact ih p hp

theorem tmpBack_eq (io : FileIo) (ct : List Byte) :
    tmpBack io ct = ct.take (if ct.length ≤ io.tmpRoom ∨ io.rewind then io.tmpRoom else 0) := by
  unfold tmpBack
  simp only
  rw [outPutAny_spec _ _ _ (fpieces_ne ct) _ [] (outInv_start _), fpieces_flatten, List.nil_append]
  by_cases h : ct.length ≤ io.tmpRoom
  · rw [if_pos (Or.inl (by rw [List.length_take]; omega)), if_pos (Or.inl h)]
  · by_cases hr : io.rewind = true
    · rw [if_pos (Or.inr hr), if_pos (Or.inr hr)]
    · rw [if_neg (by rw [List.length_take]; rintro (h' | h'); · omega
                     · exact hr h'), if_neg (by rintro (h' | h'); · exact h h'
                                                · exact hr h'), List.take_zero]

/-- How many bytes of the encrypted file arrive on the device. -/
def fileArrives (io : FileIo) (n : Nat) : Nat :=
  min io.outRoom (24 + (if n ≤ io.tmpRoom then n else if io.rewind then io.tmpRoom else 0))

/-- C111: whatever the devices take, encryption returns 1; the output file is a prefix of what it should be, and it is complete
exactly if both the temporary and the output file had room. -/
theorem C111_full_encrypt (io : FileIo) (c : GcmCtx) (junk : Vector Byte 4) (d : List Byte) (fs : FS) (inp out : Path)
    (ht : io.tmpOpened = true) (ho : io.outOpened = true)
    (h1 : inp ≠ out) (h2 : inp ≠ tmpPath out) (hd : fs inp = some d) :
    ∃ r full c', gcmfileEncrypt c junk fs inp out = some r ∧ applyOps fs r.log out = some full ∧ full.length = d.length + 24 ∧
      gcmfileEncryptIo io c junk d = some (1, full.take (fileArrives io d.length), c') ∧
      (full.take (fileArrives io d.length) = full ↔ d.length ≤ io.tmpRoom ∧ d.length + 24 ≤ io.outRoom) := by
  obtain ⟨c1, e1, _⟩ := enc_loop_gctr d c
  obtain ⟨tag, c2, e3, e4, _⟩ := finish16 c1
  have hs := length_sizeBuf d.length junk
  have hg := length_gctr c.block (inc32 (toBV c.y)) d
  have hfull : (tag ++ sizeBuf d.length junk ++ gctr c.block (inc32 (toBV c.y)) d).length = d.length + 24 := by
    rw [List.length_append, List.length_append, e4, hs, hg]; omega
  obtain ⟨r, r1, _, _, r4⟩ := gcmfileEncrypt_of c c1 c2 junk fs inp out d _ tag h1 h2 hd e1 e3
  refine ⟨r, _, c2, r1, r4, hfull, ?_, ?_⟩
  · unfold gcmfileEncryptIo
    simp only [ht, ho, Bool.and_self, if_true, e1, e3, Option.bind_eq_bind, Option.bind_some, Option.pure_def]
    congr 3
    rw [outPutAny_spec _ _ _ ?_ _ [] (outInv_start _)]
    · rw [List.nil_append, List.flatten_cons, List.flatten_cons, fpieces_flatten, tmpBack_eq, ← List.append_assoc, hg]
      have : ∀ n, tag ++ sizeBuf d.length junk ++ (gctr c.block (inc32 (toBV c.y)) d).take n =
          (tag ++ sizeBuf d.length junk ++ gctr c.block (inc32 (toBV c.y)) d).take (24 + n) := by
        intro n
        rw [List.take_append (l₁ := tag ++ sizeBuf d.length junk), List.take_of_length_le (i := 24 + n) (l := tag ++ sizeBuf d.length junk)
          (by rw [List.length_append]; omega)]
        congr 2
        rw [List.length_append]; omega
      rw [this, List.take_take, fileArrives]
      by_cases hn : d.length ≤ io.tmpRoom
      · rw [if_pos (Or.inl hn), if_pos hn]
        rcases Nat.le_total io.outRoom (24 + d.length) with h | h
        · rw [Nat.min_eq_left (by omega), Nat.min_eq_left h]
        · rw [Nat.min_eq_right h, List.take_of_length_le (by omega), List.take_of_length_le (by omega)]
      · cases io.rewind <;> simp [hn]
    · intro x hx
      rcases List.mem_cons.mp hx with rfl | hx
      · intro h; rw [h] at e4; simp at e4
      · rcases List.mem_cons.mp hx with rfl | hx
        · intro h; rw [h] at hs; simp at hs
        · exact fpieces_ne _ _ hx
  · rw [List.take_eq_self_iff, hfull, fileArrives]
    split
    · omega
    · split <;> omega

/-- C111: what reading such a file back gives: 0 if at least the header arrived, undefined if at most the tag arrived, and in
between 0 or an empty text with return value 1. -/
theorem C111_full_read (io : FileIo) (c c' : GcmCtx) (junk : Vector Byte 4) (d : List Byte) (fs : FS) (inp out : Path)
    (ret : Nat) (file : List Byte) (he : gcmfileEncryptIo io c junk d = some (ret, file, c'))
    (hl : d.length < 2 ^ 31) (hroom : io.tmpRoom < d.length ∨ io.outRoom < d.length + 24)
    (h1 : inp ≠ out) (hd : fs inp = some file) (k : GcmCtx) :
    (24 ≤ io.outRoom → ∃ r, gcmfileDecrypt k fs inp out = some r ∧ r.ret = 0) ∧
    (17 ≤ io.outRoom → io.outRoom < 24 → ∃ r, gcmfileDecrypt k fs inp out = some r ∧
      (r.ret = 1 ↔ d.length % 256 ^ (min (io.outRoom - 16) 4) = 0) ∧ applyOps fs r.log out = some []) ∧
    (io.outRoom ≤ 16 → gcmfileDecrypt k fs inp out = none) := by
  have hop : io.tmpOpened = true ∧ io.outOpened = true := by
    unfold gcmfileEncryptIo at he
    cases h1 : io.tmpOpened <;> cases h2 : io.outOpened <;> (simp [h1, h2] at he; try exact ⟨rfl, rfl⟩)
  obtain ⟨r0, full, c0, a1, a2, a3, a4, _⟩ := C111_full_encrypt io c junk d (fun p => if p = ['a'] then some d else none) ['a'] ['b']
    hop.1 hop.2 (by decide) (by decide) (by simp)
  obtain ⟨r1, tag, b1, b2, b3, b4, _⟩ := C111_encrypt c junk (fun p => if p = ['a'] then some d else none) ['a'] ['b'] d
    (by decide) (by decide) (by simp)
  rw [a1] at b1
  obtain rfl := Option.some.inj b1
  rw [a2] at b4
  rw [Option.some.inj b4] at a4
  rw [he] at a4
  have hf : file = _ := (Prod.mk.inj (Prod.mk.inj (Option.some.inj a4)).2).1
  have hg := length_gctr c.block (inc32 (toBV c.y)) d
  rw [hf, show sizeBuf d.length junk = sizeBuf (gctr c.block (inc32 (toBV c.y)) d).length junk by rw [hg]] at hd
  have hk : fileArrives io d.length < d.length + 24 := by
    unfold fileArrives
    split
    · omega
    · split <;> omega
  have key := C26_truncated k fs inp out tag (gctr c.block (inc32 (toBV c.y)) d) junk (fileArrives io d.length) h1 b3
    (by rw [hg]; exact hl) (by rw [hg]; exact hk) hd
  rw [hg] at key
  have ha : io.outRoom < 24 → fileArrives io d.length = io.outRoom := by
    intro h; unfold fileArrives; omega
  have hb : 24 ≤ io.outRoom → 24 ≤ fileArrives io d.length := by
    intro h; unfold fileArrives; omega
  refine ⟨fun h => key.1 (hb h), fun h h' => ?_, fun h => key.2.2 (by rw [ha (by omega)]; exact h)⟩
  have := key.2.1 (by rw [ha h']; exact h) (by rw [ha h']; exact h')
  rwa [ha h'] at this

/-- C111: decryption to a full device writes as much of the text as the device takes and returns what it returns otherwise. -/
theorem C111_full_decrypt (io : FileIo) (c : GcmCtx) (content : List Byte) (fs : FS) (inp out : Path) (r : FileResult)
    (ho : io.outOpened = true) (hd : fs inp = some content) (hr : gcmfileDecrypt c fs inp out = some r) :
    ∃ x, applyOps fs r.log out = some x ∧ x.length = content.length - 24 ∧
      gcmfileDecryptIo io c content = some (r.ret, x.take io.outRoom, r.ctx) := by
  obtain ⟨t, c1, f1, _⟩ := finish16 c
  obtain ⟨c2, e, _⟩ := dec_loop_gctr (content.drop 24) c1
  have hg := length_gctr c1.block (inc32 (toBV c1.y)) (content.drop 24)
  unfold gcmfileDecrypt at hr
  simp only [hd, Option.bind_eq_bind, Option.bind_some, f1, e] at hr
  split at hr
  · exact absurd hr (by simp)
  split at hr
  · exact absurd hr (by simp)
  split at hr
  · exact absurd hr (by simp)
  split at hr
  · exact absurd hr (by simp)
  rename_i n1 n2 n3 n4
  obtain rfl := Option.some.inj hr
  refine ⟨gctr c1.block (inc32 (toBV c1.y)) (content.drop 24), ?_, by rw [hg, List.length_drop], ?_⟩
  · show applyOps (applyOp fs (FsOp.trunc out)) _ out = _
    rw [applyOps_put out _ _ [] (by simp [applyOp, FsOp.path, FsOp.effect])]
    rfl
  · unfold gcmfileDecryptIo
    simp only []
    rw [if_neg (by rw [ho]; rintro (h | h | h)
                   · exact n2 h
                   · exact n3 h
                   · exact absurd h (by simp))]
    simp only [f1, e, Option.bind_eq_bind, Option.bind_some]
    rw [if_neg n4, outPutAny_spec _ _ _ (fpieces_ne _) _ [] (outInv_start _), fpieces_flatten, List.nil_append]
    rfl

/-- C111: if a file cannot be created the calls do not return 0 but are undefined. -/
theorem C111_not_created (io : FileIo) (c : GcmCtx) (junk : Vector Byte 4) (d content : List Byte) :
    (io.tmpOpened = false ∨ io.outOpened = false → gcmfileEncryptIo io c junk d = none) ∧
    (io.outOpened = false → gcmfileDecryptIo io c content = none) := by
  refine ⟨fun h => ?_, fun h => ?_⟩
  · unfold gcmfileEncryptIo; rcases h with h | h <;> simp [h]
  · unfold gcmfileDecryptIo; simp [h]

/-! ### concrete cases -/

/-- A file of 100 bytes to a device with room for 50: return value 1, and reading back what arrived returns 0. -/
example (c c' k : GcmCtx) (junk : Vector Byte 4) (ret : Nat) (file : List Byte)
    (he : gcmfileEncryptIo ⟨true, true, 1000, 50, fun _ => true, fun _ => true, true⟩ c junk (List.replicate 100 7) = some (ret, file, c')) :
    ∃ r, gcmfileDecrypt k (fun p => if p = ['b'] then some file else none) ['b'] ['c'] = some r ∧ r.ret = 0 :=
  (C111_full_read _ c c' junk _ (fun p => if p = ['b'] then some file else none) ['b'] ['c'] ret file he (by simp)
    (Or.inr (by simp)) (by decide) (by simp) k).1 (by simp)

/-- The case just stated occurs. -/
example (c : GcmCtx) (junk : Vector Byte 4) : ∃ file c',
    gcmfileEncryptIo ⟨true, true, 1000, 50, fun _ => true, fun _ => true, true⟩ c junk (List.replicate 100 7) = some (1, file, c') ∧
      file.length = 50 := by
  obtain ⟨r, full, c', a, b, hl, e, _⟩ := C111_full_encrypt ⟨true, true, 1000, 50, fun _ => true, fun _ => true, true⟩ c junk
    (List.replicate 100 7) (fun p => if p = ['a'] then some (List.replicate 100 7) else none) ['a'] ['b'] rfl rfl (by decide)
    (by decide) (by simp)
  refine ⟨_, c', e, ?_⟩
  rw [List.length_take, hl]
  simp [fileArrives]

/-- A file of three gigabytes is encrypted, and what was written cannot be decrypted. -/
example (E : Block → Block) (junk : Vector Byte 4) (c : GcmCtx) (d : List Byte) (hd : d.length = 3000000000) : ∃ r f,
    gcmfileEncrypt (gcmAad (gcmSetiv (gcmInit E) (List.replicate 12 1)) []) junk
      (fun p => if p = ['a'] then some d else none) ['a'] ['b'] = some r ∧ r.ret = 1 ∧
    applyOps (fun p => if p = ['a'] then some d else none) r.log ['b'] = some f ∧
    gcmfileDecrypt c (fun p => if p = ['b'] then some f else none) ['b'] ['c'] = none := by
  obtain ⟨r, h1, h2, h3⟩ := C111_large_encrypt E (List.replicate 12 1) [] junk
    (fun p => if p = ['a'] then some d else none) ['a'] ['b'] d
    (by simp) (by simp) (by rw [hd]; omega) (by decide) (by decide) (if_pos rfl)
  refine ⟨r, _, h1, h2, h3, C111_large_decrypt c _ ['b'] ['c'] _ (if_pos rfl) ?_⟩
  have := length_gcmCipher E (List.replicate 12 1) d
  rw [List.length_append, this, hd, List.length_append, length_sizeBuf, Vector.length_toList]
  omega

end Verif.Props
