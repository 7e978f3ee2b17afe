import Verif.Model.WbGcmFile
import Verif.Props.GcmFile
import Verif.Props.WbGcm

/-! C73: the file functions of the white-box GCM modes. -/
set_option autoImplicit false

namespace Verif.Props
open Verif Spec Model

abbrev Piece := WbGcmCtx → Block × Block × List Byte → List Byte → Block × Block × List Byte

/-- What the two loop bodies have in common. -/
structure PieceOk (piece : Piece) : Prop where
  ctx : ∀ (c : WbGcmCtx) (l : BitVec 64) (y b : Block), piece { c with g := { c.g with len := l, y := y, buf := b } } = piece c
  out : ∀ c y b o p, piece c (y, b, o) p = ((piece c (y, b, []) p).1, (piece c (y, b, []) p).2.1, o ++ (piece c (y, b, []) p).2.2)
  len : ∀ c y b p, (piece c (y, b, []) p).2.2.length = min 16 p.length

theorem enc_pieceOk : PieceOk wbEncPiece :=
  ⟨fun _ _ _ _ => rfl, fun _ _ _ _ _ => by simp [wbEncPiece], fun _ _ _ _ => by simp [wbEncPiece]⟩

theorem dec_pieceOk : PieceOk wbDecPiece :=
  ⟨fun _ _ _ _ => rfl, fun _ _ _ _ _ => by simp [wbDecPiece], fun _ _ _ _ => by simp [wbDecPiece]⟩

theorem foldl_out {piece : Piece} (h : PieceOk piece) (c : WbGcmCtx) (l : List (List Byte)) : ∀ (y b : Block) (o : List Byte),
    l.foldl (piece c) (y, b, o) = ((l.foldl (piece c) (y, b, [])).1, (l.foldl (piece c) (y, b, [])).2.1,
      o ++ (l.foldl (piece c) (y, b, [])).2.2) := by
  induction l with
  | nil => intro y b o; simp
  | cons p l ih =>
    intro y b o
    rw [List.foldl_cons, List.foldl_cons, h.out, ih, ih _ _ (piece c (y, b, []) p).2.2, List.append_assoc]

theorem foldl_len {piece : Piece} (h : PieceOk piece) (c : WbGcmCtx) (x : List Byte) : ∀ (y b : Block),
    ((chunks x).foldl (piece c) (y, b, [])).2.2.length = x.length := by
  induction x using chunks_induction with
  | nil => intro y b; rfl
  | step x hx ih =>
    intro y b
    rw [chunks_of_ne_nil hx, List.foldl_cons, foldl_out h]
    simp only [List.length_append]
    rw [ih, h.len]
    simp; omega

/-- The chunk loop does what one call on the whole content does. -/
theorem wbFileLoop_eq {piece : Piece} (h : PieceOk piece) (d : List Byte) : ∀ (c : WbGcmCtx) (y b : Block) (o : List Byte),
    (chunks d).foldl (piece c) (c.g.y, c.g.buf, []) = (y, b, o) →
    wbFileLoop (wbgcmCrypt piece) c (fpieces d) = some (o,
      { c with g := { c.g with len := c.g.len + BitVec.ofNat 64 d.length, y := y, buf := b } }) := by
  induction d using fpieces_induction with
  | nil =>
    intro c y b o e
    obtain ⟨rfl, rfl, rfl⟩ : c.g.y = y ∧ c.g.buf = b ∧ [] = o := by
      injection e with e1 e; injection e with e2 e3; exact ⟨e1, e2, e3⟩
    show some ([], c) = _
    simp
  | step d hd ih =>
    intro c y b o e
    have hsplit : chunks d = chunks (d.take 128) ++ chunks (d.drop 128) := by
      rcases Nat.lt_or_ge d.length 128 with hl | hl
      · rw [List.drop_eq_nil_of_le (by omega), List.take_of_length_le (by omega), chunks_nil, List.append_nil]
      · rw [← chunks_append_aligned _ _ (by simp; omega), List.take_append_drop]
    rw [hsplit, List.foldl_append] at e
    obtain ⟨y1, b1, o1, e1⟩ : ∃ y1 b1 o1, (chunks (d.take 128)).foldl (piece c) (c.g.y, c.g.buf, []) = (y1, b1, o1) :=
      ⟨_, _, _, rfl⟩
    have hl1 : o1.length = (d.take 128).length := by
      rw [← foldl_len h c (d.take 128) c.g.y c.g.buf, e1]
    rw [e1, foldl_out h] at e
    obtain ⟨y2, b2, o2, e2⟩ : ∃ y2 b2 o2, (chunks (d.drop 128)).foldl (piece c) (y1, b1, []) = (y2, b2, o2) := ⟨_, _, _, rfl⟩
    rw [e2] at e
    obtain ⟨rfl, rfl, rfl⟩ : y2 = y ∧ b2 = b ∧ o1 ++ o2 = o := by
      injection e with e1 e; injection e with e2 e3; exact ⟨e1, e2, e3⟩
    have hlen : (d.take 128).length ≤ 128 := by rw [List.length_take]; omega
    rw [fpieces_of_ne_nil hd]
    simp only [wbFileLoop]
    rw [wbgcmCrypt_eq piece c _ _ _ (by omega) (Nat.le_refl _) (by rw [List.length_replicate]; exact hlen) _ _ _ e1]
    simp only [Option.bind_eq_bind, Option.bind_some]
    rw [ih _ y2 b2 o2 (by rw [h.ctx]; exact e2)]
    simp only [Option.bind_some, List.take_left' hl1]
    refine congrArg (fun l => some (o1 ++ o2, { c with g := { c.g with len := l, y := y2, buf := b2 } })) ?_
    rw [BitVec.add_assoc, ← BitVec.ofNat_add, ← List.length_append, List.take_append_drop]

theorem wbfinish16 (c : WbGcmCtx) : ∃ t b, wbgcmFinish c 16 = some (t, { c with g := { c.g with buf := b } }) ∧ t.length = 16 := by
  unfold wbgcmFinish
  rw [if_neg (by omega)]
  simp only []
  split
  · exact ⟨_, _, rfl, by simp⟩
  · exact ⟨_, c.g.buf, rfl, by simp⟩

/-! ### encryption and decryption in a context over encodings -/

theorem wb_encrypt_eq {w : WbGcmCtx} {E : Block → Block} {enc : Fin 16 → Byte → Byte} {comb : Comb} (B : Boxed w E enc comb)
    (iv aad : List Byte) (junk : Vector Byte 4) (fs : FS) (inp out : Path) (d : List Byte)
    (hiv : iv.length < 2 ^ 29) (ha : aad.length < 2 ^ 61)
    (h1 : inp ≠ out) (h2 : inp ≠ tmpPath out) (hd : fs inp = some d) (hl : d.length < 2 ^ 31) :
    ∃ r, wbgcmfileEncrypt (wbgcmAad (wbgcmSetiv w iv) aad) junk fs inp out = some r ∧ r.ret = 1 ∧
      r.log = [FsOp.trunc (tmpPath out), FsOp.trunc out] ++
        (stream comb E (inc32 (j0 E iv)) d).map (FsOp.put (tmpPath out)) ++
        (encContent (wbTag enc comb E iv aad (stream comb E (inc32 (j0 E iv)) d) 16) junk
          (stream comb E (inc32 (j0 E iv)) d)).map (FsOp.put out) ++ [FsOp.remove (tmpPath out)] := by
  have hy := wbsetiv_y B iv hiv
  obtain ⟨y', buf', f1, f2⟩ := wbfold_enc (wbaad_boxed B iv aad) d (wbgcmAad (wbgcmSetiv w iv) aad).g.y
    (wbgcmAad (wbgcmSetiv w iv) aad).g.buf []
  rw [show toBV (wbgcmAad (wbgcmSetiv w iv) aad).g.y = j0 E iv from hy, List.nil_append] at f1
  rw [show toBV (wbgcmAad (wbgcmSetiv w iv) aad).g.y = j0 E iv from hy] at f2
  have hlen := length_stream comb E d (inc32 (j0 E iv))
  have e1 := wbFileLoop_eq enc_pieceOk d _ _ _ _ f1
  obtain ⟨w', e3⟩ := wbfinish_eq B iv aad (stream comb E (inc32 (j0 E iv)) d) 16 (Nat.le_refl _) hiv ha (by omega) y' buf' f2
  rw [hlen] at e3
  have hr : applyOps fs [FsOp.trunc (tmpPath out), FsOp.trunc out] inp = some d := by
    rw [applyOps_other, hd]
    intro o ho
    simp at ho
    rcases ho with rfl | rfl
    · exact Ne.symm h2
    · exact Ne.symm h1
  refine ⟨{ ret := 1, ctx := w', log := _ }, ?_, rfl, rfl⟩
  unfold wbgcmfileEncrypt
  rw [show wbgcmEncrypt = wbgcmCrypt wbEncPiece from rfl]
  simp only [hd, hr, e1, e3, Option.bind_eq_bind, Option.bind_some, fpieces_flatten]
  rw [encContent, hlen]
  rfl

theorem wb_decrypt_defined (c : WbGcmCtx) (fs : FS) (inp out : Path) (content : List Byte)
    (h1 : inp ≠ out) (hd : fs inp = some content) (h17 : 17 ≤ content.length) (hl : content.length < 2 ^ 31 + 24) :
    ∃ r b, wbgcmfileDecrypt c fs inp out = some r ∧
      r.ret = (if ((content.drop 24).length : Int) = fileSize ((content.drop 16).take 8) then 1 else 0) ∧
      r.log = FsOp.trunc out :: ((chunks (content.drop 24)).foldl (wbDecPiece c) (c.g.y, b, [])).2.2.map (FsOp.put out) := by
  obtain ⟨t, b, f1, _⟩ := wbfinish16 c
  obtain ⟨y', b', o, e⟩ : ∃ y' b' o, (chunks (content.drop 24)).foldl (wbDecPiece c) (c.g.y, b, []) = (y', b', o) := ⟨_, _, _, rfl⟩
  have e2 := wbFileLoop_eq dec_pieceOk (content.drop 24) { c with g := { c.g with buf := b } } y' b' o e
  refine ⟨{ ret := if ((content.drop 24).length : Int) = fileSize ((content.drop 16).take 8) then 1 else 0,
            ctx := { c with g := { c.g with len := c.g.len + BitVec.ofNat 64 (content.drop 24).length, y := y', buf := b' } },
            log := FsOp.trunc out :: o.map (FsOp.put out) }, b, ?_, rfl, by rw [e]⟩
  unfold wbgcmfileDecrypt
  rw [show wbgcmDecrypt = wbgcmCrypt wbDecPiece from rfl]
  simp only [hd, Option.bind_eq_bind, Option.bind_some]
  have n1 : content.take 16 ≠ [] := by
    intro h; have := congrArg List.length h; simp only [List.length_take, List.length_nil] at this; omega
  have n2 : (content.drop 16).take 8 ≠ [] := by
    intro h; have := congrArg List.length h
    simp only [List.length_take, List.length_drop, List.length_nil] at this; omega
  have n3 : ¬ 2 ^ 31 ≤ (content.drop 24).length := by rw [List.length_drop]; omega
  rw [if_neg h1, if_neg n1, if_neg n2]
  simp only [f1, e2, Option.bind_some]
  rw [if_neg n3]
  rfl


/-! ### the interface -/

theorem applyOps_trunc_put (fs : FS) (p : Path) (d : List Byte) :
    applyOps fs (FsOp.trunc p :: d.map (FsOp.put p)) p = some d := by
  show applyOps (applyOp fs (FsOp.trunc p)) _ p = _
  rw [applyOps_put p d _ [] (by simp [applyOp, FsOp.path, FsOp.effect])]
  rfl

theorem encContent_drop (tag ct : List Byte) (junk : Vector Byte 4) (h : tag.length = 16) :
    (encContent tag junk ct).drop 24 = ct ∧ ((encContent tag junk ct).drop 16).take 8 = sizeBuf ct.length junk ∧
      (encContent tag junk ct).length = ct.length + 24 := by
  refine ⟨?_, ?_, ?_⟩
  · rw [encContent, List.drop_left' (by simp [h, length_sizeBuf])]
  · rw [encContent, List.append_assoc, List.drop_left' h, List.take_left' (length_sizeBuf _ _)]
  · simp only [encContent, List.length_append, h, length_sizeBuf]; omega

theorem length_wbTag (enc : Fin 16 → Byte → Byte) (comb : Comb) (E : Block → Block) (iv aad c : List Byte) :
    (wbTag enc comb E iv aad c 16).length = 16 := by
  unfold wbTag
  split <;> simp

/-- Decryption, in any context over encodings of `E` whose combination inverts `f`, of a file with any tag whose body was
made with `f`. -/
theorem wb_decrypt_eq {w : WbGcmCtx} {E : Block → Block} {enc : Fin 16 → Byte → Byte} {comb : Comb} (B : Boxed w E enc comb)
    (f : Comb) (hf : ∀ i a e, comb i (f i a e) e = a)
    (iv aad tag : List Byte) (junk : Vector Byte 4) (fs : FS) (inp out : Path) (d : List Byte)
    (hiv : iv.length < 2 ^ 29) (h1 : inp ≠ out) (hl : d.length < 2 ^ 31) (ht : tag.length = 16)
    (hd : fs inp = some (encContent tag junk (stream f E (inc32 (j0 E iv)) d))) :
    ∃ r, wbgcmfileDecrypt (wbgcmAad (wbgcmSetiv w iv) aad) fs inp out = some r ∧ r.ret = 1 ∧
      applyOps fs r.log out = some d ∧ (∀ p, p ≠ out → applyOps fs r.log p = fs p) := by
  have hlen := length_stream f E d (inc32 (j0 E iv))
  obtain ⟨g1, g2, g3⟩ := encContent_drop tag (stream f E (inc32 (j0 E iv)) d) junk ht
  obtain ⟨r, b, a1, a2, a3⟩ := wb_decrypt_defined (wbgcmAad (wbgcmSetiv w iv) aad) fs inp out _ h1 hd (by omega) (by omega)
  obtain ⟨y', b', f1, -⟩ := wbfold_dec (wbaad_boxed B iv aad) f hf d (wbgcmAad (wbgcmSetiv w iv) aad).g.y b []
  rw [show toBV (wbgcmAad (wbgcmSetiv w iv) aad).g.y = j0 E iv from wbsetiv_y B iv hiv, List.nil_append] at f1
  rw [g1, g2, fileSize_sizeBuf _ _ (by omega), if_pos rfl] at a2
  rw [g1, f1] at a3
  refine ⟨r, a1, a2, ?_, ?_⟩
  · rw [a3]; exact applyOps_trunc_put fs out d
  · intro p hp
    apply applyOps_other
    intro o ho
    rw [a3] at ho
    rcases List.mem_cons.mp ho with rfl | ho
    · exact Ne.symm hp
    · rw [path_put _ _ o ho]; exact Ne.symm hp

theorem xorComb_inv (i : Fin 16) (a e : Byte) : xorComb i (xorComb i a e) e = a := by
  simp [xorComb, BitVec.xor_assoc]

/-- C73: file encryption in the ee mode makes the very file that AES-GCM file encryption makes, unless file and AAD are both
empty; any ee context of the key, and any plain GCM context over AES with that key, decrypts it. -/
theorem C73_ee_file (r rr : WbaesRnd) (r1 r2 rr1 rr2 : Fin 16 → Nat → BitVec 32) (jt jt' : Vector (Fin 256) 256) (key : Block)
    (iv aad : List Byte) (junk : Vector Byte 4) (fs : FS) (inp out out2 : Path) (d : List Byte)
    (hiv : iv.length < 2 ^ 29) (ha : aad.length < 2 ^ 61) (h1 : inp ≠ out) (h2 : inp ≠ tmpPath out) (h3 : out ≠ out2)
    (hd : fs inp = some d) (hl : d.length < 2 ^ 31) (hne : ¬(d = [] ∧ aad = [])) :
    ∃ e a p q, wbgcmfileEncrypt (wbgcmAad (wbgcmSetiv (wbEeInit (wbEeGenTable r r1 r2 jt key)) iv) aad) junk fs inp out = some e ∧
      e.ret = 1 ∧ gcmfileEncrypt (gcmAad (gcmSetiv (gcmInit (aes128 key)) iv) aad) junk fs inp out = some a ∧
      e.log = a.log ∧
      applyOps fs e.log out = some ((gcmTag (aes128 key) iv aad (gcmCipher (aes128 key) iv d)).toList ++
        ((List.range 4).map (fun i => BitVec.ofNat 8 (d.length / 256 ^ i)) ++ junk.toList) ++ gcmCipher (aes128 key) iv d) ∧
      applyOps fs e.log (tmpPath out) = none ∧ (∀ p, p ≠ out → p ≠ tmpPath out → applyOps fs e.log p = fs p) ∧
      wbgcmfileDecrypt (wbgcmAad (wbgcmSetiv (wbEeInit (wbEeGenTable rr rr1 rr2 jt' key)) iv) aad) (applyOps fs e.log) out out2 =
        some p ∧ p.ret = 1 ∧ applyOps (applyOps fs e.log) p.log out2 = some d ∧
      gcmfileDecrypt (gcmAad (gcmSetiv (gcmInit (aes128 key)) iv) aad) (applyOps fs e.log) out out2 = some q ∧ q.ret = 1 ∧
        applyOps (applyOps fs e.log) q.log out2 = some d := by
  obtain ⟨e, a1, a2, a3⟩ := wb_encrypt_eq (ee_boxed r r1 r2 jt key) iv aad junk fs inp out d hiv ha h1 h2 hd hl
  obtain ⟨a, fs', b1, b2, rfl, b4, -, b6, b7, q, b8, b9, b10, -⟩ :=
    C24_file_roundtrip (aes128 key) iv aad junk fs inp out out2 d hiv ha h1 h2 h3 hd hl
  obtain ⟨a', tag, c1, c2, d1, -, -, d4, d5, -, d7⟩ :=
    encrypt_eq (gcmAad (gcmSetiv (gcmInit (aes128 key)) iv) aad) junk fs inp out d h1 h2 hd hl
  have : a' = a := Option.some.inj (d1.symm.trans b1)
  subst this
  have hct : gctr (gcmAad (gcmSetiv (gcmInit (aes128 key)) iv) aad).block
      (inc32 (toBV (gcmAad (gcmSetiv (gcmInit (aes128 key)) iv) aad).y)) d = gcmCipher (aes128 key) iv d := by
    rw [show toBV (gcmAad (gcmSetiv (gcmInit (aes128 key)) iv) aad).y = j0 (aes128 key) iv from
      setiv_y (gcmInit (aes128 key)) (init_ok _) iv hiv]
    rfl
  have hst : stream xorComb (aes128 key) (inc32 (j0 (aes128 key) iv)) d = gcmCipher (aes128 key) iv d := stream_xor _ _ _
  have htag : tag = (gcmTag (aes128 key) iv aad (gcmCipher (aes128 key) iv d)).toList := by
    have hs := C12_gcm_nist (aes128 key) iv aad d (List.replicate d.length 0) d.length hiv ha hl (Nat.le_refl _) (by simp)
    simp only [sealMsg, d4, d5, Option.bind_eq_bind, Option.bind_some] at hs
    simpa using (Prod.mk.inj (Prod.mk.inj (Option.some.inj hs)).2).2
  have hne' : ¬(gcmCipher (aes128 key) iv d = [] ∧ aad = []) := by
    rintro ⟨g1, g2⟩
    refine hne ⟨?_, g2⟩
    have := congrArg List.length g1
    rw [gcmCipher, length_gctr] at this
    exact List.length_eq_zero_iff.mp this
  have hw : wbTag (eeEnc r r1 jt) xorComb (aes128 key) iv aad (gcmCipher (aes128 key) iv d) 16 = tag := by
    rw [wbTag_xor _ _ _ _ _ _ hne', htag, List.take_of_length_le (by simp)]
  have hlog : e.log = a'.log := by rw [a3, d7, hct, hst, hw]
  have hcont : applyOps fs a'.log out = some (encContent tag junk (stream xorComb (aes128 key) (inc32 (j0 (aes128 key) iv)) d)) := by
    rw [d7, hct, hst]
    exact (log_result fs (tmpPath out) out _ _ (tmpPath_ne out)).1
  obtain ⟨p, p1, p2, p3, -⟩ := wb_decrypt_eq (ee_boxed rr rr1 rr2 jt' key) xorComb xorComb_inv iv aad tag junk
    (applyOps fs a'.log) out out2 d hiv h3 hl (by rw [htag]; simp) hcont
  refine ⟨e, a', p, q, a1, a2, b1, hlog, ?_⟩
  rw [hlog]
  exact ⟨b4, b6, b7, p1, p2, p3, b8, b9, b10⟩

/-- C73: in the masked mode the file holds the masked ciphertext (the secret layer `L1` over the AES-GCM ciphertext) and the
tag that the mode gives for the whole content (`C43_mask_tags`); the decryption context restores the content. -/
theorem C73_mask_file (re rd : WbaesRnd) (roe rod : Fin 16 → Fin 2 → Nat → BitVec 32) (r : WbMaskRnd) (key : Block)
    (iv aad : List Byte) (junk : Vector Byte 4) (fs : FS) (inp out out2 : Path) (d : List Byte)
    (hiv : iv.length < 2 ^ 29) (ha : aad.length < 2 ^ 61) (h1 : inp ≠ out) (h2 : inp ≠ tmpPath out) (h3 : out ≠ out2)
    (hd : fs inp = some d) (hl : d.length < 2 ^ 31) :
    ∃ e tag p, wbgcmfileEncrypt (wbgcmAad (wbgcmSetiv (wbMaskInit (wbMaskGenTable re rd roe rod r key).1) iv) aad) junk fs inp out =
        some e ∧ e.ret = 1 ∧
      applyOps fs e.log out = some (tag ++ sizeBuf d.length junk ++ layer (maskL r) (gcmCipher (aes128 key) iv d)) ∧
      wbSeal (wbMaskInit (wbMaskGenTable re rd roe rod r key).1) iv aad d (List.replicate d.length 0) d.length 16 =
        some (1, layer (maskL r) (gcmCipher (aes128 key) iv d), tag) ∧
      wbgcmfileDecrypt (wbgcmAad (wbgcmSetiv (wbMaskInit (wbMaskGenTable re rd roe rod r key).2) iv) aad) (applyOps fs e.log)
        out out2 = some p ∧ p.ret = 1 ∧ applyOps (applyOps fs e.log) p.log out2 = some d := by
  obtain ⟨e, a1, a2, a3⟩ := wb_encrypt_eq (mask_enc_boxed re roe r key) iv aad junk fs inp out d hiv ha h1 h2 hd hl
  have hcont := (log_result fs (tmpPath out) out (stream (fun i a e => maskL r i (a ^^^ e)) (aes128 key) (inc32 (j0 (aes128 key) iv)) d)
    (encContent (wbTag (maskEncEnc (wbaesGenTable re roe key) r) (fun i a e => maskL r i (a ^^^ e)) (aes128 key) iv aad
      (stream (fun i a e => maskL r i (a ^^^ e)) (aes128 key) (inc32 (j0 (aes128 key) iv)) d) 16) junk
      (stream (fun i a e => maskL r i (a ^^^ e)) (aes128 key) (inc32 (j0 (aes128 key) iv)) d)) (tmpPath_ne out)).1
  rw [← a3] at hcont
  obtain ⟨p, p1, p2, p3, -⟩ := wb_decrypt_eq (mask_dec_boxed rd rod r key) (fun i a e => maskL r i (a ^^^ e))
    (fun i a e => by rw [maskL_inv, BitVec.xor_assoc, BitVec.xor_self, BitVec.xor_zero]) iv aad _ junk
    (applyOps fs e.log) out out2 d hiv h3 hl (length_wbTag _ _ _ _ _ _) hcont
  have hs := wbseal_eq (mask_enc_boxed re roe r key) iv aad d (List.replicate d.length 0) d.length 16 (Nat.le_refl _) hiv ha hl
    (Nat.le_refl _) (by simp)
  rw [List.drop_of_length_le (by simp), List.append_nil] at hs
  rw [encContent, length_stream] at hcont
  rw [stream_layer] at hcont hs
  exact ⟨e, _, p, a1, a2, hcont, hs, p1, p2, p3⟩

/-- C73: in both modes, for every context, success of decryption depends on nothing but length and size field. -/
theorem C73_no_authentication (c : WbGcmCtx) (fs : FS) (inp out : Path) (content : List Byte)
    (h1 : inp ≠ out) (hd : fs inp = some content) (h24 : 24 ≤ content.length) (hl : content.length < 2 ^ 31 + 24) :
    ∃ r, wbgcmfileDecrypt c fs inp out = some r ∧
      (r.ret = 1 ↔ content.length - 24 = (content.getD 16 0).toNat + 256 * (content.getD 17 0).toNat +
        256 ^ 2 * (content.getD 18 0).toNat + 256 ^ 3 * (content.getD 19 0).toNat) := by
  obtain ⟨r, b, a, e, _⟩ := wb_decrypt_defined c fs inp out content h1 hd (by omega) hl
  refine ⟨r, a, ?_⟩
  have hg : ∀ i, i < 8 → ((content.drop 16).take 8).getD i 0 = content.getD (16 + i) 0 := by
    intro i hi
    simp [List.getD_eq_getElem?_getD, List.getElem?_drop, hi]
  have := fileSize_nat ((content.drop 16).take 8) (content.drop 24).length (by simp; omega)
  rw [hg 0 (by omega), hg 1 (by omega), hg 2 (by omega), hg 3 (by omega)] at this
  rw [e]
  rw [List.length_drop] at this ⊢
  constructor
  · intro h
    split at h
    · next h' => exact this.mp h'
    · omega
  · intro h
    rw [if_pos (this.mpr h)]

/-- C73: a missing input file, or a file of at most 16 bytes to decrypt, is undefined behaviour. -/
theorem C73_missing_or_short (c : WbGcmCtx) (junk : Vector Byte 4) (fs : FS) (inp out : Path) :
    (fs inp = none → wbgcmfileEncrypt c junk fs inp out = none ∧ wbgcmfileDecrypt c fs inp out = none) ∧
    (∀ content, fs inp = some content → content.length ≤ 16 → wbgcmfileDecrypt c fs inp out = none) := by
  constructor
  · intro h
    unfold wbgcmfileEncrypt wbgcmfileDecrypt
    simp [h]
  · intro content h hl
    unfold wbgcmfileDecrypt
    simp only [h, Option.bind_eq_bind, Option.bind_some]
    split
    · rfl
    · split
      · rfl
      · rw [if_pos (by rw [List.drop_eq_nil_of_le hl]; rfl)]

/- A file system meeting the hypotheses: a file of three bytes, and an encrypted file of 24 bytes. -/
example : ∃ (fs : FS) (inp out out2 : Path) (d : List Byte), inp ≠ out ∧ inp ≠ tmpPath out ∧ out ≠ out2 ∧
    fs inp = some d ∧ d.length = 3 ∧ d.length < 2 ^ 31 ∧ ¬(d = [] ∧ ([] : List Byte) = []) ∧
    ∃ c, fs out2 = some c ∧ 24 ≤ c.length ∧ c.length < 2 ^ 31 + 24 :=
  ⟨fun p => if p = ['a'] then some [1, 2, 3] else some (List.replicate 24 0), ['a'], ['b'], ['c'], [1, 2, 3],
    by decide, by decide, by decide, rfl, rfl, by decide, by decide, List.replicate 24 0, rfl, by decide, by decide⟩

end Verif.Props
