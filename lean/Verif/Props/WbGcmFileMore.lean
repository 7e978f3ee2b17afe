import Verif.Model.WbGcmFileDisk
import Verif.Props.WbGcmFile
import Verif.Props.WbGcmUse
import Verif.Props.GcmFileMore

/-! C118: the file functions of the white-box GCM modes with contexts used for several files, with large files and with full
devices. -/
set_option autoImplicit false

namespace Verif.Props
open Verif Spec Model

/-! ### sessions: calls and files in any order -/

/-- One step of a session: a call on buffers, or a file. -/
inductive FileCall where
  | call (op : GcmOp)
  | encFile (junk : Vector Byte 4) (inp out : Path)
  | decFile (inp out : Path)

/-- What is seen of a step: the return code, the bytes written (`none` if left out) and the file operations. -/
abbrev Seen := Int × Option (List Byte) × List FsOp

/-- A step of a session with a plain context. A file that is encrypted while both length counters are 0 has a tag that is wrong
in the white-box modes (C42): nothing of it is reported, and the session ends (`none`). -/
def plainFileStep (c : GcmCtx) (fs : FS) : FileCall → Option (Seen × Option (GcmCtx × FS))
  | .call op => (plainOut c op).map fun x => ((x.1.1, x.1.2, []), some (x.2, fs))
  | .encFile junk inp out => (gcmfileEncrypt c junk fs inp out).map fun r =>
      if r.ctx.len * 8 = 0 ∧ r.ctx.addLen * 8 = 0 then ((r.ret, none, []), none)
      else ((r.ret, some [], r.log), some (r.ctx, applyOps fs r.log))
  | .decFile inp out => (gcmfileDecrypt c fs inp out).map fun r => ((r.ret, some [], r.log), some (r.ctx, applyOps fs r.log))

/-- The same with a white-box context. -/
def wbFileStep (c : WbGcmCtx) (fs : FS) : FileCall → Option (Seen × Option (WbGcmCtx × FS))
  | .call op => (wbOut c op).map fun x => ((x.1.1, x.1.2, []), some (x.2, fs))
  | .encFile junk inp out => (wbgcmfileEncrypt c junk fs inp out).map fun r =>
      if r.ctx.g.len * 8 = 0 ∧ r.ctx.g.addLen * 8 = 0 then ((r.ret, none, []), none)
      else ((r.ret, some [], r.log), some (r.ctx, applyOps fs r.log))
  | .decFile inp out => (wbgcmfileDecrypt c fs inp out).map fun r => ((r.ret, some [], r.log), some (r.ctx, applyOps fs r.log))

/-- All that is seen of a session; `none` if one of the steps is undefined. -/
def sessionOf {σ : Type} (step : σ → FS → FileCall → Option (Seen × Option (σ × FS))) (c : σ) (fs : FS) :
    List FileCall → Option (List Seen)
  | [] => some []
  | f :: l => do
    let (o, s) ← step c fs f
    match s with
    | none => return [o]
    | some (c', fs') => return o :: (← sessionOf step c' fs' l)

theorem stands_loop {enc : Fin 16 → Byte → Byte} (dec : Bool) (ps : List (List Byte)) : ∀ (w : WbGcmCtx) (c : GcmCtx),
    StandsFor enc w c →
    (fileLoop (gcmCrypt (stepOf dec)) c ps = none ∧ wbFileLoop (wbgcmCrypt (wbStep dec)) w ps = none) ∨
    ∃ o c' w', fileLoop (gcmCrypt (stepOf dec)) c ps = some (o, c') ∧ wbFileLoop (wbgcmCrypt (wbStep dec)) w ps = some (o, w') ∧
      StandsFor enc w' c' := by
  induction ps with
  | nil => intro w c S; exact .inr ⟨_, _, _, rfl, rfl, S⟩
  | cons p ps ih =>
    intro w c S
    simp only [fileLoop, wbFileLoop]
    rcases stands_crypt S dec p (List.replicate 128 0) p.length with ⟨h1, h2⟩ | ⟨r, r', h1, h2, _, ho, hs⟩
    · rw [h1, h2]; exact .inl ⟨rfl, rfl⟩
    · rw [h1, h2]
      simp only [Option.bind_eq_bind, Option.bind_some]
      rcases ih r'.ctx r.ctx hs with ⟨g1, g2⟩ | ⟨o, c', w', g1, g2, g3⟩
      · rw [g1, g2]; exact .inl ⟨rfl, rfl⟩
      · rw [g1, g2, ho]
        exact .inr ⟨_, _, _, rfl, rfl, g3⟩

theorem finish_counters (c c' : GcmCtx) (t : List Byte) (f1 : gcmFinish c 16 = some (t, c')) :
    c'.len = c.len ∧ c'.addLen = c.addLen := by
  unfold gcmFinish at f1
  rw [if_neg (by omega)] at f1
  simp only at f1
  split at f1 <;> (obtain ⟨-, rfl⟩ := Prod.mk.inj (Option.some.inj f1); exact ⟨rfl, rfl⟩)

theorem stands_finish {enc : Fin 16 → Byte → Byte} {w : WbGcmCtx} {c : GcmCtx} (S : StandsFor enc w c) :
    ∃ t t' c' w', gcmFinish c 16 = some (t, c') ∧ wbgcmFinish w 16 = some (t', w') ∧ StandsFor enc w' c' ∧
      c'.len = c.len ∧ c'.addLen = c.addLen ∧ (¬(c.len * 8 = 0 ∧ c.addLen * 8 = 0) → t' = t) := by
  obtain ⟨t, c', f1, _⟩ := finish16 c
  obtain ⟨t', b, f2, _⟩ := wbfinish16 w
  have hl := finish_counters c c' t f1
  rcases stands_out S (.finish 16) with ⟨h1, _⟩ | ⟨x, d, v, h1, h2, h3⟩
  · rw [plainOut, f1] at h1; exact absurd h1 (by simp)
  · rw [plainOut, f1, Option.map_some] at h1
    rw [wbOut, f2, Option.map_some] at h2
    obtain ⟨rfl, rfl⟩ := Prod.mk.inj (Option.some.inj h1)
    obtain ⟨e, rfl⟩ := Prod.mk.inj (Option.some.inj h2)
    refine ⟨_, _, _, _, f1, f2, h3, hl.1, hl.2, fun hz => ?_⟩
    have e := (Prod.mk.inj e).2
    rw [S.len, S.addLen, if_neg hz, if_neg hz] at e
    exact Option.some.inj e

theorem stands_file {enc : Fin 16 → Byte → Byte} {w : WbGcmCtx} {c : GcmCtx} (S : StandsFor enc w c) (fs : FS) (f : FileCall) :
    (plainFileStep c fs f = none ∧ wbFileStep w fs f = none) ∨
    (∃ o, plainFileStep c fs f = some (o, none) ∧ wbFileStep w fs f = some (o, none)) ∨
    ∃ o c' w' fs', plainFileStep c fs f = some (o, some (c', fs')) ∧ wbFileStep w fs f = some (o, some (w', fs')) ∧
      StandsFor enc w' c' := by
  cases f with
  | call op =>
    rcases stands_out S op with ⟨h1, h2⟩ | ⟨x, c', w', h1, h2, h3⟩
    · exact .inl ⟨by rw [plainFileStep, h1]; rfl, by rw [wbFileStep, h2]; rfl⟩
    · exact .inr (.inr ⟨_, _, _, _, by rw [plainFileStep, h1]; rfl, by rw [wbFileStep, h2]; rfl, h3⟩)
  | encFile junk inp out =>
    unfold plainFileStep wbFileStep gcmfileEncrypt wbgcmfileEncrypt
    rcases hi : fs inp with _ | d0
    · simp only [Option.bind_eq_bind, hi]; exact .inl ⟨rfl, rfl⟩
    rcases hd : applyOps fs [FsOp.trunc (tmpPath out), FsOp.trunc out] inp with _ | d
    · simp only [Option.bind_eq_bind, Option.bind_some, hi, hd]; exact .inl ⟨rfl, rfl⟩
    simp only [Option.bind_eq_bind, Option.bind_some, hi, hd]
    rcases stands_loop false (fpieces d) w c S with ⟨h1, h2⟩ | ⟨o, c1, w1, h1, h2, h3⟩
    · rw [show fileLoop gcmEncrypt c (fpieces d) = none from h1, show wbFileLoop wbgcmEncrypt w (fpieces d) = none from h2]
      exact .inl ⟨rfl, rfl⟩
    · rw [show fileLoop gcmEncrypt c (fpieces d) = some (o, c1) from h1,
        show wbFileLoop wbgcmEncrypt w (fpieces d) = some (o, w1) from h2]
      obtain ⟨t, t', c2, w2, f1, f2, f3, f4, f5, f6⟩ := stands_finish h3
      simp only [Option.bind_some, f1, f2, Option.pure_def, Option.map_some, f3.len, f3.addLen]
      by_cases hz : c2.len * 8 = 0 ∧ c2.addLen * 8 = 0
      · rw [if_pos hz, if_pos hz]
        exact .inr (.inl ⟨_, rfl, rfl⟩)
      · rw [if_neg hz, if_neg hz, f6 (by rw [← f4, ← f5]; exact hz)]
        exact .inr (.inr ⟨_, _, _, _, rfl, rfl, f3⟩)
  | decFile inp out =>
    unfold plainFileStep wbFileStep gcmfileDecrypt wbgcmfileDecrypt
    rcases hi : fs inp with _ | content
    · simp only [Option.bind_eq_bind, hi]; exact .inl ⟨rfl, rfl⟩
    simp only [Option.bind_eq_bind, Option.bind_some, hi]
    by_cases k1 : inp = out
    · rw [if_pos k1, if_pos k1]; exact .inl ⟨rfl, rfl⟩
    by_cases k2 : content.take 16 = []
    · rw [if_neg k1, if_neg k1, if_pos k2, if_pos k2]; exact .inl ⟨rfl, rfl⟩
    by_cases k3 : (content.drop 16).take 8 = []
    · rw [if_neg k1, if_neg k1, if_neg k2, if_neg k2, if_pos k3, if_pos k3]; exact .inl ⟨rfl, rfl⟩
    rw [if_neg k1, if_neg k1, if_neg k2, if_neg k2, if_neg k3, if_neg k3]
    obtain ⟨t, t', c2, w2, f1, f2, f3, _⟩ := stands_finish S
    simp only [f1, f2, Option.bind_some]
    rcases stands_loop true (fpieces (content.drop 24)) w2 c2 f3 with ⟨h1, h2⟩ | ⟨o, c1, w1, h1, h2, h3⟩
    · rw [show fileLoop gcmDecrypt c2 (fpieces (content.drop 24)) = none from h1,
        show wbFileLoop wbgcmDecrypt w2 (fpieces (content.drop 24)) = none from h2]
      exact .inl ⟨rfl, rfl⟩
    · rw [show fileLoop gcmDecrypt c2 (fpieces (content.drop 24)) = some (o, c1) from h1,
        show wbFileLoop wbgcmDecrypt w2 (fpieces (content.drop 24)) = some (o, w1) from h2]
      simp only [Option.bind_some]
      by_cases k4 : 2 ^ 31 ≤ (content.drop 24).length
      · rw [if_pos k4, if_pos k4]; exact .inl ⟨rfl, rfl⟩
      · rw [if_neg k4, if_neg k4]; exact .inr (.inr ⟨_, _, _, _, rfl, rfl, h3⟩)

theorem stands_session {enc : Fin 16 → Byte → Byte} (l : List FileCall) : ∀ (w : WbGcmCtx) (c : GcmCtx) (fs : FS),
    StandsFor enc w c → sessionOf wbFileStep w fs l = sessionOf plainFileStep c fs l := by
  induction l with
  | nil => intro w c fs _; rfl
  | cons f l ih =>
    intro w c fs S
    rcases stands_file S fs f with ⟨h1, h2⟩ | ⟨o, h1, h2⟩ | ⟨o, c', w', fs', h1, h2, h3⟩
    · rw [sessionOf, sessionOf, h1, h2]; rfl
    · rw [sessionOf, sessionOf, h1, h2]; rfl
    · rw [sessionOf, sessionOf, h1, h2]
      simp only [Option.bind_eq_bind, Option.bind_some]
      rw [ih w' c' fs' h3]

theorem ee_stands (r : WbaesRnd) (r1 r2 : Fin 16 → Nat → BitVec 32) (junk : Vector (Fin 256) 256) (key : Block) (iv : List Byte) :
    StandsFor (eeEnc r r1 junk) (wbgcmSetiv (wbEeInit (wbEeGenTable r r1 r2 junk key)) iv) (gcmSetiv (gcmInit (aes128 key)) iv) := by
  have hh : (Vector.ofFn fun i : Fin 16 => wbEeBox (wbEeGenTable r r1 r2 junk key) i 0
      (wbEeBlock (wbEeGenTable r r1 r2 junk key) zeroBlock)[i]) = aes128 key zeroBlock := by
    apply Vector.ext
    intro m hm
    rw [ee_block]
    simp only [Vector.getElem_ofFn, Fin.getElem_fin, ee_box]
    simp
  apply stands_setiv
  · rfl
  · show (gcmTables _).1 = (gcmTables _).1
    rw [hh]
  · show (gcmTables _).2 = (gcmTables _).2
    rw [hh]
  · exact ee_block r r1 r2 junk key
  · exact ee_box r r1 r2 junk key

/-- C118: whatever files of whatever length are encrypted and decrypted with one context after its first `setiv`, with whatever
calls between them, a context of the ee mode and a context of AES-GCM for the same key return the same codes, do the same file
operations and write the same bytes, and are undefined for the same sessions. (As far as the first file that is encrypted while
both length counters are 0: an empty file with no AAD.) -/
theorem C118_ee_same_files (r : WbaesRnd) (r1 r2 : Fin 16 → Nat → BitVec 32) (junk : Vector (Fin 256) 256) (key : Block)
    (iv : List Byte) (fs : FS) (l : List FileCall) :
    sessionOf wbFileStep (wbgcmSetiv (wbEeInit (wbEeGenTable r r1 r2 junk key)) iv) fs l =
      sessionOf plainFileStep (gcmSetiv (gcmInit (aes128 key)) iv) fs l :=
  stands_session l _ _ fs (ee_stands r r1 r2 junk key iv)

/-! ### one file, from wherever the context stands -/

theorem wb_fold_y (w : WbGcmCtx) (dec : Bool) (l : List (List Byte)) : ∀ (y b : Block) (o : List Byte),
    toBV (l.foldl (wbStep dec w) (y, b, o)).1 = inc32^[l.length] (toBV y) := by
  induction l with
  | nil => intro y b o; rfl
  | cons p l ih =>
    intro y b o
    rw [List.foldl_cons, wbStep_eq, ih, incCtr_eq]
    rfl

theorem boxed_ctx {w : WbGcmCtx} {E : Block → Block} {enc : Fin 16 → Byte → Byte} {comb : Comb} (B : Boxed w E enc comb)
    (len : BitVec 64) (y buf : Block) : Boxed { w with g := { w.g with len := len, y := y, buf := buf } } E enc comb :=
  ⟨B.block, B.box, B.tab⟩

theorem wb_dec_stream {w : WbGcmCtx} {E : Block → Block} {enc : Fin 16 → Byte → Byte} {comb : Comb} (B : Boxed w E enc comb)
    (x : List Byte) : ∀ (y buf : Block) (o : List Byte),
    ((chunks x).foldl (wbDecPiece w) (y, buf, o)).2.2 = o ++ stream comb E (inc32 (toBV y)) x := by
  induction x using chunks_induction with
  | nil => intro y buf o; simp [stream_nil]
  | step x hx ih =>
    intro y buf o
    rw [chunks_of_ne_nil hx, List.foldl_cons, stream_step _ _ _ _ hx]
    simp only [wbDecPiece]
    rw [ih, B.block, boxPiece_enc _ _ _ B.box, incCtr_eq, incCtr_eq_ofBV, List.append_assoc]

/-- The loop over a file that is encrypted or decrypted. -/
theorem wb_loop_stream {w : WbGcmCtx} {E : Block → Block} {enc : Fin 16 → Byte → Byte} {comb : Comb} (B : Boxed w E enc comb)
    (dec : Bool) (d : List Byte) : ∃ w', wbFileLoop (wbgcmCrypt (wbStep dec)) w (fpieces d) =
      some (stream comb E (inc32 (toBV w.g.y)) d, w') ∧ Boxed w' E enc comb ∧
      toBV w'.g.y = inc32^[(d.length + 15) / 16] (toBV w.g.y) := by
  have hy := wb_fold_y w dec (chunks d) w.g.y w.g.buf []
  rw [chunks_count] at hy
  have hs : ((chunks d).foldl (wbStep dec w) (w.g.y, w.g.buf, [])).2.2 = stream comb E (inc32 (toBV w.g.y)) d := by
    cases dec
    · obtain ⟨y', b', h, _⟩ := wbfold_enc B d w.g.y w.g.buf []
      rw [show wbStep false = wbEncPiece from rfl, h]; rfl
    · exact wb_dec_stream B d w.g.y w.g.buf []
  have hp : PieceOk (wbStep dec) := by cases dec; exact enc_pieceOk; exact dec_pieceOk
  have := wbFileLoop_eq hp d w _ _ _ rfl
  rw [hs] at this
  exact ⟨_, this, boxed_ctx B _ _ _, hy⟩

/-- Encryption of a file of any length in any state of a context. -/
theorem wb_enc_file {w : WbGcmCtx} {E : Block → Block} {enc : Fin 16 → Byte → Byte} {comb : Comb} (B : Boxed w E enc comb)
    (junk : Vector Byte 4) (fs : FS) (inp out : Path) (d : List Byte) (h1 : inp ≠ out) (h2 : inp ≠ tmpPath out)
    (hd : fs inp = some d) :
    ∃ r tag, wbgcmfileEncrypt w junk fs inp out = some r ∧ r.ret = 1 ∧ tag.length = 16 ∧
      applyOps fs r.log out = some (tag ++ sizeBuf d.length junk ++ stream comb E (inc32 (toBV w.g.y)) d) ∧
      Boxed r.ctx E enc comb ∧ toBV r.ctx.g.y = inc32^[(d.length + 15) / 16] (toBV w.g.y) := by
  obtain ⟨w1, e1, e2, e3⟩ := wb_loop_stream B false d
  obtain ⟨tag, b, f1, f2⟩ := wbfinish16 w1
  have hr : applyOps fs [FsOp.trunc (tmpPath out), FsOp.trunc out] inp = some d := by
    rw [applyOps_other, hd]
    intro o ho
    simp at ho
    rcases ho with rfl | rfl
    · exact Ne.symm h2
    · exact Ne.symm h1
  refine ⟨{ ret := 1, ctx := { w1 with g := { w1.g with buf := b } },
            log := [FsOp.trunc (tmpPath out), FsOp.trunc out] ++
              (stream comb E (inc32 (toBV w.g.y)) d).map (FsOp.put (tmpPath out)) ++
              (tag ++ sizeBuf d.length junk ++ stream comb E (inc32 (toBV w.g.y)) d).map (FsOp.put out) ++
              [FsOp.remove (tmpPath out)] }, tag, ?_, rfl, f2,
    (log_result fs (tmpPath out) out _ _ (tmpPath_ne out)).1, ⟨e2.block, e2.box, e2.tab⟩, e3⟩
  unfold wbgcmfileEncrypt
  simp only [hd, hr, Option.bind_eq_bind, Option.bind_some]
  rw [show wbFileLoop wbgcmEncrypt w (fpieces d) = _ from e1]
  simp only [Option.bind_some, f1, fpieces_flatten]
  rfl

/-- Decryption of a file in any state of a context. -/
theorem wb_dec_file {w : WbGcmCtx} {E : Block → Block} {enc : Fin 16 → Byte → Byte} {comb : Comb} (B : Boxed w E enc comb)
    (fs : FS) (inp out : Path) (tag body : List Byte) (junk : Vector Byte 4) (h1 : inp ≠ out) (ht : tag.length = 16)
    (hd : fs inp = some (tag ++ sizeBuf body.length junk ++ body)) (hl : body.length < 2 ^ 31) :
    ∃ r, wbgcmfileDecrypt w fs inp out = some r ∧ r.ret = 1 ∧
      applyOps fs r.log out = some (stream comb E (inc32 (toBV w.g.y)) body) ∧
      Boxed r.ctx E enc comb ∧ toBV r.ctx.g.y = inc32^[(body.length + 15) / 16] (toBV w.g.y) := by
  obtain ⟨g1, g2, g3⟩ := encContent_drop tag body junk ht
  rw [encContent] at g1 g2 g3
  obtain ⟨t, b, f1, _⟩ := wbfinish16 w
  obtain ⟨w2, e1, e2, e3⟩ := wb_loop_stream (w := { w with g := { w.g with buf := b } }) ⟨B.block, B.box, B.tab⟩ true body
  refine ⟨{ ret := 1, ctx := w2, log := FsOp.trunc out :: (stream comb E (inc32 (toBV w.g.y)) body).map (FsOp.put out) }, ?_, rfl,
    applyOps_trunc_put fs out _, e2, e3⟩
  have n1 : (tag ++ sizeBuf body.length junk ++ body).take 16 ≠ [] := by
    intro h; have := congrArg List.length h; simp only [List.length_take, List.length_nil] at this; omega
  have n2 : ((tag ++ sizeBuf body.length junk ++ body).drop 16).take 8 ≠ [] := by
    intro h; have := congrArg List.length h
    simp only [List.length_take, List.length_drop, List.length_nil] at this; omega
  unfold wbgcmfileDecrypt
  simp only [hd, Option.bind_eq_bind, Option.bind_some]
  rw [if_neg h1, if_neg n1, if_neg n2, f1, g1, g2]
  simp only [Option.bind_some]
  rw [show wbFileLoop wbgcmDecrypt _ (fpieces body) = _ from e1]
  simp only [Option.bind_some]
  rw [if_neg (by omega), fileSize_sizeBuf _ _ (by omega), if_pos rfl]
  rfl

/-- C118: a file with more than `2^31 - 1` bytes behind the header cannot be decrypted in either mode: the counter `read_size`
overflows. -/
theorem C118_large_decrypt (w : WbGcmCtx) (fs : FS) (inp out : Path) (content : List Byte)
    (hd : fs inp = some content) (hl : 2 ^ 31 + 24 ≤ content.length) : wbgcmfileDecrypt w fs inp out = none := by
  unfold wbgcmfileDecrypt
  obtain ⟨t, b, f1, _⟩ := wbfinish16 w
  have e := wbFileLoop_eq dec_pieceOk (content.drop 24) { w with g := { w.g with buf := b } } _ _ _ rfl
  simp only [hd, Option.bind_eq_bind, Option.bind_some, f1]
  rw [show wbgcmDecrypt = wbgcmCrypt wbDecPiece from rfl, e]
  simp only [Option.bind_some]
  rw [if_pos (show 2 ^ 31 ≤ (content.drop 24).length by rw [List.length_drop]; omega)]
  split
  · rfl
  · split
    · rfl
    · split <;> rfl

/-- C118: but files of any length below `2^61` bytes are encrypted as AES-GCM requires, with return value 1, in the ee mode. -/
theorem C118_large_encrypt (r : WbaesRnd) (r1 r2 : Fin 16 → Nat → BitVec 32) (jt : Vector (Fin 256) 256) (key : Block)
    (iv aad : List Byte) (junk : Vector Byte 4) (fs : FS) (inp out : Path) (d : List Byte)
    (hiv : iv.length < 2 ^ 29) (ha : aad.length < 2 ^ 61) (hl : d.length < 2 ^ 61) (hne : ¬(d = [] ∧ aad = []))
    (h1 : inp ≠ out) (h2 : inp ≠ tmpPath out) (hd : fs inp = some d) :
    ∃ e, wbgcmfileEncrypt (wbgcmAad (wbgcmSetiv (wbEeInit (wbEeGenTable r r1 r2 jt key)) iv) aad) junk fs inp out = some e ∧
      e.ret = 1 ∧ applyOps fs e.log out = some ((gcmTag (aes128 key) iv aad (gcmCipher (aes128 key) iv d)).toList ++
        sizeBuf d.length junk ++ gcmCipher (aes128 key) iv d) := by
  have S := ee_stands r r1 r2 jt key iv
  have S2 : StandsFor (eeEnc r r1 jt) (wbgcmAad (wbgcmSetiv (wbEeInit (wbEeGenTable r r1 r2 jt key)) iv) aad)
      (gcmAad (gcmSetiv (gcmInit (aes128 key)) iv) aad) := by
    rcases stands_out S (.aad aad) with ⟨h, _⟩ | ⟨x, c, w, h, h', s⟩
    · exact absurd h (by simp [plainOut])
    · obtain ⟨rfl, rfl⟩ := Prod.mk.inj (Option.some.inj h)
      obtain ⟨_, rfl⟩ := Prod.mk.inj (Option.some.inj h')
      exact s
  obtain ⟨a, a1, a2, a3⟩ := C111_large_encrypt (aes128 key) iv aad junk fs inp out d hiv ha hl h1 h2 hd
  have hz : ¬(a.ctx.len * 8 = 0 ∧ a.ctx.addLen * 8 = 0) := by
    have hc := enc_loop_any d (gcmAad (gcmSetiv (gcmInit (aes128 key)) iv) aad)
    obtain ⟨t, c2, f1, _⟩ := finish16 { gcmAad (gcmSetiv (gcmInit (aes128 key)) iv) aad with
      len := (gcmAad (gcmSetiv (gcmInit (aes128 key)) iv) aad).len + BitVec.ofNat 64 d.length,
      y := ((chunks d).foldl (encPiece (gcmAad (gcmSetiv (gcmInit (aes128 key)) iv) aad))
        ((gcmAad (gcmSetiv (gcmInit (aes128 key)) iv) aad).y, (gcmAad (gcmSetiv (gcmInit (aes128 key)) iv) aad).buf, [])).1,
      buf := ((chunks d).foldl (encPiece (gcmAad (gcmSetiv (gcmInit (aes128 key)) iv) aad))
        ((gcmAad (gcmSetiv (gcmInit (aes128 key)) iv) aad).y, (gcmAad (gcmSetiv (gcmInit (aes128 key)) iv) aad).buf, [])).2.1 }
    obtain ⟨l1, l2⟩ := finish_counters _ _ _ f1
    obtain ⟨a', b1, _, b3, _⟩ := gcmfileEncrypt_of _ _ _ junk fs inp out d _ _ h1 h2 hd hc f1
    obtain rfl : a' = a := Option.some.inj (b1.symm.trans a1)
    rw [b3, l1, l2]
    rintro ⟨z1, z2⟩
    have z1' : (0 + BitVec.ofNat 64 d.length) * 8 = 0 := z1
    have z2' : BitVec.ofNat 64 aad.length * 8 = 0 := z2
    rw [show (0 : BitVec 64) = 0#64 from rfl, BitVec.zero_add] at z1'
    exact hne ⟨List.length_eq_zero_iff.mp (mul8_eq_zero hl z1'), List.length_eq_zero_iff.mp (mul8_eq_zero ha z2')⟩
  rcases stands_file S2 fs (.encFile junk inp out) with ⟨h, _⟩ | ⟨o, h, _⟩ | ⟨o, c', w', fs', h, h', _⟩
  · rw [plainFileStep, a1] at h; exact absurd h (by simp)
  · rw [plainFileStep, a1, Option.map_some, if_neg hz] at h
    exact absurd (Prod.mk.inj (Option.some.inj h)).2 (by simp)
  · rw [plainFileStep, a1, Option.map_some, if_neg hz] at h
    obtain ⟨rfl, _⟩ := Prod.mk.inj (Option.some.inj h)
    rw [wbFileStep] at h'
    obtain ⟨e, e1, e2⟩ := Option.map_eq_some_iff.mp h'
    split at e2
    · exact absurd (Prod.mk.inj e2).2 (by simp)
    · have e3 := (Prod.mk.inj e2).1
      have e4 : ((e.ret : Int)) = a.ret := (Prod.mk.inj e3).1
      have e5 : e.log = a.log := (Prod.mk.inj (Prod.mk.inj e3).2).2
      exact ⟨e, e1, by omega, by rw [e5]; exact a3⟩

/-! ### several files with one context -/

/-- A file to be encrypted or decrypted: the file system, the two paths and, for encryption, the junk behind `file_size` and the
content. -/
structure EncJob where
  junk : Vector Byte 4
  fs : FS
  inp : Path
  out : Path
  data : List Byte

def EncJob.Ok (j : EncJob) : Prop := j.inp ≠ j.out ∧ j.inp ≠ tmpPath j.out ∧ j.fs j.inp = some j.data

structure DecJob where
  fs : FS
  inp : Path
  out : Path

/-- Files encrypted one after another with one context: return values and contents of the output files. -/
def encFiles (w : WbGcmCtx) : List EncJob → Option (List (Nat × Option (List Byte)))
  | [] => some []
  | j :: js => do
    let r ← wbgcmfileEncrypt w j.junk j.fs j.inp j.out
    return (r.ret, applyOps j.fs r.log j.out) :: (← encFiles r.ctx js)

/-- Files decrypted one after another with one context. -/
def decFiles (w : WbGcmCtx) : List DecJob → Option (List (Nat × Option (List Byte)))
  | [] => some []
  | j :: js => do
    let r ← wbgcmfileDecrypt w j.fs j.inp j.out
    return (r.ret, applyOps j.fs r.log j.out) :: (← decFiles r.ctx js)

theorem stream_stream (f g : Comb) (h : ∀ i a e, g i (f i a e) e = a) (E : Block → Block) (x : List Byte) : ∀ v,
    stream g E v (stream f E v x) = x := by
  induction x using chunks_induction with
  | nil => intro v; rfl
  | step x hx ih =>
    intro v
    rw [stream, chunks_stream_step _ _ _ _ hx, streamPieces, boxPiece_inv _ _ h _ _ (by simp),
      show streamPieces g E (inc32 v) (chunks (stream f E (inc32 v) (x.drop 16))) = _ from ih (inc32 v), List.take_append_drop]

theorem files_in_order {E : Block → Block} {enc enc' : Fin 16 → Byte → Byte} {f g : Comb}
    (h : ∀ i a e, g i (f i a e) e = a) (js : List EncJob) : ∀ (w w' : WbGcmCtx) (ds : List DecJob),
    Boxed w E enc f → Boxed w' E enc' g → toBV w.g.y = toBV w'.g.y → (∀ j ∈ js, j.Ok ∧ j.data.length < 2 ^ 31) →
    ∃ l, encFiles w js = some l ∧ (∀ x ∈ l, x.1 = 1) ∧ l.length = js.length ∧
      (List.Forall₂ (fun x d => d.inp ≠ d.out ∧ d.fs d.inp = x.2) l ds →
        decFiles w' ds = some (js.map fun j => (1, some j.data))) := by
  induction js with
  | nil =>
    intro w w' ds _ _ _ _
    refine ⟨[], rfl, by simp, rfl, fun hf => ?_⟩
    cases hf
    rfl
  | cons j js ih =>
    intro w w' ds B B' hy hj
    obtain ⟨⟨k1, k2, k3⟩, kl⟩ := hj j List.mem_cons_self
    obtain ⟨r, tag, a1, a2, a3, a4, a5, a6⟩ := wb_enc_file B j.junk j.fs j.inp j.out j.data k1 k2 k3
    have hlen := length_stream f E j.data (inc32 (toBV w.g.y))
    have hy' : ∀ (d : DecJob), d.inp ≠ d.out →
        d.fs d.inp = some (tag ++ sizeBuf j.data.length j.junk ++ stream f E (inc32 (toBV w.g.y)) j.data) →
        ∃ r', wbgcmfileDecrypt w' d.fs d.inp d.out = some r' ∧ r'.ret = 1 ∧ applyOps d.fs r'.log d.out = some j.data ∧
          Boxed r'.ctx E enc' g ∧ toBV r.ctx.g.y = toBV r'.ctx.g.y := by
      intro d q1 q2
      rw [← hlen] at q2
      obtain ⟨r', c1, c2, c3, c4, c5⟩ := wb_dec_file B' d.fs d.inp d.out tag _ j.junk q1 a3 q2 (by omega)
      rw [← hy, stream_stream f g h] at c3
      exact ⟨r', c1, c2, c3, c4, by rw [a6, c5, hlen, hy]⟩
    match ds with
    | [] =>
      obtain ⟨l, b1, b2, b3, _⟩ := ih r.ctx { w' with g := { w'.g with y := r.ctx.g.y } } [] a5 ⟨B'.block, B'.box, B'.tab⟩ rfl
        (fun x hx => hj x (List.mem_cons_of_mem _ hx))
      refine ⟨(1, some (tag ++ sizeBuf j.data.length j.junk ++ stream f E (inc32 (toBV w.g.y)) j.data)) :: l,
        by rw [encFiles, a1]; simp only [Option.bind_eq_bind, Option.bind_some, b1, a2, a4]; rfl, ?_, by simp [b3], fun hf => by cases hf⟩
      intro x hx
      rcases List.mem_cons.mp hx with rfl | hx
      · rfl
      · exact b2 x hx
    | d :: ds =>
      by_cases hq : d.inp ≠ d.out ∧
          d.fs d.inp = some (tag ++ sizeBuf j.data.length j.junk ++ stream f E (inc32 (toBV w.g.y)) j.data)
      · obtain ⟨r', c1, c2, c3, c4, c5⟩ := hy' d hq.1 hq.2
        obtain ⟨l, b1, b2, b3, b4⟩ := ih r.ctx r'.ctx ds a5 c4 c5 (fun x hx => hj x (List.mem_cons_of_mem _ hx))
        refine ⟨(1, some (tag ++ sizeBuf j.data.length j.junk ++ stream f E (inc32 (toBV w.g.y)) j.data)) :: l,
          by rw [encFiles, a1]; simp only [Option.bind_eq_bind, Option.bind_some, b1, a2, a4]; rfl, ?_, by simp [b3], fun hf => ?_⟩
        · intro x hx
          rcases List.mem_cons.mp hx with rfl | hx
          · rfl
          · exact b2 x hx
        · cases hf with
          | cons _ hf =>
            rw [decFiles, c1]
            simp only [Option.bind_eq_bind, Option.bind_some, b4 hf, c2, c3]
            rfl
      · obtain ⟨l, b1, b2, b3, _⟩ := ih r.ctx { w' with g := { w'.g with y := r.ctx.g.y } } [] a5 ⟨B'.block, B'.box, B'.tab⟩ rfl
          (fun x hx => hj x (List.mem_cons_of_mem _ hx))
        refine ⟨(1, some (tag ++ sizeBuf j.data.length j.junk ++ stream f E (inc32 (toBV w.g.y)) j.data)) :: l,
          by rw [encFiles, a1]; simp only [Option.bind_eq_bind, Option.bind_some, b1, a2, a4]; rfl, ?_, by simp [b3], fun hf => ?_⟩
        · intro x hx
          rcases List.mem_cons.mp hx with rfl | hx
          · rfl
          · exact b2 x hx
        · cases hf with
          | cons hx _ => exact absurd hx hq

theorem files_in_order' {E : Block → Block} {enc enc' : Fin 16 → Byte → Byte} {f g : Comb} {w w' : WbGcmCtx}
    (B : Boxed w E enc f) (B' : Boxed w' E enc' g) (h : ∀ i a e, g i (f i a e) e = a) (iv aad aad' : List Byte)
    (hiv : iv.length < 2 ^ 29) (js : List EncJob) (hj : ∀ j ∈ js, j.Ok ∧ j.data.length < 2 ^ 31) :
    ∃ l, encFiles (wbgcmAad (wbgcmSetiv w iv) aad) js = some l ∧ (∀ x ∈ l, x.1 = 1) ∧ l.length = js.length ∧
      ∀ ds : List DecJob, List.Forall₂ (fun x d => d.inp ≠ d.out ∧ d.fs d.inp = x.2) l ds →
        decFiles (wbgcmAad (wbgcmSetiv w' iv) aad') ds = some (js.map fun j => (1, some j.data)) := by
  have hy : toBV (wbgcmAad (wbgcmSetiv w iv) aad).g.y = toBV (wbgcmAad (wbgcmSetiv w' iv) aad').g.y :=
    (wbsetiv_y B iv hiv).trans (wbsetiv_y B' iv hiv).symm
  have key := fun ds => files_in_order h js _ _ ds (wbaad_boxed B iv aad) (wbaad_boxed B' iv aad') hy hj
  obtain ⟨l, a1, a2, a3, _⟩ := key []
  refine ⟨l, a1, a2, a3, fun ds hd => ?_⟩
  obtain ⟨l', b1, _, _, b4⟩ := key ds
  obtain rfl : l = l' := Option.some.inj (a1.symm.trans b1)
  exact b4 hd

/-- C118: in the ee mode, files of fewer than `2^31` bytes that are encrypted one after another with one context after one `setiv`
are restored by one context of the key that decrypts them in the same order, each with return value 1 (whatever the AAD). -/
theorem C118_ee_order (r rr : WbaesRnd) (r1 r2 rr1 rr2 : Fin 16 → Nat → BitVec 32) (jt jt' : Vector (Fin 256) 256) (key : Block)
    (iv aad aad' : List Byte) (hiv : iv.length < 2 ^ 29) (js : List EncJob) (hj : ∀ j ∈ js, j.Ok ∧ j.data.length < 2 ^ 31) :
    ∃ l, encFiles (wbgcmAad (wbgcmSetiv (wbEeInit (wbEeGenTable r r1 r2 jt key)) iv) aad) js = some l ∧
      (∀ x ∈ l, x.1 = 1) ∧ l.length = js.length ∧
      ∀ ds : List DecJob, List.Forall₂ (fun x d => d.inp ≠ d.out ∧ d.fs d.inp = x.2) l ds →
        decFiles (wbgcmAad (wbgcmSetiv (wbEeInit (wbEeGenTable rr rr1 rr2 jt' key)) iv) aad') ds =
          some (js.map fun j => (1, some j.data)) :=
  files_in_order' (ee_boxed r r1 r2 jt key) (ee_boxed rr rr1 rr2 jt' key) xorComb_inv iv aad aad' hiv js hj

theorem mask_inv (r : WbMaskRnd) (i : Fin 16) (a e : Byte) : maskLinv r i (maskL r i (a ^^^ e)) ^^^ e = a := by
  rw [maskL_inv, BitVec.xor_assoc, BitVec.xor_self, BitVec.xor_zero]

/-- C118: the same in the masked mode, with the encryption and the decryption context of one key. -/
theorem C118_mask_order (re rd : WbaesRnd) (roe rod : Fin 16 → Fin 2 → Nat → BitVec 32) (r : WbMaskRnd) (key : Block)
    (iv aad aad' : List Byte) (hiv : iv.length < 2 ^ 29) (js : List EncJob) (hj : ∀ j ∈ js, j.Ok ∧ j.data.length < 2 ^ 31) :
    ∃ l, encFiles (wbgcmAad (wbgcmSetiv (wbMaskInit (wbMaskGenTable re rd roe rod r key).1) iv) aad) js = some l ∧
      (∀ x ∈ l, x.1 = 1) ∧ l.length = js.length ∧
      ∀ ds : List DecJob, List.Forall₂ (fun x d => d.inp ≠ d.out ∧ d.fs d.inp = x.2) l ds →
        decFiles (wbgcmAad (wbgcmSetiv (wbMaskInit (wbMaskGenTable re rd roe rod r key).2) iv) aad') ds =
          some (js.map fun j => (1, some j.data)) :=
  files_in_order' (mask_enc_boxed re roe r key) (mask_dec_boxed rd rod r key) (fun i a e => mask_inv r i a e) iv aad aad' hiv js hj

theorem stream_pair (f g f' g' : Comb) (h : ∀ i a e e', g i (f i a e) e' = g' i (f' i a e) e') (E : Block → Block)
    (x : List Byte) : ∀ u v, stream g E u (stream f E v x) = stream g' E u (stream f' E v x) := by
  induction x using chunks_induction with
  | nil => intro u v; rfl
  | step x hx ih =>
    intro u v
    have hs : ∀ f g : Comb, stream g E u (stream f E v x) = boxPiece g (E (ofBV u)) (boxPiece f (E (ofBV v)) (x.take 16)) ++
        stream g E (inc32 u) (stream f E (inc32 v) (x.drop 16)) := fun f g => by
      rw [stream, chunks_stream_step _ _ _ _ hx, streamPieces]; rfl
    rw [hs, hs, ih]
    congr 1
    apply List.ext_getElem
    · simp
    · intro i h1 h2
      simp only [boxPiece, List.getElem_ofFn]
      exact h _ _ _ _

theorem second_file {E : Block → Block} {enc enc' : Fin 16 → Byte → Byte} {f g : Comb} {w w' : WbGcmCtx}
    (B : Boxed w E enc f) (B' : Boxed w' E enc' g) (h : ∀ i a e e', g i (f i a e) e' = a ^^^ e ^^^ e') (iv aad aad' : List Byte)
    (hiv : iv.length < 2 ^ 29) (j1 j2 : EncJob) (h1 : j1.Ok) (h2 : j2.Ok) (hl : j2.data.length < 2 ^ 31) :
    ∃ f1 f2, encFiles (wbgcmAad (wbgcmSetiv w iv) aad) [j1, j2] = some [(1, some f1), (1, some f2)] ∧
      ∀ (fs : FS) (p out : Path), p ≠ out → fs p = some f2 →
        ∃ x, decFiles (wbgcmAad (wbgcmSetiv w' iv) aad') [⟨fs, p, out⟩] = some [(1, some x)] ∧
          (x = j2.data ↔ gctr E (inc32 (j0 E iv)) (List.replicate j2.data.length 0) =
            gctr E (inc32^[(j1.data.length + 15) / 16 + 1] (j0 E iv)) (List.replicate j2.data.length 0)) := by
  obtain ⟨a, t, a1, a2, _, a4, a5, a6⟩ := wb_enc_file (wbaad_boxed B iv aad) j1.junk j1.fs j1.inp j1.out j1.data h1.1 h1.2.1 h1.2.2
  obtain ⟨b, t', b1, b2, b3, b4, _, _⟩ := wb_enc_file a5 j2.junk j2.fs j2.inp j2.out j2.data h2.1 h2.2.1 h2.2.2
  rw [show toBV (wbgcmAad (wbgcmSetiv w iv) aad).g.y = j0 E iv from wbsetiv_y B iv hiv] at a6
  rw [a6, ← Function.iterate_succ_apply' inc32] at b4
  have hlen := length_stream f E j2.data (inc32^[(j1.data.length + 15) / 16 + 1] (j0 E iv))
  refine ⟨t ++ sizeBuf j1.data.length j1.junk ++ stream f E (inc32 (toBV (wbgcmAad (wbgcmSetiv w iv) aad).g.y)) j1.data,
    t' ++ sizeBuf j2.data.length j2.junk ++ stream f E (inc32^[(j1.data.length + 15) / 16 + 1] (j0 E iv)) j2.data,
    ?_, fun fs p out hp hf => ?_⟩
  · simp only [encFiles, a1, b1, Option.bind_eq_bind, Option.bind_some, a2, a4, b2, b4]
    rfl
  · rw [← hlen] at hf
    obtain ⟨c, c1, c2, c3, _, _⟩ := wb_dec_file (wbaad_boxed B' iv aad') fs p out t' _ j2.junk hp b3 hf (by omega)
    rw [show toBV (wbgcmAad (wbgcmSetiv w' iv) aad').g.y = j0 E iv from wbsetiv_y B' iv hiv] at c3
    refine ⟨_, by simp only [decFiles, c1, Option.bind_eq_bind, Option.bind_some, c2, c3]; rfl, ?_⟩
    rw [stream_pair f g xorComb xorComb (fun i a e e' => by rw [h]; rfl), stream_xor, stream_xor]
    exact gctr_agree E _ _ _

/-- C118: but the second of two such files, decrypted with a freshly prepared context, has return value 1 and the wrong content,
unless the two stretches of key stream happen to be equal. -/
theorem C118_ee_second (r rr : WbaesRnd) (r1 r2 rr1 rr2 : Fin 16 → Nat → BitVec 32) (jt jt' : Vector (Fin 256) 256) (key : Block)
    (iv aad aad' : List Byte) (hiv : iv.length < 2 ^ 29) (j1 j2 : EncJob) (h1 : j1.Ok) (h2 : j2.Ok) (hl : j2.data.length < 2 ^ 31) :
    ∃ f1 f2, encFiles (wbgcmAad (wbgcmSetiv (wbEeInit (wbEeGenTable r r1 r2 jt key)) iv) aad) [j1, j2] =
        some [(1, some f1), (1, some f2)] ∧
      ∀ (fs : FS) (p out : Path), p ≠ out → fs p = some f2 →
        ∃ x, decFiles (wbgcmAad (wbgcmSetiv (wbEeInit (wbEeGenTable rr rr1 rr2 jt' key)) iv) aad') [⟨fs, p, out⟩] =
            some [(1, some x)] ∧
          (x = j2.data ↔ gctr (aes128 key) (inc32 (j0 (aes128 key) iv)) (List.replicate j2.data.length 0) =
            gctr (aes128 key) (inc32^[(j1.data.length + 15) / 16 + 1] (j0 (aes128 key) iv)) (List.replicate j2.data.length 0)) :=
  second_file (ee_boxed r r1 r2 jt key) (ee_boxed rr rr1 rr2 jt' key) (fun _ _ _ _ => rfl) iv aad aad' hiv j1 j2 h1 h2 hl

/-- C118: the same in the masked mode. -/
theorem C118_mask_second (re rd : WbaesRnd) (roe rod : Fin 16 → Fin 2 → Nat → BitVec 32) (r : WbMaskRnd) (key : Block)
    (iv aad aad' : List Byte) (hiv : iv.length < 2 ^ 29) (j1 j2 : EncJob) (h1 : j1.Ok) (h2 : j2.Ok) (hl : j2.data.length < 2 ^ 31) :
    ∃ f1 f2, encFiles (wbgcmAad (wbgcmSetiv (wbMaskInit (wbMaskGenTable re rd roe rod r key).1) iv) aad) [j1, j2] =
        some [(1, some f1), (1, some f2)] ∧
      ∀ (fs : FS) (p out : Path), p ≠ out → fs p = some f2 →
        ∃ x, decFiles (wbgcmAad (wbgcmSetiv (wbMaskInit (wbMaskGenTable re rd roe rod r key).2) iv) aad') [⟨fs, p, out⟩] =
            some [(1, some x)] ∧
          (x = j2.data ↔ gctr (aes128 key) (inc32 (j0 (aes128 key) iv)) (List.replicate j2.data.length 0) =
            gctr (aes128 key) (inc32^[(j1.data.length + 15) / 16 + 1] (j0 (aes128 key) iv)) (List.replicate j2.data.length 0)) :=
  second_file (mask_enc_boxed re roe r key) (mask_dec_boxed rd rod r key) (fun i a e e' => by rw [maskL_inv])
    iv aad aad' hiv j1 j2 h1 h2 hl

/-! ### full devices -/

theorem disk_content (io : FileIo) (tag size ct : List Byte) (h1 : tag.length = 16) (h2 : size.length = 8) :
    outClose io.outRoom (outPutAny io.outRoom io.outFlush ⟨[], [], 0⟩ (tag :: size :: fpieces (tmpBack io ct))) =
      (tag ++ size ++ ct).take (fileArrives io ct.length) := by
  rw [outPutAny_spec _ _ _ ?_ _ [] (outInv_start _)]
  · rw [List.nil_append, List.flatten_cons, List.flatten_cons, fpieces_flatten, tmpBack_eq, ← List.append_assoc]
    have : ∀ n, tag ++ size ++ ct.take n = (tag ++ size ++ ct).take (24 + n) := by
      intro n
      rw [List.take_append (l₁ := tag ++ size), List.take_of_length_le (i := 24 + n) (l := tag ++ size)
        (by rw [List.length_append]; omega)]
      congr 2
      rw [List.length_append]; omega
    rw [this, List.take_take, fileArrives]
    by_cases hn : ct.length ≤ io.tmpRoom
    · rw [if_pos (Or.inl hn), if_pos hn]
      rcases Nat.le_total io.outRoom (24 + ct.length) with h | h
      · rw [Nat.min_eq_left (by omega), Nat.min_eq_left h]
      · rw [Nat.min_eq_right h, List.take_of_length_le (by simp only [List.length_append]; omega),
          List.take_of_length_le (by simp only [List.length_append]; omega)]
    · cases io.rewind <;> simp [hn]
  · intro x hx
    rcases List.mem_cons.mp hx with rfl | hx
    · intro h; rw [h] at h1; simp at h1
    · rcases List.mem_cons.mp hx with rfl | hx
      · intro h; rw [h] at h2; simp at h2
      · exact fpieces_ne _ _ hx

theorem wb_loop_len (dec : Bool) (w : WbGcmCtx) (d : List Byte) : ∃ o w', wbFileLoop (wbgcmCrypt (wbStep dec)) w (fpieces d) =
    some (o, w') ∧ o.length = d.length := by
  have hp : PieceOk (wbStep dec) := by cases dec; exact enc_pieceOk; exact dec_pieceOk
  exact ⟨_, _, wbFileLoop_eq hp d w _ _ _ rfl, foldl_len hp w d _ _⟩

/-- C118: in both modes, whatever the devices take, encryption returns 1; the output file is a prefix of what it should be, and it
is complete exactly if both the temporary and the output file had room. -/
theorem C118_full_encrypt (io : FileIo) (w : WbGcmCtx) (junk : Vector Byte 4) (d : List Byte) (fs : FS) (inp out : Path)
    (ht : io.tmpOpened = true) (ho : io.outOpened = true)
    (h1 : inp ≠ out) (h2 : inp ≠ tmpPath out) (hd : fs inp = some d) :
    ∃ r full, wbgcmfileEncrypt w junk fs inp out = some r ∧ applyOps fs r.log out = some full ∧ full.length = d.length + 24 ∧
      wbgcmfileEncryptIo io w junk d = some (1, full.take (fileArrives io d.length), r.ctx) ∧
      (full.take (fileArrives io d.length) = full ↔ d.length ≤ io.tmpRoom ∧ d.length + 24 ≤ io.outRoom) := by
  obtain ⟨o, w1, e1, e2⟩ := wb_loop_len false w d
  obtain ⟨tag, b, f1, f2⟩ := wbfinish16 w1
  have hs := length_sizeBuf d.length junk
  have hfull : (tag ++ sizeBuf d.length junk ++ o).length = d.length + 24 := by
    rw [List.length_append, List.length_append, f2, hs, e2]; omega
  have hr : applyOps fs [FsOp.trunc (tmpPath out), FsOp.trunc out] inp = some d := by
    rw [applyOps_other, hd]
    intro o ho
    simp at ho
    rcases ho with rfl | rfl
    · exact Ne.symm h2
    · exact Ne.symm h1
  refine ⟨{ ret := 1, ctx := { w1 with g := { w1.g with buf := b } },
            log := [FsOp.trunc (tmpPath out), FsOp.trunc out] ++ o.map (FsOp.put (tmpPath out)) ++
              (tag ++ sizeBuf d.length junk ++ o).map (FsOp.put out) ++ [FsOp.remove (tmpPath out)] }, _, ?_,
    (log_result fs (tmpPath out) out _ _ (tmpPath_ne out)).1, hfull, ?_, ?_⟩
  · unfold wbgcmfileEncrypt
    simp only [hd, hr, Option.bind_eq_bind, Option.bind_some]
    rw [show wbFileLoop wbgcmEncrypt w (fpieces d) = _ from e1]
    simp only [Option.bind_some, f1, fpieces_flatten]
    rfl
  · unfold wbgcmfileEncryptIo
    simp only [ht, ho, Bool.and_self, if_true, Option.bind_eq_bind]
    rw [show wbFileLoop wbgcmEncrypt w (fpieces d) = _ from e1]
    simp only [Option.bind_some, f1, Option.pure_def]
    rw [disk_content io tag _ o f2 hs, e2]
  · rw [List.take_eq_self_iff, hfull, fileArrives]
    split
    · omega
    · split <;> omega

/-- C118: the return value of decryption is the one that plain GCM gives for the file, whatever the contexts. -/
theorem C118_same_code (w : WbGcmCtx) (c : GcmCtx) (fs : FS) (inp out : Path) :
    (wbgcmfileDecrypt w fs inp out).map (·.ret) = (gcmfileDecrypt c fs inp out).map (·.ret) := by
  unfold wbgcmfileDecrypt gcmfileDecrypt
  rcases hi : fs inp with _ | content
  · rfl
  simp only [Option.bind_eq_bind, Option.bind_some]
  by_cases k1 : inp = out
  · rw [if_pos k1, if_pos k1]; rfl
  by_cases k2 : content.take 16 = []
  · rw [if_neg k1, if_neg k1, if_pos k2, if_pos k2]; rfl
  by_cases k3 : (content.drop 16).take 8 = []
  · rw [if_neg k1, if_neg k1, if_neg k2, if_neg k2, if_pos k3, if_pos k3]; rfl
  rw [if_neg k1, if_neg k1, if_neg k2, if_neg k2, if_neg k3, if_neg k3]
  obtain ⟨t, c1, f1, _⟩ := finish16 c
  obtain ⟨t', b, f2, _⟩ := wbfinish16 w
  obtain ⟨c2, e1, _⟩ := dec_loop_gctr (content.drop 24) c1
  obtain ⟨o, w2, e2, _⟩ := wb_loop_len true { w with g := { w.g with buf := b } } (content.drop 24)
  simp only [f1, f2, e1, Option.bind_some]
  rw [show wbFileLoop wbgcmDecrypt _ (fpieces (content.drop 24)) = _ from e2]
  simp only [Option.bind_some]
  by_cases k4 : 2 ^ 31 ≤ (content.drop 24).length
  · rw [if_pos k4, if_pos k4]; rfl
  · rw [if_neg k4, if_neg k4]; rfl

/-- C118: what reading back a file that did not arrive completely gives, with any context of either mode: 0 if at least the header
arrived, undefined if at most the tag arrived, and in between 0 or return value 1. -/
theorem C118_full_read (io : FileIo) (w w' k : WbGcmCtx) (junk : Vector Byte 4) (d : List Byte) (fs : FS) (inp out : Path)
    (ret : Nat) (file : List Byte) (he : wbgcmfileEncryptIo io w junk d = some (ret, file, w'))
    (hl : d.length < 2 ^ 31) (hroom : io.tmpRoom < d.length ∨ io.outRoom < d.length + 24)
    (h1 : inp ≠ out) (hd : fs inp = some file) :
    (24 ≤ io.outRoom → ∃ r, wbgcmfileDecrypt k fs inp out = some r ∧ r.ret = 0) ∧
    (17 ≤ io.outRoom → io.outRoom < 24 → ∃ r, wbgcmfileDecrypt k fs inp out = some r ∧
      (r.ret = 1 ↔ d.length % 256 ^ (min (io.outRoom - 16) 4) = 0)) ∧
    (io.outRoom ≤ 16 → wbgcmfileDecrypt k fs inp out = none) := by
  have hop : io.tmpOpened = true ∧ io.outOpened = true := by
    unfold wbgcmfileEncryptIo at he
    cases h1 : io.tmpOpened <;> cases h2 : io.outOpened <;> (simp [h1, h2] at he; try exact ⟨rfl, rfl⟩)
  obtain ⟨o, w1, e1, e2⟩ := wb_loop_len false w d
  obtain ⟨tag, b, f1, f2⟩ := wbfinish16 w1
  unfold wbgcmfileEncryptIo at he
  simp only [hop.1, hop.2, Bool.and_self, if_true, Option.bind_eq_bind] at he
  rw [show wbFileLoop wbgcmEncrypt w (fpieces d) = _ from e1] at he
  simp only [Option.bind_some, f1, Option.pure_def] at he
  rw [disk_content io tag _ o f2 (length_sizeBuf _ _), e2] at he
  have hf : _ = file := (Prod.mk.inj (Prod.mk.inj (Option.some.inj he)).2).1
  rw [← hf, show sizeBuf d.length junk = sizeBuf o.length junk by rw [e2]] at hd
  have hk : fileArrives io d.length < d.length + 24 := by
    unfold fileArrives
    split
    · omega
    · split <;> omega
  have key := C26_truncated (gcmInit id) fs inp out tag o junk (fileArrives io d.length) h1 f2
    (by rw [e2]; exact hl) (by rw [e2]; exact hk) hd
  rw [e2] at key
  have hc := C118_same_code k (gcmInit id) fs inp out
  have ha : io.outRoom < 24 → fileArrives io d.length = io.outRoom := by
    intro h; unfold fileArrives; omega
  have hb : 24 ≤ io.outRoom → 24 ≤ fileArrives io d.length := by
    intro h; unfold fileArrives; omega
  have same : ∀ r, gcmfileDecrypt (gcmInit id) fs inp out = some r →
      ∃ r', wbgcmfileDecrypt k fs inp out = some r' ∧ r'.ret = r.ret := by
    intro r hr
    rw [hr, Option.map_some] at hc
    exact Option.map_eq_some_iff.mp hc
  refine ⟨fun h => ?_, fun h h' => ?_, fun h => ?_⟩
  · obtain ⟨r, k1, k2⟩ := key.1 (hb h)
    obtain ⟨r', q1, q2⟩ := same r k1
    exact ⟨r', q1, q2.trans k2⟩
  · obtain ⟨r, k1, k2, _⟩ := key.2.1 (by rw [ha h']; exact h) (by rw [ha h']; exact h')
    obtain ⟨r', q1, q2⟩ := same r k1
    rw [ha h'] at k2
    exact ⟨r', q1, by rw [q2]; exact k2⟩
  · rw [key.2.2 (by rw [ha (by omega)]; exact h), Option.map_none] at hc
    exact Option.map_eq_none_iff.mp hc

/-- C118: decryption to a full device writes as much of the text as the device takes and returns what it returns otherwise. -/
theorem C118_full_decrypt (io : FileIo) (w : WbGcmCtx) (content : List Byte) (fs : FS) (inp out : Path) (r : WbFileResult)
    (ho : io.outOpened = true) (hd : fs inp = some content) (hr : wbgcmfileDecrypt w fs inp out = some r) :
    ∃ x, applyOps fs r.log out = some x ∧ x.length = content.length - 24 ∧
      wbgcmfileDecryptIo io w content = some (r.ret, x.take io.outRoom, r.ctx) := by
  obtain ⟨t, b, f1, _⟩ := wbfinish16 w
  obtain ⟨o, w2, e, eg⟩ := wb_loop_len true { w with g := { w.g with buf := b } } (content.drop 24)
  unfold wbgcmfileDecrypt at hr
  simp only [hd, Option.bind_eq_bind, Option.bind_some, f1] at hr
  rw [show wbFileLoop wbgcmDecrypt _ (fpieces (content.drop 24)) = _ from e] at hr
  simp only [Option.bind_some] at hr
  split at hr
  · exact absurd hr (by simp)
  split at hr
  · exact absurd hr (by simp)
  split at hr
  · exact absurd hr (by simp)
  split at hr
  · exact absurd hr (by simp)
  rename_i n1 n2 n3 n4
  obtain rfl := Option.some.inj hr
  refine ⟨o, applyOps_trunc_put fs out o, by rw [eg, List.length_drop], ?_⟩
  unfold wbgcmfileDecryptIo
  simp only []
  rw [if_neg (by rw [ho]; rintro (h | h | h)
                 · exact n2 h
                 · exact n3 h
                 · exact absurd h (by simp))]
  simp only [f1, Option.bind_eq_bind, Option.bind_some]
  rw [show wbFileLoop wbgcmDecrypt _ (fpieces (content.drop 24)) = _ from e]
  simp only [Option.bind_some]
  rw [if_neg n4, outPutAny_spec _ _ _ (fpieces_ne _) _ [] (outInv_start _), fpieces_flatten, List.nil_append]
  rfl

/-- C118: if a file cannot be created the calls do not return 0 but are undefined. -/
theorem C118_not_created (io : FileIo) (w : WbGcmCtx) (junk : Vector Byte 4) (d content : List Byte) :
    (io.tmpOpened = false ∨ io.outOpened = false → wbgcmfileEncryptIo io w junk d = none) ∧
    (io.outOpened = false → wbgcmfileDecryptIo io w content = none) := by
  refine ⟨fun h => ?_, fun h => ?_⟩
  · unfold wbgcmfileEncryptIo; rcases h with h | h <;> simp [h]
  · unfold wbgcmfileDecryptIo; simp [h]

/-! ### concrete cases -/

/- A file of 100 bytes to a device with room for 50: return value 1, and reading back what arrived returns 0. -/
example (w w' k : WbGcmCtx) (junk : Vector Byte 4) (ret : Nat) (file : List Byte)
    (he : wbgcmfileEncryptIo ⟨true, true, 1000, 50, fun _ => true, fun _ => true, true⟩ w junk (List.replicate 100 7) = some (ret, file, w')) :
    ∃ r, wbgcmfileDecrypt k (fun p => if p = ['b'] then some file else none) ['b'] ['c'] = some r ∧ r.ret = 0 :=
  (C118_full_read _ w w' k junk _ (fun p => if p = ['b'] then some file else none) ['b'] ['c'] ret file he (by simp)
    (Or.inr (by simp)) (by decide) (by simp)).1 (by simp)

/- Such an encryption is defined. -/
example (w : WbGcmCtx) (junk : Vector Byte 4) : ∃ file w',
    wbgcmfileEncryptIo ⟨true, true, 1000, 50, fun _ => true, fun _ => true, true⟩ w junk (List.replicate 100 7) = some (1, file, w') := by
  obtain ⟨r, full, _, _, _, h, _⟩ := C118_full_encrypt ⟨true, true, 1000, 50, fun _ => true, fun _ => true, true⟩ w junk
    (List.replicate 100 7) (fun p => if p = ['a'] then some (List.replicate 100 7) else none) ['a'] ['b'] rfl rfl (by decide)
    (by decide) (by simp)
  exact ⟨_, _, h⟩

/- Jobs that meet the hypotheses of the theorems about several files. -/
example : ∃ js : List EncJob, js.length = 2 ∧ ∀ j ∈ js, j.Ok ∧ j.data.length < 2 ^ 31 :=
  ⟨[⟨Vector.replicate 4 0, fun p => if p = ['a'] then some [1, 2, 3] else none, ['a'], ['b'], [1, 2, 3]⟩,
    ⟨Vector.replicate 4 9, fun p => if p = ['c'] then some [4] else none, ['c'], ['d'], [4]⟩], rfl, by
    intro j hj
    simp only [List.mem_cons, List.not_mem_nil, or_false] at hj
    rcases hj with rfl | rfl
    · exact ⟨⟨by decide, by decide, by simp⟩, by decide⟩
    · exact ⟨⟨by decide, by decide, by simp⟩, by decide⟩⟩

/- A session with a file that is defined and in which the file is reported. -/
example (c : GcmCtx) (junk : Vector Byte 4) (h : c.len = 0) :
    ∃ x l, sessionOf plainFileStep c (fun p => if p = ['a'] then some [1, 2, 3] else none) [.encFile junk ['a'] ['b']] =
      some [((1 : Int), some x, l)] ∧ l ≠ [] := by
  have hc := enc_loop_any [1, 2, 3] c
  obtain ⟨t, c2, f1, _⟩ := finish16 { c with
      len := c.len + BitVec.ofNat 64 3,
      y := ((chunks [1, 2, 3]).foldl (encPiece c) (c.y, c.buf, [])).1,
      buf := ((chunks [1, 2, 3]).foldl (encPiece c) (c.y, c.buf, [])).2.1 }
  obtain ⟨l1, l2⟩ := finish_counters _ _ _ f1
  obtain ⟨a', b1, b2, b3, b4⟩ := gcmfileEncrypt_of _ _ _ junk (fun p => if p = ['a'] then some [1, 2, 3] else none) ['a'] ['b']
    [1, 2, 3] _ _ (by decide) (by decide) (by simp) hc f1
  have hz : ¬(a'.ctx.len * 8 = 0 ∧ a'.ctx.addLen * 8 = 0) := by
    rw [b3, l1, l2]
    rintro ⟨z, -⟩
    have z' : (c.len + BitVec.ofNat 64 3) * 8 = 0 := z
    rw [h] at z'
    exact absurd z' (by decide)
  refine ⟨[], a'.log, ?_, fun hn => ?_⟩
  · simp only [sessionOf, plainFileStep, b1, Option.map_some, if_neg hz, Option.bind_eq_bind, Option.bind_some, b2]
    rfl
  · rw [hn] at b4
    exact absurd b4 (by simp [applyOps])

end Verif.Props
