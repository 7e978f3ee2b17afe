import Verif.Model.FileThreads
import Verif.Props.GcmFile
import Verif.Props.WbGcmExtract
import Verif.Props.WbGcmFile

/-!
C146: several file encryptions at the same time (`/repo/src/modes/gcmfile.c` lines 35-109).
-/
set_option autoImplicit false

namespace Verif.Props
open Verif Spec Model

/-! ### one call on its own -/

/-- `n` steps of one call. -/
def soloRun (j : FileJob) : Nat → FileProc × FS → Option (FileProc × FS)
  | 0, s => some s
  | n + 1, s => (fileStep j s.1 s.2).bind (soloRun j n)

theorem soloRun_add (j : FileJob) (m : Nat) : ∀ (n : Nat) (s : FileProc × FS),
    soloRun j (n + m) s = (soloRun j n s).bind (soloRun j m) := by
  intro n
  induction n with
  | zero => intro s; rw [Nat.zero_add]; rfl
  | succ n ih =>
    intro s
    rw [show n + 1 + m = (n + m) + 1 by omega]
    simp only [soloRun]
    cases fileStep j s.1 s.2 with
    | none => rfl
    | some t => exact ih t

theorem soloRun_trans {j : FileJob} {n m : Nat} {s t u : FileProc × FS} (h1 : soloRun j n s = some t) (h2 : soloRun j m t = some u) :
    soloRun j (n + m) s = some u := by
  rw [soloRun_add, h1]; exact h2

theorem fsSet_same (fs : FS) (p : Path) (x : Option (List Byte)) : fsSet fs p x p = x := by simp [fsSet]
theorem fsSet_other (fs : FS) (p q : Path) (x : Option (List Byte)) (h : q ≠ p) : fsSet fs p x q = fs q := by simp [fsSet, h]
theorem fsSet_fsSet (fs : FS) (p : Path) (x y : Option (List Byte)) : fsSet (fsSet fs p x) p y = fsSet fs p y := by
  funext q; by_cases h : q = p <;> simp [fsSet, h]
theorem fsSet_id (fs : FS) (p : Path) (x : Option (List Byte)) (h : fs p = x) : fsSet fs p x = fs := by
  funext q; by_cases hq : q = p
  · simp [fsSet, hq, h]
  · simp [fsSet, hq]

theorem overwrite_of_le (x : List Byte) (o : Nat) (b : List Byte) (h : o ≤ x.length) :
    overwrite x o b = x.take o ++ b ++ x.drop (o + b.length) := by
  simp [overwrite, Nat.sub_eq_zero_of_le h]

theorem overwrite_nil (x : List Byte) (o : Nat) (h : o ≤ x.length) : overwrite x o [] = x := by
  rw [overwrite_of_le _ _ _ h]; simp

theorem length_overwrite (x : List Byte) (o : Nat) (b : List Byte) (h : o ≤ x.length) :
    o + b.length ≤ (overwrite x o b).length := by
  rw [overwrite_of_le _ _ _ h]; simp; omega

theorem overwrite_overwrite (x : List Byte) (o : Nat) (a b : List Byte) (h : o ≤ x.length) :
    overwrite (overwrite x o a) (o + a.length) b = overwrite x o (a ++ b) := by
  rw [overwrite_of_le _ _ _ (length_overwrite x o a h), overwrite_of_le x o a h, overwrite_of_le x o _ h]
  have e : (x.take o ++ a).length = o + a.length := by simp; omega
  rw [List.take_append_of_le_length (by omega), List.take_of_length_le (by omega), List.drop_append,
    List.drop_of_length_le (l := x.take o ++ a) (by omega), e, List.drop_drop]
  simp only [List.nil_append, List.append_assoc, List.length_append]
  congr 4
  omega

/-- The pieces of the input, encrypted one after the other. -/
def ctxLoop (c : FileCtx) : List (List Byte) → Option (List Byte × FileCtx)
  | [] => some ([], c)
  | p :: ps => (fileEnc c p).bind fun r => (ctxLoop r.2 ps).map fun q => (r.1 ++ q.1, q.2)

theorem ctxLoop_plain (ps : List (List Byte)) : ∀ c : GcmCtx,
    ctxLoop (.plain c) ps = (fileLoop gcmEncrypt c ps).map fun r => (r.1, .plain r.2) := by
  induction ps with
  | nil => intro c; rfl
  | cons p ps ih =>
    intro c
    simp only [ctxLoop, fileEnc, fileLoop, Option.bind_eq_bind]
    cases gcmEncrypt c p (List.replicate 128 0) p.length with
    | none => rfl
    | some r =>
      simp only [Option.map_some, Option.bind_some, ih]
      cases fileLoop gcmEncrypt r.ctx ps <;> rfl

theorem ctxLoop_wb (ps : List (List Byte)) : ∀ c : WbGcmCtx,
    ctxLoop (.wb c) ps = (wbFileLoop wbgcmEncrypt c ps).map fun r => (r.1, .wb r.2) := by
  induction ps with
  | nil => intro c; rfl
  | cons p ps ih =>
    intro c
    simp only [ctxLoop, fileEnc, wbFileLoop, Option.bind_eq_bind]
    cases wbgcmEncrypt c p (List.replicate 128 0) p.length with
    | none => rfl
    | some r =>
      simp only [Option.map_some, Option.bind_some, ih]
      cases wbFileLoop wbgcmEncrypt r.ctx ps <;> rfl

/-- The first loop (lines 68-77). -/
theorem loop_in (j : FileJob) (d : List Byte) (hne : j.inp ≠ tmpPath j.out) (rest : List Byte) :
    ∀ (p : FileProc) (fs : FS) (x o : List Byte) (c' : FileCtx), p.pc = .readIn → fs j.inp = some d → d.drop p.rd = rest →
      fs (tmpPath j.out) = some x → p.wt ≤ x.length → ctxLoop p.ctx (fpieces rest) = some (o, c') →
      ∃ p', soloRun j (2 * (fpieces rest).length + 1) (p, fs) = some (p', fsSet fs (tmpPath j.out) (some (overwrite x p.wt o))) ∧
        p'.pc = .finish ∧ p'.ctx = c' ∧ p'.size = p.size ∧ p'.wo = p.wo := by
  induction rest using fpieces_induction with
  | nil =>
    intro p fs x o c' hpc hd hr hx hw hf
    simp only [fpieces, fpiecesAux, List.length_nil, ctxLoop, Option.some.injEq, Prod.mk.injEq] at hf
    obtain ⟨rfl, rfl⟩ := hf
    refine ⟨{ p with pc := .finish }, ?_, rfl, rfl, rfl, rfl⟩
    rw [overwrite_nil _ _ hw, fsSet_id _ _ _ hx]
    simp only [soloRun, fileStep, hpc, hd, hr, fpieces, fpiecesAux, List.length_nil, List.take_nil, Option.bind_eq_bind, Option.bind_some,
      if_true, Option.pure_def]
  | step rest hne0 ih =>
    intro p fs x o c' hpc hd hr hx hw hf
    rw [fpieces_of_ne_nil hne0] at hf ⊢
    rw [ctxLoop] at hf
    cases hg : fileEnc p.ctx (rest.take 128) with
    | none => rw [hg] at hf; simp at hf
    | some r =>
      obtain ⟨ob, cb⟩ := r
      rw [hg] at hf
      simp only [Option.bind_some] at hf
      cases hg2 : ctxLoop cb (fpieces (rest.drop 128)) with
      | none => rw [hg2] at hf; simp at hf
      | some q =>
        obtain ⟨o2, c2⟩ := q
        rw [hg2] at hf
        simp only [Option.map_some, Option.some.injEq, Prod.mk.injEq] at hf
        obtain ⟨rfl, rfl⟩ := hf
        have hb : rest.take 128 ≠ [] := by
          intro h; apply hne0; simpa using h
        have s2 : soloRun j 2 (p, fs) = some ({ p with pc := .readIn, ctx := cb, buf := rest.take 128, rd := p.rd + (rest.take 128).length, wt := p.wt + ob.length },
            fsSet fs (tmpPath j.out) (some (overwrite x p.wt ob))) := by
          have e1 : fileStep j p fs = some ({ p with pc := .writeTmp, buf := rest.take 128, rd := p.rd + (rest.take 128).length }, fs) := by
            simp only [fileStep, hpc, hd, hr, Option.bind_eq_bind, Option.bind_some, if_neg hb]; rfl
          simp only [soloRun, e1]
          simp only [Option.bind_some, fileStep, hg, hx, Option.bind_eq_bind]
          rfl
        have hrd : d.drop (p.rd + (rest.take 128).length) = rest.drop 128 := by
          rw [← List.drop_drop, hr]
          by_cases h : 128 ≤ rest.length
          · rw [List.length_take, Nat.min_eq_left h]
          · rw [List.drop_of_length_le (by simp; omega), List.drop_of_length_le (by omega)]
        obtain ⟨p', a1, a2, a3, a4, a5⟩ := ih
          { p with pc := .readIn, ctx := cb, buf := rest.take 128, rd := p.rd + (rest.take 128).length, wt := p.wt + ob.length }
          (fsSet fs (tmpPath j.out) (some (overwrite x p.wt ob))) _ o2 c2 rfl (by rw [fsSet_other _ _ _ _ hne]; exact hd) hrd
          (fsSet_same _ _ _) (length_overwrite x p.wt _ hw) hg2
        refine ⟨p', ?_, a2, a3, a4, a5⟩
        rw [show 2 * (rest.take 128 :: fpieces (rest.drop 128)).length + 1 = 2 + (2 * (fpieces (rest.drop 128)).length + 1) by
          simp; omega]
        rw [soloRun_trans s2 a1, fsSet_fsSet, overwrite_overwrite _ _ _ _ hw]

/-- The second loop (lines 94-100). -/
theorem loop_out (j : FileJob) (d : List Byte) (rest : List Byte) :
    ∀ (p : FileProc) (fs : FS) (x : List Byte), p.pc = .readTmp → fs (tmpPath j.out) = some d → d.drop p.rd = rest →
      fs j.out = some x → p.wo ≤ x.length →
      ∃ p', soloRun j (2 * (fpieces rest).length + 1) (p, fs) = some (p', fsSet fs j.out (some (overwrite x p.wo rest))) ∧
        p'.pc = .unlink ∧ p'.ctx = p.ctx ∧ p'.tag = p.tag := by
  induction rest using fpieces_induction with
  | nil =>
    intro p fs x hpc hd hr hx hw
    refine ⟨{ p with pc := .unlink }, ?_, rfl, rfl, rfl⟩
    rw [overwrite_nil _ _ hw, fsSet_id _ _ _ hx]
    simp only [soloRun, fileStep, hpc, hd, hr, fpieces, fpiecesAux, List.length_nil, List.take_nil, Option.bind_eq_bind, Option.bind_some,
      if_true, Option.pure_def]
  | step rest hne0 ih =>
    intro p fs x hpc hd hr hx hw
    rw [fpieces_of_ne_nil hne0]
    have hb : rest.take 128 ≠ [] := by
      intro h; apply hne0; simpa using h
    have s2 : soloRun j 2 (p, fs) = some ({ p with pc := .readTmp, buf := rest.take 128, rd := p.rd + (rest.take 128).length, wo := p.wo + (rest.take 128).length },
        fsSet fs j.out (some (overwrite x p.wo (rest.take 128)))) := by
      have e1 : fileStep j p fs = some ({ p with pc := .writeOut, buf := rest.take 128, rd := p.rd + (rest.take 128).length }, fs) := by
        simp only [fileStep, hpc, hd, hr, Option.bind_eq_bind, Option.bind_some, if_neg hb]; rfl
      simp only [soloRun, e1]
      simp only [Option.bind_some, fileStep, hx, Option.bind_eq_bind]
      rfl
    have hrd : d.drop (p.rd + (rest.take 128).length) = rest.drop 128 := by
      rw [← List.drop_drop, hr]
      by_cases h : 128 ≤ rest.length
      · rw [List.length_take, Nat.min_eq_left h]
      · rw [List.drop_of_length_le (by simp; omega), List.drop_of_length_le (by omega)]
    obtain ⟨p', a1, a2, a3, a4⟩ := ih
      { p with pc := .readTmp, buf := rest.take 128, rd := p.rd + (rest.take 128).length, wo := p.wo + (rest.take 128).length }
      (fsSet fs j.out (some (overwrite x p.wo (rest.take 128)))) _ rfl (by rw [fsSet_other _ _ _ _ (tmpPath_ne _)]; exact hd) hrd
      (fsSet_same _ _ _) (length_overwrite x p.wo _ hw)
    refine ⟨p', ?_, a2, a3, a4⟩
    rw [show 2 * (rest.take 128 :: fpieces (rest.drop 128)).length + 1 = 2 + (2 * (fpieces (rest.drop 128)).length + 1) by
      simp; omega]
    rw [soloRun_trans s2 a1, fsSet_fsSet, overwrite_overwrite _ _ _ _ hw, List.take_append_drop]

/-- Lines 46-80: files opened, the ciphertext in the temporary file, the tag computed. -/
theorem first_half (j : FileJob) (fs : FS) (d o tag : List Byte) (c1 c2 : FileCtx) (h1 : j.inp ≠ j.out) (h2 : j.inp ≠ tmpPath j.out)
    (hd : fs j.inp = some d) (hf : ctxLoop j.ctx (fpieces d) = some (o, c1)) (ht : fileFin c1 = some (tag, c2)) :
    ∃ p, soloRun j (2 * (fpieces d).length + 6) (fileProc0 j, fs) =
        some (p, fsSet (fsSet fs (tmpPath j.out) (some o)) j.out (some [])) ∧
      p.pc = .writeTag ∧ p.ctx = c2 ∧ p.tag = tag ∧ p.size = sizeBuf d.length j.junk ∧ p.wo = 0 ∧ p.rd = 0 := by
  let fs1 := fsSet (fsSet fs (tmpPath j.out) (some [])) j.out (some [])
  have hd1 : fs1 j.inp = some d := by
    show fsSet _ _ _ _ = _
    rw [fsSet_other _ _ _ _ h1, fsSet_other _ _ _ _ h2, hd]
  have s1 : soloRun j 4 (fileProc0 j, fs) =
      some ({ fileProc0 j with pc := .readIn, size := sizeBuf d.length j.junk }, fs1) := by
    simp only [soloRun, fileStep, fileProc0, hd, Option.bind_eq_bind, Option.bind_some, Option.pure_def]
    rw [show fsSet (fsSet fs (tmpPath j.out) (some [])) j.out (some []) = fs1 from rfl, hd1]
    rfl
  obtain ⟨p, a1, a2, a3, a4, a5⟩ := loop_in j d h2 d { fileProc0 j with pc := .readIn, size := sizeBuf d.length j.junk } fs1 [] o c1
    rfl hd1 rfl (by show fsSet _ _ _ _ = _; rw [fsSet_other _ _ _ _ (tmpPath_ne _), fsSet_same]) (Nat.le_refl _) hf
  refine ⟨{ p with pc := .writeTag, ctx := c2, tag := tag, rd := 0 }, ?_, rfl, rfl, rfl, a4, a5, rfl⟩
  rw [show 2 * (fpieces d).length + 6 = 4 + (2 * (fpieces d).length + 1) + 1 by omega]
  refine soloRun_trans (soloRun_trans s1 a1) ?_
  have e : fsSet fs1 (tmpPath j.out) (some (overwrite [] (0 : Nat) o)) = fsSet (fsSet fs (tmpPath j.out) (some o)) j.out (some []) := by
    funext q
    simp only [fs1, fsSet, overwrite]
    by_cases hq : q = tmpPath j.out
    · subst hq; simp [tmpPath_ne]
    · simp [hq]
  rw [show ({ fileProc0 j with pc := FilePc.readIn, size := sizeBuf d.length j.junk } : FileProc).wt = 0 from rfl, e]
  simp only [soloRun, fileStep, a2, a3, ht, Option.bind_eq_bind, Option.bind_some]
  rfl

/-- Lines 89-91: tag and size. -/
theorem head_part (j : FileJob) (p : FileProc) (fs : FS) (x : List Byte) (hpc : p.pc = .writeTag) (hw : p.wo = 0)
    (hx : fs j.out = some x) :
    soloRun j 2 (p, fs) = some ({ p with pc := .readTmp, wo := (p.tag ++ p.size).length },
      fsSet fs j.out (some (overwrite x 0 (p.tag ++ p.size)))) := by
  have e1 : fileStep j p fs = some ({ p with pc := .writeSize, wo := p.tag.length }, fsSet fs j.out (some (overwrite x 0 p.tag))) := by
    simp only [fileStep, hpc, hw, hx, Option.bind_eq_bind, Option.bind_some, Nat.zero_add]; rfl
  have hov := overwrite_overwrite x 0 p.tag p.size (Nat.zero_le _)
  rw [Nat.zero_add] at hov
  simp only [soloRun, e1]
  simp only [Option.bind_some, fileStep, fsSet_same, Option.bind_eq_bind, fsSet_fsSet, Option.pure_def, hov,
    List.length_append]

theorem fpieces_count (a b : List Byte) (h : a.length = b.length) : (fpieces a).length = (fpieces b).length := by
  induction a using fpieces_induction generalizing b with
  | nil =>
    have : b = [] := List.length_eq_zero_iff.mp h.symm
    rw [this]
  | step a ha ih =>
    have hb : b ≠ [] := by
      intro e; subst e; exact ha (List.length_eq_zero_iff.mp h)
    rw [fpieces_of_ne_nil ha, fpieces_of_ne_nil hb, List.length_cons, List.length_cons, ih (b.drop 128) (by simp [h])]

/-- The file operations of the call if it runs alone. -/
def callLog (j : FileJob) (fs : FS) : Option (List FsOp) :=
  match j.ctx with
  | .plain c => (gcmfileEncrypt c j.junk fs j.inp j.out).map (·.log)
  | .wb c => (wbgcmfileEncrypt c j.junk fs j.inp j.out).map (·.log)

/-- The file operations for a ciphertext, a tag and a size. -/
def callOps (out : Path) (o head : List Byte) : List FsOp :=
  [FsOp.trunc (tmpPath out), FsOp.trunc out] ++ o.map (FsOp.put (tmpPath out)) ++ (head ++ o).map (FsOp.put out) ++ [FsOp.remove (tmpPath out)]

theorem call_parts (j : FileJob) (fs : FS) (log : List FsOp) (h1 : j.inp ≠ j.out) (h2 : j.inp ≠ tmpPath j.out)
    (h : callLog j fs = some log) : ∃ d o c1 tag c2, fs j.inp = some d ∧ ctxLoop j.ctx (fpieces d) = some (o, c1) ∧
      fileFin c1 = some (tag, c2) ∧ log = callOps j.out o (tag ++ sizeBuf d.length j.junk) := by
  have hr : applyOps fs [FsOp.trunc (tmpPath j.out), FsOp.trunc j.out] j.inp = fs j.inp := by
    rw [applyOps_other]
    intro o ho
    simp at ho
    rcases ho with rfl | rfl
    · exact Ne.symm h2
    · exact Ne.symm h1
  unfold callLog at h
  split at h
  · next c hc =>
    obtain ⟨r, h0, rfl⟩ := Option.map_eq_some_iff.mp h
    clear h
    obtain ⟨d, e1, h⟩ := Option.bind_eq_some_iff.mp h0
    clear h0
    obtain ⟨d', e2, h⟩ := Option.bind_eq_some_iff.mp h
    rw [hr, e1] at e2
    obtain rfl := Option.some.inj e2
    obtain ⟨⟨o, c1⟩, e3, h⟩ := Option.bind_eq_some_iff.mp h
    obtain ⟨⟨tag, c2⟩, e4, h⟩ := Option.bind_eq_some_iff.mp h
    have h' := congrArg FileResult.log (Option.some.inj h)
    refine ⟨d, o, .plain c1, tag, .plain c2, e1, ?_, ?_, ?_⟩
    · rw [hc, ctxLoop_plain, e3]; rfl
    · rw [fileFin, e4]; rfl
    · rw [← h', fpieces_flatten]; rfl
  · next c hc =>
    obtain ⟨r, h0, rfl⟩ := Option.map_eq_some_iff.mp h
    clear h
    obtain ⟨d, e1, h⟩ := Option.bind_eq_some_iff.mp h0
    clear h0
    obtain ⟨d', e2, h⟩ := Option.bind_eq_some_iff.mp h
    rw [hr, e1] at e2
    obtain rfl := Option.some.inj e2
    obtain ⟨⟨o, c1⟩, e3, h⟩ := Option.bind_eq_some_iff.mp h
    obtain ⟨⟨tag, c2⟩, e4, h⟩ := Option.bind_eq_some_iff.mp h
    have h' := congrArg WbFileResult.log (Option.some.inj h)
    refine ⟨d, o, .wb c1, tag, .wb c2, e1, ?_, ?_, ?_⟩
    · rw [hc, ctxLoop_wb, e3]; rfl
    · rw [fileFin, e4]; rfl
    · rw [← h', fpieces_flatten]; rfl

theorem callOps_result (fs : FS) (out : Path) (o head : List Byte) :
    applyOps fs (callOps out o head) out = some (head ++ o) ∧ applyOps fs (callOps out o head) (tmpPath out) = none ∧
      ∀ q, q ≠ out → q ≠ tmpPath out → applyOps fs (callOps out o head) q = fs q := by
  obtain ⟨a, b⟩ := log_result fs (tmpPath out) out o (head ++ o) (tmpPath_ne _)
  refine ⟨a, b, fun q hq hq' => ?_⟩
  apply applyOps_other
  intro x hx
  simp only [callOps, List.mem_append, List.mem_cons, List.not_mem_nil, or_false, List.mem_map] at hx
  rcases hx with ((((rfl | rfl) | ⟨_, _, rfl⟩) | ⟨_, _, rfl⟩) | rfl) <;> first | exact Ne.symm hq | exact Ne.symm hq'

/-- A call on its own has the effect of its log. -/
theorem whole_call (j : FileJob) (fs : FS) (log : List FsOp) (h1 : j.inp ≠ j.out) (h2 : j.inp ≠ tmpPath j.out)
    (hc : callLog j fs = some log) :
    ∃ d o c1 head p, fs j.inp = some d ∧ ctxLoop j.ctx (fpieces d) = some (o, c1) ∧ log = callOps j.out o head ∧
      soloRun j (2 * (fpieces d).length + 2 * (fpieces o).length + 10) (fileProc0 j, fs) = some (p, applyOps fs log) ∧ p.pc = .done := by
  obtain ⟨d, o, c1, tag, c2, hd, f1, f2, rfl⟩ := call_parts j fs log h1 h2 hc
  obtain ⟨p, b1, b2, b3, b4, b5, b6, b7⟩ := first_half j fs d o tag c1 c2 h1 h2 hd f1 f2
  have b8 := head_part j p (fsSet (fsSet fs (tmpPath j.out) (some o)) j.out (some [])) [] b2 b6 (fsSet_same _ _ _)
  rw [fsSet_fsSet, b4, b5] at b8
  obtain ⟨q, g1, g2, g3, g4⟩ := loop_out j o o
    { p with pc := .readTmp, size := sizeBuf d.length j.junk, tag := tag, wo := (tag ++ sizeBuf d.length j.junk).length }
    (fsSet (fsSet fs (tmpPath j.out) (some o)) j.out (some (overwrite [] 0 (tag ++ sizeBuf d.length j.junk)))) _ rfl
    (by rw [fsSet_other _ _ _ _ (tmpPath_ne _), fsSet_same]) (by show o.drop p.rd = o; rw [b7]; rfl) (fsSet_same _ _ _)
    (Nat.le_trans (by simp) (length_overwrite [] 0 (tag ++ sizeBuf d.length j.junk) (Nat.zero_le _)))
  refine ⟨d, o, c1, _, { q with pc := .done }, hd, f1, rfl, ?_, rfl⟩
  rw [show 2 * (fpieces d).length + 2 * (fpieces o).length + 10 =
    2 * (fpieces d).length + 6 + 2 + (2 * (fpieces o).length + 1) + 1 by omega]
  refine soloRun_trans (soloRun_trans (soloRun_trans b1 b8) g1) ?_
  simp only [soloRun, fileStep, g2, Option.bind_some]
  congr 2
  have hov := overwrite_overwrite [] 0 (tag ++ sizeBuf d.length j.junk) o (Nat.zero_le _)
  rw [Nat.zero_add] at hov
  show fsSet (fsSet _ _ (some (overwrite _ (tag ++ sizeBuf d.length j.junk).length o))) _ _ = _
  rw [hov, fsSet_fsSet]
  obtain ⟨r1, r2, r3⟩ := callOps_result fs j.out o (tag ++ sizeBuf d.length j.junk)
  funext q
  by_cases hq : q = tmpPath j.out
  · rw [hq, fsSet_same, r2]
  · rw [fsSet_other _ _ _ _ hq]
    by_cases hq2 : q = j.out
    · rw [hq2, fsSet_same, r1]
      simp [overwrite]
    · rw [fsSet_other _ _ _ _ hq2, fsSet_other _ _ _ _ hq, r3 q hq2 hq]

/-! ### several calls -/

/-- The effect of one step on the files of its call: none, a new content of the output, of the temporary file. -/
inductive FileWrite where
  | keep | toOut (y : Option (List Byte)) | toTmp (y : Option (List Byte))

def FileWrite.act (j : FileJob) : FileWrite → FS → FS
  | .keep, fs => fs
  | .toOut y, fs => fsSet fs j.out y
  | .toTmp y, fs => fsSet fs (tmpPath j.out) y

/-- The three files of a call have the same content. -/
def SeesSame (j : FileJob) (fs gs : FS) : Prop := fs j.inp = gs j.inp ∧ fs j.out = gs j.out ∧ fs (tmpPath j.out) = gs (tmpPath j.out)

theorem seesSame_act (j : FileJob) (w : FileWrite) (fs gs : FS) (h : SeesSame j fs gs) : SeesSame j (w.act j fs) (w.act j gs) := by
  obtain ⟨h1, h2, h3⟩ := h
  cases w <;> simp only [SeesSame, FileWrite.act, fsSet] <;> refine ⟨?_, ?_, ?_⟩ <;> (try split) <;> first | rfl | assumption

/-- A step looks at the three files of its call only, and changes only two of them. -/
theorem step_form (j : FileJob) (p p' : FileProc) (fs fs' : FS) (h : fileStep j p fs = some (p', fs')) :
    ∃ w : FileWrite, fs' = w.act j fs ∧ ∀ gs, SeesSame j fs gs → fileStep j p gs = some (p', w.act j gs) := by
  cases hpc : p.pc <;> simp only [fileStep, hpc, Option.bind_eq_bind, Option.pure_def] at h
  case openTmp =>
    simp only [Option.some.injEq, Prod.mk.injEq] at h; obtain ⟨rfl, rfl⟩ := h
    exact ⟨.toTmp _, rfl, fun gs _ => by simp only [fileStep, hpc]; rfl⟩
  case openOut =>
    simp only [Option.some.injEq, Prod.mk.injEq] at h; obtain ⟨rfl, rfl⟩ := h
    exact ⟨.toOut _, rfl, fun gs _ => by simp only [fileStep, hpc]; rfl⟩
  case unlink =>
    simp only [Option.some.injEq, Prod.mk.injEq] at h; obtain ⟨rfl, rfl⟩ := h
    exact ⟨.toTmp _, rfl, fun gs _ => by simp only [fileStep, hpc]; rfl⟩
  case done =>
    simp only [Option.some.injEq, Prod.mk.injEq] at h; obtain ⟨rfl, rfl⟩ := h
    exact ⟨.keep, rfl, fun gs _ => by simp only [fileStep, hpc]; rfl⟩
  case openIn =>
    obtain ⟨x, e, h⟩ := Option.bind_eq_some_iff.mp h
    simp only [Option.some.injEq, Prod.mk.injEq] at h; obtain ⟨rfl, rfl⟩ := h
    exact ⟨.keep, rfl, fun gs hg => by simp only [fileStep, hpc, ← hg.1, e]; rfl⟩
  case measure =>
    obtain ⟨x, e, h⟩ := Option.bind_eq_some_iff.mp h
    simp only [Option.some.injEq, Prod.mk.injEq] at h; obtain ⟨rfl, rfl⟩ := h
    exact ⟨.keep, rfl, fun gs hg => by simp only [fileStep, hpc, ← hg.1, e]; rfl⟩
  case readIn =>
    obtain ⟨x, e, h⟩ := Option.bind_eq_some_iff.mp h
    split at h
    · next hb =>
      simp only [Option.some.injEq, Prod.mk.injEq] at h; obtain ⟨rfl, rfl⟩ := h
      exact ⟨.keep, rfl, fun gs hg => by simp only [fileStep, hpc, ← hg.1, e, Option.bind_eq_bind, Option.bind_some, if_pos hb]; rfl⟩
    · next hb =>
      simp only [Option.some.injEq, Prod.mk.injEq] at h; obtain ⟨rfl, rfl⟩ := h
      exact ⟨.keep, rfl, fun gs hg => by simp only [fileStep, hpc, ← hg.1, e, Option.bind_eq_bind, Option.bind_some, if_neg hb]; rfl⟩
  case writeTmp =>
    obtain ⟨r, er, h⟩ := Option.bind_eq_some_iff.mp h
    obtain ⟨x, e, h⟩ := Option.bind_eq_some_iff.mp h
    simp only [Option.some.injEq, Prod.mk.injEq] at h; obtain ⟨rfl, rfl⟩ := h
    exact ⟨.toTmp _, rfl, fun gs hg => by simp only [fileStep, hpc, er, ← hg.2.2, e, Option.bind_eq_bind, Option.bind_some]; rfl⟩
  case finish =>
    obtain ⟨r, er, h⟩ := Option.bind_eq_some_iff.mp h
    simp only [Option.some.injEq, Prod.mk.injEq] at h; obtain ⟨rfl, rfl⟩ := h
    exact ⟨.keep, rfl, fun gs hg => by simp only [fileStep, hpc, er, Option.bind_eq_bind, Option.bind_some]; rfl⟩
  case writeTag =>
    obtain ⟨x, e, h⟩ := Option.bind_eq_some_iff.mp h
    simp only [Option.some.injEq, Prod.mk.injEq] at h; obtain ⟨rfl, rfl⟩ := h
    exact ⟨.toOut _, rfl, fun gs hg => by simp only [fileStep, hpc, ← hg.2.1, e, Option.bind_eq_bind, Option.bind_some]; rfl⟩
  case writeSize =>
    obtain ⟨x, e, h⟩ := Option.bind_eq_some_iff.mp h
    simp only [Option.some.injEq, Prod.mk.injEq] at h; obtain ⟨rfl, rfl⟩ := h
    exact ⟨.toOut _, rfl, fun gs hg => by simp only [fileStep, hpc, ← hg.2.1, e, Option.bind_eq_bind, Option.bind_some]; rfl⟩
  case readTmp =>
    obtain ⟨x, e, h⟩ := Option.bind_eq_some_iff.mp h
    split at h
    · next hb =>
      simp only [Option.some.injEq, Prod.mk.injEq] at h; obtain ⟨rfl, rfl⟩ := h
      exact ⟨.keep, rfl, fun gs hg => by simp only [fileStep, hpc, ← hg.2.2, e, Option.bind_eq_bind, Option.bind_some, if_pos hb]; rfl⟩
    · next hb =>
      simp only [Option.some.injEq, Prod.mk.injEq] at h; obtain ⟨rfl, rfl⟩ := h
      exact ⟨.keep, rfl, fun gs hg => by simp only [fileStep, hpc, ← hg.2.2, e, Option.bind_eq_bind, Option.bind_some, if_neg hb]; rfl⟩
  case writeOut =>
    obtain ⟨x, e, h⟩ := Option.bind_eq_some_iff.mp h
    simp only [Option.some.injEq, Prod.mk.injEq] at h; obtain ⟨rfl, rfl⟩ := h
    exact ⟨.toOut _, rfl, fun gs hg => by simp only [fileStep, hpc, ← hg.2.1, e, Option.bind_eq_bind, Option.bind_some]; rfl⟩

theorem solo_same (j : FileJob) : ∀ (n : Nat) (p p' : FileProc) (fs gs fs' : FS), SeesSame j fs gs →
    soloRun j n (p, fs) = some (p', fs') → ∃ gs', soloRun j n (p, gs) = some (p', gs') ∧ SeesSame j fs' gs' := by
  intro n
  induction n with
  | zero =>
    intro p p' fs gs fs' hs h
    simp only [soloRun, Option.some.injEq, Prod.mk.injEq] at h
    obtain ⟨rfl, rfl⟩ := h
    exact ⟨gs, rfl, hs⟩
  | succ n ih =>
    intro p p' fs gs fs' hs h
    obtain ⟨⟨q, fs1⟩, e, h⟩ := Option.bind_eq_some_iff.mp h
    obtain ⟨w, rfl, hw⟩ := step_form j p q fs fs1 e
    obtain ⟨gs', a, b⟩ := ih q p' _ (w.act j gs) fs' (seesSame_act j w fs gs hs) h
    exact ⟨gs', by simp only [soloRun, hw gs hs, Option.bind_some]; exact a, b⟩

/-- The calls write to different files, and none writes to a file another one reads. -/
def FilesApart {ι : Type} (jobs : ι → FileJob) : Prop :=
  ∀ i k, i ≠ k → (jobs i).inp ≠ (jobs k).out ∧ (jobs i).inp ≠ tmpPath (jobs k).out ∧
    (jobs i).out ≠ (jobs k).out ∧ (jobs i).out ≠ tmpPath (jobs k).out ∧ tmpPath (jobs i).out ≠ (jobs k).out

theorem tmpPath_inj {a b : Path} (h : tmpPath a = tmpPath b) : a = b := List.append_cancel_right h

theorem act_apart {ι : Type} (jobs : ι → FileJob) (ha : FilesApart jobs) (i k : ι) (h : i ≠ k) (w : FileWrite) (fs : FS) :
    SeesSame (jobs i) fs (w.act (jobs k) fs) := by
  obtain ⟨a1, a2, a3, a4, a5⟩ := ha i k h
  have a6 : tmpPath (jobs i).out ≠ tmpPath (jobs k).out := fun e => a3 (tmpPath_inj e)
  cases w <;> simp [SeesSame, FileWrite.act, fsSet, a1, a2, a3, a4, a5, a6]

theorem seesSame_symm {j : FileJob} {fs gs : FS} (h : SeesSame j fs gs) : SeesSame j gs fs := ⟨h.1.symm, h.2.1.symm, h.2.2.symm⟩
theorem seesSame_trans {j : FileJob} {fs gs hs : FS} (h : SeesSame j fs gs) (h' : SeesSame j gs hs) : SeesSame j fs hs :=
  ⟨h.1.trans h'.1, h.2.1.trans h'.2.1, h.2.2.trans h'.2.2⟩

theorem run_apart {ι : Type} [DecidableEq ι] (jobs : ι → FileJob) (ha : FilesApart jobs) (σ : List ι) :
    ∀ (ps : ι → FileProc) (fs : FS), (∀ i n, ∃ s, soloRun (jobs i) n (ps i, fs) = some s) →
      ∃ ps' fs', fileRun jobs σ ps fs = some (ps', fs') ∧
        (∀ i, ∃ gs, soloRun (jobs i) (σ.count i) (ps i, fs) = some (ps' i, gs) ∧ SeesSame (jobs i) gs fs') ∧
        ∀ q, (∀ i, q ≠ (jobs i).out ∧ q ≠ tmpPath (jobs i).out) → fs' q = fs q := by
  induction σ with
  | nil => intro ps fs _; exact ⟨ps, fs, rfl, fun i => ⟨fs, rfl, rfl, rfl, rfl⟩, fun _ _ => rfl⟩
  | cons k σ ih =>
    intro ps fs hs
    obtain ⟨⟨p1, fs1⟩, e0⟩ := hs k 1
    obtain ⟨⟨p1', fs1'⟩, e, e'⟩ := Option.bind_eq_some_iff.mp e0
    clear e0
    simp only [soloRun, Option.some.injEq, Prod.mk.injEq] at e'
    obtain ⟨rfl, rfl⟩ := e'
    obtain ⟨w, hw, _⟩ := step_form _ _ _ _ _ e
    have same : ∀ i, i ≠ k → SeesSame (jobs i) fs fs1' := fun i hi => hw ▸ act_apart jobs ha i k hi w fs
    have hs1 : ∀ i n, ∃ s, soloRun (jobs i) n ((fun i => if i = k then p1' else ps i) i, fs1') = some s := by
      intro i n
      by_cases hi : i = k
      · subst hi
        obtain ⟨s, h⟩ := hs i (n + 1)
        simp only [soloRun] at h
        rw [show fileStep (jobs i) (ps i) fs = some (p1', fs1') from e] at h
        exact ⟨s, by simpa using h⟩
      · obtain ⟨⟨q, g⟩, h⟩ := hs i n
        obtain ⟨g', h', _⟩ := solo_same _ n _ _ _ _ _ (same i hi) h
        exact ⟨_, by simpa [hi] using h'⟩
    obtain ⟨ps', fs', r1, r2, r3⟩ := ih _ _ hs1
    refine ⟨ps', fs', ?_, ?_, ?_⟩
    · simp only [fileRun, show fileStep (jobs k) (ps k) fs = some (p1', fs1') from e, Option.bind_eq_bind, Option.bind_some]
      exact r1
    · intro i
      obtain ⟨gs, b1, b2⟩ := r2 i
      by_cases hi : i = k
      · subst hi
        refine ⟨gs, ?_, b2⟩
        rw [List.count_cons_self]
        simp only [soloRun, show fileStep (jobs i) (ps i) fs = some (p1', fs1') from e, Option.bind_some]
        simpa using b1
      · rw [if_neg hi] at b1
        obtain ⟨g', c1, c2⟩ := solo_same _ _ _ _ _ _ _ (seesSame_symm (same i hi)) b1
        refine ⟨g', ?_, seesSame_trans (seesSame_symm c2) b2⟩
        rw [List.count_cons_of_ne (Ne.symm hi)]
        exact c1
    · intro q hq
      rw [r3 q hq, hw]
      cases w <;> simp [FileWrite.act, fsSet, (hq k).1, (hq k).2]

theorem solo_done (j : FileJob) (p : FileProc) (fs : FS) (h : p.pc = .done) : ∀ n, soloRun j n (p, fs) = some (p, fs) := by
  intro n
  induction n with
  | zero => rfl
  | succ n ih => simp only [soloRun, fileStep, h, Option.bind_some]; exact ih

theorem solo_total (j : FileJob) (s t : FileProc × FS) (m : Nat) (h : soloRun j m s = some t) (hd : t.1.pc = .done) (n : Nat) :
    ∃ u, soloRun j n s = some u := by
  by_cases hn : n ≤ m
  · rw [show m = n + (m - n) by omega, soloRun_add] at h
    obtain ⟨u, e, _⟩ := Option.bind_eq_some_iff.mp h
    exact ⟨u, e⟩
  · refine ⟨t, ?_⟩
    rw [show n = m + (n - m) by omega, soloRun_add, h]
    exact solo_done j t.1 t.2 hd _

theorem fpieces_count_le (d : List Byte) : (fpieces d).length ≤ d.length / 128 + 1 := by
  induction d using fpieces_induction with
  | nil => simp [fpieces, fpiecesAux]
  | step d hd ih =>
    rw [fpieces_of_ne_nil hd, List.length_cons]
    rw [List.length_drop] at ih
    by_cases h : 128 ≤ d.length
    · omega
    · have e : d.drop 128 = [] := List.drop_of_length_le (by omega)
      rw [e]; simp [fpieces, fpiecesAux]

/-! ### the statements -/

/-- The content of an encrypted file: the NIST tag, the length (four bytes, and four bytes of the stack), the ciphertext. -/
def sealedFile (E : Block → Block) (iv aad : List Byte) (junk : Vector Byte 4) (d : List Byte) : List Byte :=
  (gcmTag E iv aad (gcmCipher E iv d)).toList ++
    ((List.range 4).map (fun i => BitVec.ofNat 8 (d.length / 256 ^ i)) ++ junk.toList) ++ gcmCipher E iv d

/-- A call whose context has been given key, IV and additional data. -/
def sealJob (E : Block → Block) (iv aad : List Byte) (junk : Vector Byte 4) (inp out : Path) : FileJob :=
  { inp := inp, out := out, ctx := .plain (gcmAad (gcmSetiv (gcmInit E) iv) aad), junk := junk }

/-- One call of GCM over a block cipher, alone. -/
theorem seal_call (E : Block → Block) (iv aad : List Byte) (junk : Vector Byte 4) (inp out : Path) (d : List Byte) (fs : FS)
    (hiv : iv.length < 2 ^ 29) (ha : aad.length < 2 ^ 61) (hl : d.length < 2 ^ 31) (h1 : inp ≠ out) (h2 : inp ≠ tmpPath out)
    (hd : fs inp = some d) : ∃ p gs, soloRun (sealJob E iv aad junk inp out) (4 * (fpieces d).length + 10)
        (fileProc0 (sealJob E iv aad junk inp out), fs) = some (p, gs) ∧ p.pc = .done ∧
      gs out = some (sealedFile E iv aad junk d) ∧ gs (tmpPath out) = none ∧ ∀ q, q ≠ out → q ≠ tmpPath out → gs q = fs q := by
  obtain ⟨r, fs'', q1, _, rfl, q4, _, q5, q6, _⟩ := C24_file_roundtrip E iv aad junk fs inp out (out ++ ['x']) d
    hiv ha h1 h2 (by intro h; have := congrArg List.length h; simp at this) hd hl
  have hc : callLog (sealJob E iv aad junk inp out) fs = some r.log := by
    show Option.map _ (gcmfileEncrypt (gcmAad (gcmSetiv (gcmInit E) iv) aad) junk fs inp out) = _
    rw [q1]; rfl
  obtain ⟨d', o, c1, head, p, e1, e2, _, e4, e5⟩ := whole_call (sealJob E iv aad junk inp out) fs r.log h1 h2 hc
  have hd' : d' = d := Option.some.inj (e1.symm.trans hd)
  subst hd'
  obtain ⟨c1', f1, _⟩ := fileLoop_enc_eq (gcmAad (gcmSetiv (gcmInit E) iv) aad) d' hl
  have e2' : ctxLoop (.plain (gcmAad (gcmSetiv (gcmInit E) iv) aad)) (fpieces d') = some (o, c1) := e2
  rw [ctxLoop_plain, f1] at e2'
  have ho : o.length = d'.length := by
    have := (Prod.mk.inj (Option.some.inj e2')).1
    rw [← this, length_gctr]
  rw [fpieces_count o d' ho] at e4
  exact ⟨p, _, by rw [show 4 * (fpieces d').length + 10 = 2 * (fpieces d').length + 2 * (fpieces d').length + 10 by omega]; exact e4,
    e5, q4, q5, q6⟩

/-- C146: any number of calls at the same time, of whatever kind (GCM over any block cipher, white-box GCM in either mode), each with
its own context, whose files are apart. Under every schedule nothing goes wrong, and every call that got enough steps has
returned 1 and its output is what the call would have left if it had run alone; its temporary file is gone; no file but the outputs
and temporary files has changed. -/
theorem C146_any {ι : Type} [DecidableEq ι] (jobs : ι → FileJob) (fs : FS) (log : ι → List FsOp)
    (alone : ∀ i, (match (jobs i).ctx with
      | .plain c => (gcmfileEncrypt c (jobs i).junk fs (jobs i).inp (jobs i).out).map (·.log)
      | .wb c => (wbgcmfileEncrypt c (jobs i).junk fs (jobs i).inp (jobs i).out).map (·.log)) = some (log i))
    (hin : ∀ i k, (jobs i).inp ≠ (jobs k).out ∧ (jobs i).inp ≠ (jobs k).out ++ ".tmp".toList)
    (hout : ∀ i k, i ≠ k → (jobs i).out ≠ (jobs k).out ∧ (jobs i).out ≠ (jobs k).out ++ ".tmp".toList) :
    ∃ N : ι → Nat, ∀ σ : List ι, ∃ ps fs', fileRun jobs σ (fun i => fileProc0 (jobs i)) fs = some (ps, fs') ∧
      (∀ i, N i ≤ σ.count i → (ps i).pc = .done ∧ fs' (jobs i).out = applyOps fs (log i) (jobs i).out ∧
        (∃ x, fs' (jobs i).out = some x) ∧ fs' ((jobs i).out ++ ".tmp".toList) = none) ∧
      ∀ q, (∀ i, q ≠ (jobs i).out ∧ q ≠ (jobs i).out ++ ".tmp".toList) → fs' q = fs q := by
  have apart : FilesApart jobs := fun i k h =>
    ⟨(hin i k).1, (hin i k).2, (hout i k h).1, (hout i k h).2, Ne.symm (hout k i (Ne.symm h)).2⟩
  have whole : ∀ i, ∃ N p, soloRun (jobs i) N (fileProc0 (jobs i), fs) = some (p, applyOps fs (log i)) ∧ p.pc = .done ∧
      (∃ x, applyOps fs (log i) (jobs i).out = some x) ∧ applyOps fs (log i) (tmpPath (jobs i).out) = none := by
    intro i
    obtain ⟨d, o, _, head, p, _, _, h2, h3, h4⟩ := whole_call (jobs i) fs (log i) (hin i i).1 (hin i i).2 (alone i)
    obtain ⟨r1, r2, _⟩ := callOps_result fs (jobs i).out o head
    exact ⟨_, p, h3, h4, ⟨_, by rw [h2]; exact r1⟩, by rw [h2]; exact r2⟩
  refine ⟨fun i => (whole i).choose, fun σ => ?_⟩
  have total : ∀ i n, ∃ s, soloRun (jobs i) n (fileProc0 (jobs i), fs) = some s := by
    intro i n
    obtain ⟨p, h2, h3, _⟩ := (whole i).choose_spec
    exact solo_total _ _ _ _ h2 h3 n
  obtain ⟨ps, fs', r1, r2, r3⟩ := run_apart jobs apart σ _ fs total
  refine ⟨ps, fs', r1, ?_, r3⟩
  intro i hc
  obtain ⟨p, h2, h3, h4, h5⟩ := (whole i).choose_spec
  obtain ⟨gs, g1, g2⟩ := r2 i
  have hc' : (whole i).choose ≤ σ.count i := hc
  rw [show σ.count i = (whole i).choose + (σ.count i - (whole i).choose) by omega, soloRun_add, h2, Option.bind_some,
    solo_done _ _ _ h3] at g1
  obtain ⟨rfl, rfl⟩ := Prod.mk.inj (Option.some.inj g1)
  exact ⟨h3, g2.2.1.symm, g2.2.1 ▸ h4, g2.2.2.symm.trans h5⟩

/-- C146: any number of calls at the same time, each with its own context, whose files are apart. Under every schedule nothing
goes wrong, and every call that got enough steps (a number that depends on the length of its input only) has returned 1, its
output is the encryption of its input, its temporary file is gone; no file but the outputs and temporary files has changed. -/
theorem C146_apart {ι : Type} [DecidableEq ι] (E : ι → Block → Block) (iv aad : ι → List Byte) (junk : ι → Vector Byte 4)
    (inp out : ι → Path) (d : ι → List Byte) (fs : FS)
    (hiv : ∀ i, (iv i).length < 2 ^ 29) (ha : ∀ i, (aad i).length < 2 ^ 61) (hl : ∀ i, (d i).length < 2 ^ 31)
    (hd : ∀ i, fs (inp i) = some (d i))
    (hin : ∀ i k, inp i ≠ out k ∧ inp i ≠ out k ++ ".tmp".toList)
    (hout : ∀ i k, i ≠ k → out i ≠ out k ∧ out i ≠ out k ++ ".tmp".toList) (σ : List ι) :
    ∃ ps fs', fileRun (fun i => sealJob (E i) (iv i) (aad i) (junk i) (inp i) (out i)) σ
        (fun i => fileProc0 (sealJob (E i) (iv i) (aad i) (junk i) (inp i) (out i))) fs = some (ps, fs') ∧
      (∀ i, 4 * ((d i).length / 128 + 1) + 10 ≤ σ.count i → (ps i).pc = .done ∧
        fs' (out i) = some (sealedFile (E i) (iv i) (aad i) (junk i) (d i)) ∧ fs' (out i ++ ".tmp".toList) = none) ∧
      ∀ q, (∀ i, q ≠ out i ∧ q ≠ out i ++ ".tmp".toList) → fs' q = fs q := by
  have apart : FilesApart (fun i => sealJob (E i) (iv i) (aad i) (junk i) (inp i) (out i)) := fun i k h =>
    ⟨(hin i k).1, (hin i k).2, (hout i k h).1, (hout i k h).2, Ne.symm (hout k i (Ne.symm h)).2⟩
  have whole : ∀ i, _ := fun i => seal_call (E i) (iv i) (aad i) (junk i) (inp i) (out i) (d i) fs (hiv i) (ha i) (hl i)
    (hin i i).1 (hin i i).2 (hd i)
  have total : ∀ i n, ∃ s, soloRun (sealJob (E i) (iv i) (aad i) (junk i) (inp i) (out i)) n
      (fileProc0 (sealJob (E i) (iv i) (aad i) (junk i) (inp i) (out i)), fs) = some s := by
    intro i n
    obtain ⟨p, gs, h2, h3, _⟩ := whole i
    exact solo_total _ _ _ _ h2 h3 n
  obtain ⟨ps, fs', r1, r2, r3⟩ := run_apart _ apart σ _ fs total
  refine ⟨ps, fs', r1, ?_, r3⟩
  intro i hc
  obtain ⟨p, gs0, h2, h3, h4, h5, _⟩ := whole i
  obtain ⟨gs, g1, g2⟩ := r2 i
  have hle := fpieces_count_le (d i)
  rw [show σ.count i = (4 * (fpieces (d i)).length + 10) + (σ.count i - (4 * (fpieces (d i)).length + 10)) by omega, soloRun_add, h2,
    Option.bind_some, solo_done _ _ _ h3] at g1
  obtain ⟨rfl, rfl⟩ := Prod.mk.inj (Option.some.inj g1)
  exact ⟨h3, g2.2.1.symm.trans h4, g2.2.2.symm.trans h5⟩

/-- Two files, `a` and `b`, encrypted to `c` and `d` at the same time under any schedule that gives each call 14 steps. -/
example (E : Bool → Block → Block) (σ : List Bool) (h1 : 14 ≤ σ.count true) (h2 : 14 ≤ σ.count false) :
    ∃ ps fs', fileRun (fun b => sealJob (E b) [1] [] (Vector.replicate 4 0) [if b then 'a' else 'b'] [if b then 'c' else 'd']) σ
        (fun b => fileProc0 (sealJob (E b) [1] [] (Vector.replicate 4 0) [if b then 'a' else 'b'] [if b then 'c' else 'd']))
        (fun p => if p = ['a'] then some [7] else if p = ['b'] then some [8, 9] else none) = some (ps, fs') ∧
      fs' ['c'] = some (sealedFile (E true) [1] [] (Vector.replicate 4 0) [7]) ∧
      fs' ['d'] = some (sealedFile (E false) [1] [] (Vector.replicate 4 0) [8, 9]) ∧ fs' ['a'] = some [7] := by
  obtain ⟨ps, fs', r1, r2, r3⟩ := C146_apart E (fun _ => [1]) (fun _ => []) (fun _ => Vector.replicate 4 0)
    (fun b => [if b then 'a' else 'b']) (fun b => [if b then 'c' else 'd']) (fun b => if b then [7] else [8, 9])
    (fun p => if p = ['a'] then some [7] else if p = ['b'] then some [8, 9] else none)
    (fun _ => by decide) (fun _ => by decide) (fun b => by cases b <;> decide) (fun b => by cases b <;> decide)
    (fun i k => by cases i <;> cases k <;> decide) (fun i k => by cases i <;> cases k <;> decide) σ
  exact ⟨ps, fs', r1, (r2 true h1).2.1, (r2 false h2).2.1, r3 ['a'] (fun i => by cases i <;> decide)⟩

/-- C146: the same for white-box contexts with external encodings: the outputs are those of AES-GCM under the keys. -/
theorem C146_whitebox {ι : Type} [DecidableEq ι] (r : ι → WbaesRnd) (r1 r2 : ι → Fin 16 → Nat → BitVec 32)
    (jt : ι → Vector (Fin 256) 256) (key : ι → Block) (iv aad : ι → List Byte) (junk : ι → Vector Byte 4)
    (inp out : ι → Path) (d : ι → List Byte) (fs : FS)
    (hiv : ∀ i, (iv i).length < 2 ^ 29) (ha : ∀ i, (aad i).length < 2 ^ 61) (hl : ∀ i, (d i).length < 2 ^ 31)
    (hd : ∀ i, fs (inp i) = some (d i)) (hne : ∀ i, ¬(d i = [] ∧ aad i = []))
    (hin : ∀ i k, inp i ≠ out k ∧ inp i ≠ out k ++ ".tmp".toList)
    (hout : ∀ i k, i ≠ k → out i ≠ out k ∧ out i ≠ out k ++ ".tmp".toList) :
    let jobs : ι → FileJob := fun i => FileJob.mk (inp i) (out i)
      (.wb (wbgcmAad (wbgcmSetiv (wbEeInit (wbEeGenTable (r i) (r1 i) (r2 i) (jt i) (key i))) (iv i)) (aad i))) (junk i)
    ∃ N : ι → Nat, ∀ σ : List ι, ∃ ps fs', fileRun jobs σ (fun i => fileProc0 (jobs i)) fs = some (ps, fs') ∧
      (∀ i, N i ≤ σ.count i → (ps i).pc = .done ∧
        fs' (out i) = some (sealedFile (aes128 (key i)) (iv i) (aad i) (junk i) (d i)) ∧ fs' (out i ++ ".tmp".toList) = none) ∧
      ∀ q, (∀ i, q ≠ out i ∧ q ≠ out i ++ ".tmp".toList) → fs' q = fs q := by
  intro jobs
  have one : ∀ i, ∃ e, wbgcmfileEncrypt (wbgcmAad (wbgcmSetiv (wbEeInit (wbEeGenTable (r i) (r1 i) (r2 i) (jt i) (key i))) (iv i)) (aad i))
      (junk i) fs (inp i) (out i) = some e ∧
      applyOps fs e.log (out i) = some (sealedFile (aes128 (key i)) (iv i) (aad i) (junk i) (d i)) := by
    intro i
    obtain ⟨e, _, _, _, h1, _, _, _, h5, _⟩ := C73_ee_file (r i) (r i) (r1 i) (r2 i) (r1 i) (r2 i) (jt i) (jt i) (key i) (iv i) (aad i) (junk i) fs
      (inp i) (out i) (out i ++ ['x']) (d i) (hiv i) (ha i) (hin i i).1 (hin i i).2
      (by intro h; have := congrArg List.length h; simp at this) (hd i) (hl i) (hne i)
    exact ⟨e, h1, h5⟩
  obtain ⟨N, hN⟩ := C146_any jobs fs (fun i => (one i).choose.log)
    (fun i => congrArg (Option.map WbFileResult.log) (one i).choose_spec.1) hin hout
  refine ⟨N, fun σ => ?_⟩
  obtain ⟨ps, fs', a1, a2, a3⟩ := hN σ
  refine ⟨ps, fs', a1, fun i hi => ?_, a3⟩
  obtain ⟨b1, b2, _, b4⟩ := a2 i hi
  exact ⟨b1, b2.trans (one i).choose_spec.2, b4⟩

/-- Two white-box contexts for one key encrypt `a` to `c` and `b` to `d`; the files are those of AES-GCM. -/
example (r : Bool → WbaesRnd) (r1 r2 : Bool → Fin 16 → Nat → BitVec 32) (jt : Bool → Vector (Fin 256) 256) (key : Block) :=
  C146_whitebox r r1 r2 jt (fun _ => key) (fun _ => [1]) (fun _ => []) (fun _ => Vector.replicate 4 0)
    (fun b => [if b then 'a' else 'b']) (fun b => [if b then 'c' else 'd']) (fun b => if b then [7] else [8, 9])
    (fun p => if p = ['a'] then some [7] else if p = ['b'] then some [8, 9] else none)
    (fun _ => by decide) (fun _ => by decide) (fun b => by cases b <;> decide) (fun b => by cases b <;> decide)
    (fun b => by cases b <;> decide) (fun i k => by cases i <;> cases k <;> decide) (fun i k => by cases i <;> cases k <;> decide)

theorem fileRun_append {ι : Type} [DecidableEq ι] (jobs : ι → FileJob) (τ : List ι) : ∀ (σ : List ι) (ps : ι → FileProc) (fs : FS),
    fileRun jobs (σ ++ τ) ps fs = (fileRun jobs σ ps fs).bind fun s => fileRun jobs τ s.1 s.2 := by
  intro σ
  induction σ with
  | nil => intro ps fs; rfl
  | cons k σ ih =>
    intro ps fs
    simp only [List.cons_append, fileRun, Option.bind_eq_bind]
    cases fileStep (jobs k) (ps k) fs with
    | none => rfl
    | some s => exact ih _ _

theorem fileRun_turn {ι : Type} [DecidableEq ι] (jobs : ι → FileJob) (k : ι) : ∀ (n : Nat) (ps : ι → FileProc) (fs : FS) (p : FileProc)
    (fs' : FS), soloRun (jobs k) n (ps k, fs) = some (p, fs') →
    fileRun jobs (List.replicate n k) ps fs = some (fun i => if i = k then p else ps i, fs') := by
  intro n
  induction n with
  | zero =>
    intro ps fs p fs' h
    simp only [soloRun, Option.some.injEq, Prod.mk.injEq] at h
    obtain ⟨rfl, rfl⟩ := h
    simp only [List.replicate_zero, fileRun]
    congr 2
    funext i
    split
    · next hi => rw [hi]
    · rfl
  | succ n ih =>
    intro ps fs p fs' h
    obtain ⟨⟨q, fs1⟩, e, h⟩ := Option.bind_eq_some_iff.mp h
    simp only [List.replicate_succ, fileRun, Option.bind_eq_bind]
    rw [show fileStep (jobs k) (ps k) fs = some (q, fs1) from e]
    simp only [Option.bind_some]
    rw [ih (fun i => if i = k then q else ps i) fs1 p fs' (by simpa using h)]
    congr 2
    funext i
    split <;> rfl

/-- C146: two encryptions whose outputs are `a.tmp` and `a`, one after the other: both return 1, and the first result is deleted. -/
theorem C146_deleted (E E' : Block → Block) (iv aad iv' aad' : List Byte) (junk junk' : Vector Byte 4) (inp inp' a : Path)
    (d d' : List Byte) (fs : FS) (hiv : iv.length < 2 ^ 29) (ha : aad.length < 2 ^ 61) (hiv' : iv'.length < 2 ^ 29)
    (ha' : aad'.length < 2 ^ 61) (hl : d.length < 2 ^ 31) (hl' : d'.length < 2 ^ 31)
    (hd : fs inp = some d) (hd' : fs inp' = some d')
    (h1 : inp ≠ a ++ ".tmp".toList) (h2 : inp ≠ a ++ ".tmp.tmp".toList)
    (h3 : inp' ≠ a) (h4 : inp' ≠ a ++ ".tmp".toList) (h5 : inp' ≠ a ++ ".tmp.tmp".toList) :
    ∃ (m n : Nat) (ps : Bool → FileProc) (fs' : FS),
      fileRun (fun b => if b then sealJob E iv aad junk inp (a ++ ".tmp".toList) else sealJob E' iv' aad' junk' inp' a)
        (List.replicate m true ++ List.replicate n false)
        (fun b => fileProc0 (if b then sealJob E iv aad junk inp (a ++ ".tmp".toList) else sealJob E' iv' aad' junk' inp' a)) fs =
          some (ps, fs') ∧
      (ps true).pc = .done ∧ (ps false).pc = .done ∧ fs' (a ++ ".tmp".toList) = none := by
  have e2 : a ++ ".tmp.tmp".toList = tmpPath (a ++ ".tmp".toList) := by
    show a ++ _ = (a ++ _) ++ _
    rw [List.append_assoc]; rfl
  rw [e2] at h2 h5
  obtain ⟨p, gs, a2, a3, a4, a5, a6⟩ := seal_call E iv aad junk inp (a ++ ".tmp".toList) d fs hiv ha hl h1 h2 hd
  obtain ⟨p2, gs2, g2, g3, g4, g5, g6⟩ := seal_call E' iv' aad' junk' inp' a d' gs hiv' ha' hl' h3 h4 (by rw [a6 _ h4 h5, hd'])
  refine ⟨4 * (fpieces d).length + 10, 4 * (fpieces d').length + 10,
    fun b => if b = false then p2 else if b = true then p else fileProc0 (sealJob E' iv' aad' junk' inp' a), gs2, ?_, a3, g3, g5⟩
  rw [fileRun_append, fileRun_turn _ true _ _ _ p _ a2, Option.bind_some]
  rw [fileRun_turn _ false _ _ _ p2 _ g2]
  congr 2
  funext b
  cases b <;> rfl

/-- `x` is encrypted to `c.tmp`, then `y` to `c`: the first result is gone. -/
example (E : Block → Block) : ∃ (m n : Nat) (ps : Bool → FileProc) (fs' : FS),
    fileRun (fun b => if b then sealJob E [1] [] (Vector.replicate 4 0) ['x'] (['c'] ++ ".tmp".toList) else
        sealJob E [2] [] (Vector.replicate 4 0) ['y'] ['c'])
      (List.replicate m true ++ List.replicate n false)
      (fun b => fileProc0 (if b then sealJob E [1] [] (Vector.replicate 4 0) ['x'] (['c'] ++ ".tmp".toList) else
        sealJob E [2] [] (Vector.replicate 4 0) ['y'] ['c'])) (fun _ => some [7, 8]) = some (ps, fs') ∧
    (ps true).pc = .done ∧ (ps false).pc = .done ∧ fs' (['c'] ++ ".tmp".toList) = none :=
  C146_deleted E E [1] [] [2] [] _ _ ['x'] ['y'] ['c'] [7, 8] [7, 8] (fun _ => some [7, 8]) (by decide) (by decide) (by decide) (by decide) (by decide) (by decide) rfl rfl
    (by decide) (by decide) (by decide) (by decide) (by decide)

theorem seal_facts (E : Block → Block) (iv aad : List Byte) (junk : Vector Byte 4) (inp out : Path) (d : List Byte)
    (hiv : iv.length < 2 ^ 29) (ha : aad.length < 2 ^ 61) (hl : d.length < 2 ^ 31) :
    ∃ tag c1 c2, ctxLoop (sealJob E iv aad junk inp out).ctx (fpieces d) = some (gcmCipher E iv d, c1) ∧
      fileFin c1 = some (tag, c2) ∧ tag.length = 16 ∧
      tag ++ sizeBuf d.length junk = (sealedFile E iv aad junk d).take 24 := by
  let fs : FS := fun _ => some d
  have n1 : ∀ (p : Path), p ++ ['x'] ≠ p := by intro p h; have := congrArg List.length h; simp at this
  have n2 : ['x'] ++ out ≠ tmpPath out := by
    intro h; have := congrArg List.length h; simp [tmpPath] at this
  have n3 : ['x'] ++ out ≠ out := by
    intro h; have := congrArg List.length h; simp at this
  obtain ⟨r', _, q1, _, rfl, q4, _⟩ := C24_file_roundtrip E iv aad junk fs (['x'] ++ out) out (out ++ ['x']) d
    hiv ha n3 n2 (Ne.symm (n1 out)) rfl hl
  obtain ⟨r, tag, c1, c2, a1, _, _, a4, a5, a6, a7⟩ := encrypt_eq (gcmAad (gcmSetiv (gcmInit E) iv) aad) junk fs (['x'] ++ out) out d
    n3 n2 rfl hl
  have hr : r = r' := Option.some.inj (a1.symm.trans q1)
  subst hr
  obtain ⟨c1', f1, f2⟩ := fileLoop_enc_eq (gcmAad (gcmSetiv (gcmInit E) iv) aad) d hl
  have hc : c1 = c1' := congrArg GcmResult.ctx (Option.some.inj (a4.symm.trans f2))
  subst hc
  have hy : toBV (gcmAad (gcmSetiv (gcmInit E) iv) aad).y = j0 E iv := by
    show toBV (gcmSetiv (gcmInit E) iv).y = _
    rw [setiv_y _ (init_ok E) iv hiv]; rfl
  have hct : gctr (gcmAad (gcmSetiv (gcmInit E) iv) aad).block
      (inc32 (toBV (gcmAad (gcmSetiv (gcmInit E) iv) aad).y)) d = gcmCipher E iv d := by
    rw [hy]; rfl
  rw [hct] at a7 f1
  have hlr := (log_result fs (tmpPath out) out (gcmCipher E iv d) (encContent tag junk (gcmCipher E iv d)) (tmpPath_ne _)).1
  rw [← a7, q4] at hlr
  have he := Option.some.inj hlr
  refine ⟨tag, .plain c1, .plain c2, ?_, by rw [fileFin, a5]; rfl, a6, ?_⟩
  · show ctxLoop (.plain (gcmAad (gcmSetiv (gcmInit E) iv) aad)) _ = _
    rw [ctxLoop_plain, f1]; rfl
  rw [sealedFile, he, encContent, length_gcmCipher, List.take_left' (by simp [a6, length_sizeBuf])]

/-- `fs` with other contents of an output and its temporary file. -/
def twoSet (fs : FS) (out : Path) (x y : Option (List Byte)) : FS := fsSet (fsSet fs (tmpPath out) x) out y

theorem twoSet_out (fs : FS) (out : Path) (x y z : Option (List Byte)) : fsSet (twoSet fs out x y) out z = twoSet fs out x z := fsSet_fsSet _ _ _ _
theorem twoSet_tmp (fs : FS) (out : Path) (x y z : Option (List Byte)) : fsSet (twoSet fs out x y) (tmpPath out) z = twoSet fs out z y := by
  funext q
  simp only [twoSet, fsSet]
  by_cases h : q = tmpPath out
  · subst h; simp [tmpPath_ne]
  · simp [h]
theorem twoSet_at_out (fs : FS) (out : Path) (x y : Option (List Byte)) : twoSet fs out x y out = y := fsSet_same _ _ _
theorem twoSet_at_tmp (fs : FS) (out : Path) (x y : Option (List Byte)) : twoSet fs out x y (tmpPath out) = x := by
  rw [twoSet, fsSet_other _ _ _ _ (tmpPath_ne _), fsSet_same]

theorem mixed_run (jobs : Bool → FileJob) (out : Path) (fs : FS) (d d' o o' tag tag' : List Byte) (c1 c2 c1' c2' : FileCtx)
    (ho : (jobs true).out = out) (ho' : (jobs false).out = out)
    (h1 : (jobs true).inp ≠ out) (h2 : (jobs true).inp ≠ tmpPath out) (h3 : (jobs false).inp ≠ out) (h4 : (jobs false).inp ≠ tmpPath out)
    (hd : fs (jobs true).inp = some d) (hd' : fs (jobs false).inp = some d')
    (f1 : ctxLoop (jobs true).ctx (fpieces d) = some (o, c1)) (f2 : fileFin c1 = some (tag, c2))
    (g1 : ctxLoop (jobs false).ctx (fpieces d') = some (o', c1')) (g2 : fileFin c1' = some (tag', c2'))
    (ht : tag.length = 16) (ht' : tag'.length = 16) :
    ∃ (σ : List Bool) (ps : Bool → FileProc), fileRun jobs σ (fun b => fileProc0 (jobs b)) fs =
        some (ps, twoSet fs out none (some (tag ++ sizeBuf d.length (jobs true).junk ++ o'))) ∧
      (ps true).pc = .done ∧ (ps false).pc = .done := by
  generalize hA : jobs true = jA at *
  generalize hB : jobs false = jB at *
  subst ho
  obtain ⟨p1, a1, a2, a3, a4, a5, a6, a7⟩ := first_half jA fs d o tag c1 c2 h1 h2 hd f1 f2
  change _ = some (p1, twoSet fs jA.out _ _) at a1
  have hd1 : twoSet fs jA.out (some o) (some []) jB.inp = some d' := by
    rw [twoSet, fsSet_other _ _ _ _ h3, fsSet_other _ _ _ _ h4, hd']
  obtain ⟨q1, b1, b2, b3, b4, b5, b6, b7⟩ := first_half jB (twoSet fs jA.out (some o) (some [])) d' o' tag' c1' c2'
    (by rw [ho']; exact h3) (by rw [ho']; exact h4) hd1 g1 g2
  rw [ho', twoSet_tmp, twoSet_out] at b1
  have b8 := head_part jB q1 (twoSet fs jA.out (some o') (some [])) [] b2 b6 (by rw [ho']; exact twoSet_at_out _ _ _ _)
  rw [ho', twoSet_out] at b8
  have a8 := head_part jA p1 (twoSet fs jA.out (some o') (some (overwrite [] 0 (q1.tag ++ q1.size)))) _ a2 a6 (twoSet_at_out _ _ _ _)
  rw [twoSet_out] at a8
  have l1 : (p1.tag ++ p1.size).length = 24 := by simp [a4, a5, ht, length_sizeBuf]
  have l2 : (q1.tag ++ q1.size).length = 24 := by simp [b4, b5, ht', length_sizeBuf]
  have e1 : overwrite (overwrite [] 0 (q1.tag ++ q1.size)) 0 (p1.tag ++ p1.size) = p1.tag ++ p1.size := by
    have e0 : overwrite [] 0 (q1.tag ++ q1.size) = q1.tag ++ q1.size := by
      rw [overwrite_of_le _ _ _ (Nat.zero_le _)]; simp
    have e00 : (q1.tag ++ q1.size).drop (0 + (p1.tag ++ p1.size).length) = [] := List.drop_of_length_le (by omega)
    rw [e0, overwrite_of_le _ _ _ (Nat.zero_le _), e00]
    simp
  rw [e1] at a8
  obtain ⟨p2, c1, c2, _, _⟩ := loop_out jA o' o' { p1 with pc := .readTmp, wo := (p1.tag ++ p1.size).length }
    (twoSet fs jA.out (some o') (some (p1.tag ++ p1.size))) (p1.tag ++ p1.size) rfl (twoSet_at_tmp _ _ _ _)
    (by show o'.drop p1.rd = o'; rw [a7]; rfl) (twoSet_at_out _ _ _ _) (Nat.le_refl _)
  rw [twoSet_out] at c1
  have e2 : overwrite (p1.tag ++ p1.size) (p1.tag ++ p1.size).length o' = p1.tag ++ p1.size ++ o' := by
    rw [overwrite_of_le _ _ _ (Nat.le_refl _), List.take_of_length_le (Nat.le_refl _), List.drop_of_length_le (Nat.le_add_right _ _), List.append_nil]
  change _ = some (p2, twoSet _ _ _ (some (overwrite _ (p1.tag ++ p1.size).length o'))) at c1
  rw [e2] at c1
  obtain ⟨q2, d1, d2, _, _⟩ := loop_out jB o' o' { q1 with pc := .readTmp, wo := (q1.tag ++ q1.size).length }
    (twoSet fs jA.out (some o') (some (p1.tag ++ p1.size ++ o'))) (p1.tag ++ p1.size ++ o') rfl (by rw [ho']; exact twoSet_at_tmp _ _ _ _)
    (by show o'.drop q1.rd = o'; rw [b7]; rfl) (by rw [ho']; exact twoSet_at_out _ _ _ _)
    (by show (q1.tag ++ q1.size).length ≤ _; rw [l2, List.length_append, l1]; omega)
  rw [ho', twoSet_out] at d1
  have l3 : (p1.tag ++ p1.size ++ o').length = 24 + o'.length := by rw [List.length_append, l1]
  have e3 : overwrite (p1.tag ++ p1.size ++ o') (q1.tag ++ q1.size).length o' = p1.tag ++ p1.size ++ o' := by
    have e00 : (p1.tag ++ p1.size ++ o').drop (24 + o'.length) = [] := List.drop_of_length_le (by omega)
    rw [overwrite_of_le _ _ _ (by omega), l2, List.take_left' l1, e00, List.append_nil]
  change _ = some (q2, twoSet _ _ _ (some (overwrite _ (q1.tag ++ q1.size).length o'))) at d1
  rw [e3] at d1
  have u1 : ∀ y, soloRun jA 1 (p2, twoSet fs jA.out (some o') y) = some ({ p2 with pc := .done }, twoSet fs jA.out none y) := by
    intro y
    simp only [soloRun, fileStep, c2, Option.bind_some, twoSet_tmp]
  have u2 : ∀ y, soloRun jB 1 (q2, twoSet fs jA.out none y) = some ({ q2 with pc := .done }, twoSet fs jA.out none y) := by
    intro y
    simp only [soloRun, fileStep, d2, Option.bind_some, ho', twoSet_tmp]
  have turnA : ∀ n (ps : Bool → FileProc) (g g' : FS) (x p : FileProc), ps true = x → soloRun jA n (x, g) = some (p, g') →
      fileRun jobs (List.replicate n true) ps g = some (fun b => if b = true then p else ps b, g') := by
    intro n ps g g' x p hx h
    exact fileRun_turn jobs true n ps g p g' (by rw [hA, hx]; exact h)
  have turnB : ∀ n (ps : Bool → FileProc) (g g' : FS) (x p : FileProc), ps false = x → soloRun jB n (x, g) = some (p, g') →
      fileRun jobs (List.replicate n false) ps g = some (fun b => if b = false then p else ps b, g') := by
    intro n ps g g' x p hx h
    exact fileRun_turn jobs false n ps g p g' (by rw [hB, hx]; exact h)
  have chain : ∀ (σ τ : List Bool) (ps ps' : Bool → FileProc) (g g' : FS), fileRun jobs σ ps g = some (ps', g') →
      fileRun jobs (σ ++ τ) ps g = fileRun jobs τ ps' g' := by
    intro σ τ ps ps' g g' h
    rw [fileRun_append, h]; rfl
  refine ⟨List.replicate (2 * (fpieces d).length + 6) true ++ (List.replicate (2 * (fpieces d').length + 6) false ++
    (List.replicate 2 false ++ (List.replicate 2 true ++ (List.replicate (2 * (fpieces o').length + 1) true ++
    (List.replicate (2 * (fpieces o').length + 1) false ++ (List.replicate 1 true ++ List.replicate 1 false)))))),
    fun b => if b = true then { p2 with pc := .done } else { q2 with pc := .done }, ?_, rfl, rfl⟩
  rw [chain _ _ _ _ _ _ (turnA _ _ _ _ _ _ (by rw [hA]) a1), chain _ _ _ _ _ _ (turnB _ _ _ _ _ _ (by simp [hB]) b1),
    chain _ _ _ _ _ _ (turnB _ _ _ _ _ _ (by simp) b8), chain _ _ _ _ _ _ (turnA _ _ _ _ _ _ (by simp) a8),
    chain _ _ _ _ _ _ (turnA _ _ _ _ _ _ (by simp) c1), chain _ _ _ _ _ _ (turnB _ _ _ _ _ _ (by simp) d1),
    chain _ _ _ _ _ _ (turnA _ _ _ _ _ _ (by simp) (u1 _)), turnB _ _ _ _ _ _ (by simp) (u2 _), a4, a5]
  congr 2
  funext b
  cases b <;> rfl

/-- C146: two encryptions to one output at the same time. There is a schedule under which both return 1 and the file they leave has
the tag and the length of the first and the ciphertext of the second. Decryption with the context of the first, if the inputs have
one length, returns 1 for it, and does not give the first input back unless the two ciphertexts are the same. -/
theorem C146_same_output (E E' : Block → Block) (iv aad iv' aad' : List Byte) (junk junk' : Vector Byte 4) (inp inp' out : Path)
    (d d' : List Byte) (fs : FS) (hiv : iv.length < 2 ^ 29) (ha : aad.length < 2 ^ 61) (hiv' : iv'.length < 2 ^ 29)
    (ha' : aad'.length < 2 ^ 61) (hl : d.length < 2 ^ 31) (hl' : d'.length < 2 ^ 31)
    (hd : fs inp = some d) (hd' : fs inp' = some d') (h1 : inp ≠ out) (h2 : inp ≠ out ++ ".tmp".toList)
    (h3 : inp' ≠ out) (h4 : inp' ≠ out ++ ".tmp".toList) :
    ∃ (σ : List Bool) (ps : Bool → FileProc) (fs' : FS),
      fileRun (fun b => if b then sealJob E iv aad junk inp out else sealJob E' iv' aad' junk' inp' out) σ
        (fun b => fileProc0 (if b then sealJob E iv aad junk inp out else sealJob E' iv' aad' junk' inp' out)) fs = some (ps, fs') ∧
      (ps true).pc = .done ∧ (ps false).pc = .done ∧
      fs' out = some ((sealedFile E iv aad junk d).take 24 ++ gcmCipher E' iv' d') ∧
      (d.length = d'.length → ∀ res, res ≠ out → ∃ r, gcmfileDecrypt (gcmAad (gcmSetiv (gcmInit E) iv) aad) fs' out res = some r ∧
        r.ret = 1 ∧ (applyOps fs' r.log res = some d ↔ gcmCipher E iv d = gcmCipher E' iv' d')) := by
  obtain ⟨tag, c1, c2, f1, f2, f3, f4⟩ := seal_facts E iv aad junk inp out d hiv ha hl
  obtain ⟨tag', c1', c2', g1, g2, g3, _⟩ := seal_facts E' iv' aad' junk' inp' out d' hiv' ha' hl'
  obtain ⟨σ, ps, r1, r2, r3⟩ := mixed_run (fun b => if b then sealJob E iv aad junk inp out else sealJob E' iv' aad' junk' inp' out)
    out fs d d' _ _ tag tag' c1 c2 c1' c2' rfl rfl h1 h2 h3 h4 hd hd' f1 f2 g1 g2 f3 g3
  have hc : tag ++ sizeBuf d.length junk ++ gcmCipher E' iv' d' = (sealedFile E iv aad junk d).take 24 ++ gcmCipher E' iv' d' := by rw [f4]
  refine ⟨σ, ps, _, r1, r2, r3, ?_, ?_⟩
  · rw [twoSet_at_out]; exact congrArg some hc
  · intro hlen res hres
    have hx : twoSet fs out none (some (tag ++ sizeBuf d.length junk ++ gcmCipher E' iv' d')) out =
        some (tag ++ sizeBuf d.length junk ++ gcmCipher E' iv' d') := twoSet_at_out _ _ _ _
    have hlc : (tag ++ sizeBuf d.length junk ++ gcmCipher E' iv' d').length = 24 + d'.length := by
      simp [f3, length_sizeBuf, length_gcmCipher]; omega
    obtain ⟨r, k1, k2, k3⟩ := decrypt_eq (gcmAad (gcmSetiv (gcmInit E) iv) aad) _ out res _ (Ne.symm hres) hx (by omega) (by omega)
    have hdrop : (tag ++ sizeBuf d.length junk ++ gcmCipher E' iv' d').drop 24 = gcmCipher E' iv' d' :=
      List.drop_left' (by simp [f3, length_sizeBuf])
    have hsize : ((tag ++ sizeBuf d.length junk ++ gcmCipher E' iv' d').drop 16).take 8 = sizeBuf d.length junk := by
      rw [List.append_assoc, List.drop_left' f3, List.take_left' (length_sizeBuf _ _)]
    rw [hdrop] at k2 k3
    rw [hsize, fileSize_sizeBuf _ _ hl, length_gcmCipher, hlen, if_pos rfl] at k2
    have hy : toBV (gcmAad (gcmSetiv (gcmInit E) iv) aad).y = j0 E iv := by
      show toBV (gcmSetiv (gcmInit E) iv).y = _
      rw [setiv_y _ (init_ok E) iv hiv]; rfl
    rw [hy] at k3
    refine ⟨r, k1, k2, ?_⟩
    rw [k3]
    have e : applyOps (twoSet fs out none (some (tag ++ sizeBuf d.length junk ++ gcmCipher E' iv' d')))
        (FsOp.trunc res :: (gcmCipher E iv (gcmCipher E' iv' d')).map (FsOp.put res)) res = some (gcmCipher E iv (gcmCipher E' iv' d')) := by
      show applyOps (applyOp _ (FsOp.trunc res)) _ res = _
      rw [applyOps_put res _ _ [] (by simp [applyOp, FsOp.path, FsOp.effect])]
      rfl
    constructor
    · intro h
      have h' : gcmCipher E iv (gcmCipher E' iv' d') = d := Option.some.inj (e.symm.trans h)
      rw [← h', gcmCipher_twice]
    · intro h
      refine Eq.trans e ?_
      rw [← h, gcmCipher_twice]

/-- The file `a` is encrypted to `c` twice at the same time, from two inputs of one length: if the ciphertexts differ, decryption
accepts the result and does not return the input it belongs to by tag and length. -/
example (E E' : Block → Block) (hE : gcmCipher E [1] [7] ≠ gcmCipher E' [2] [8]) :
    ∃ (σ : List Bool) (ps : Bool → FileProc) (fs' : FS),
      fileRun (fun b => if b then sealJob E [1] [] (Vector.replicate 4 0) ['a'] ['c'] else sealJob E' [2] [] (Vector.replicate 4 0) ['b'] ['c']) σ
        (fun b => fileProc0 (if b then sealJob E [1] [] (Vector.replicate 4 0) ['a'] ['c'] else sealJob E' [2] [] (Vector.replicate 4 0) ['b'] ['c']))
        (fun p => if p = ['a'] then some [7] else if p = ['b'] then some [8] else none) = some (ps, fs') ∧
      ∃ r, gcmfileDecrypt (gcmAad (gcmSetiv (gcmInit E) [1]) []) fs' ['c'] ['e'] = some r ∧ r.ret = 1 ∧
        applyOps fs' r.log ['e'] ≠ some [7] := by
  obtain ⟨σ, ps, fs', r1, _, _, _, r5⟩ := C146_same_output E E' [1] [] [2] [] (Vector.replicate 4 0) (Vector.replicate 4 0) ['a'] ['b'] ['c']
    [7] [8] (fun p => if p = ['a'] then some [7] else if p = ['b'] then some [8] else none) (by decide) (by decide) (by decide) (by decide)
    (by decide) (by decide) (by decide) (by decide) (by decide) (by decide) (by decide) (by decide)
  obtain ⟨r, k1, k2, k3⟩ := r5 rfl ['e'] (by decide)
  exact ⟨σ, ps, fs', r1, r, k1, k2, fun h => hE (k3.mp h)⟩

end Verif.Props
