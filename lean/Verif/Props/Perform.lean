import Verif.Model.Perform
import Verif.Props.AesWrap
import Verif.Props.GcmLong
import Verif.Props.WbGcmFileMore

/-!
C132: what the program that measures the encryption of files (test/file_encrypt_perform.c) does. One context encrypts every file ten
times and goes on counting; the other decrypts the last of the ten results ten times and goes on counting as well. So the
two stand at the same counter only in the tenth decryption, which restores the file; the nine before it decrypt with another
stretch of the key stream.
-/
set_option autoImplicit false

namespace Verif.Props

open Verif Spec Model

/-- What the file functions of a mode do, as far as the program depends on it: `at` says at which counter a context stands. -/
structure FilesWork {κ : Type} (F : FileFns κ) (E : Block → Block) (f g : Comb) (encAt decAt : κ → BitVec 128 → Prop) : Prop where
  enc : ∀ (c : κ) (v : BitVec 128) (j : Vector Byte 4) (fs : FS) (i o : Path) (d : List Byte), encAt c v → i ≠ o → i ≠ tmpPath o →
    fs i = some d → ∃ c' log tag, F.enc c j fs i o = some (c', log) ∧ tag.length = 16 ∧
      applyOps fs log o = some (tag ++ sizeBuf d.length j ++ stream f E (inc32 v) d) ∧ applyOps fs log (tmpPath o) = none ∧
      (∀ p, p ≠ o → p ≠ tmpPath o → applyOps fs log p = fs p) ∧ encAt c' (incN ((d.length + 15) / 16) v)
  dec : ∀ (c : κ) (v : BitVec 128) (fs : FS) (i o : Path) (tag body : List Byte) (j : Vector Byte 4), decAt c v → i ≠ o →
    tag.length = 16 → fs i = some (tag ++ sizeBuf body.length j ++ body) → body.length < 2 ^ 31 →
    ∃ c' log, F.dec c fs i o = some (c', log) ∧ applyOps fs log o = some (stream g E (inc32 v) body) ∧
      (∀ p, p ≠ o → applyOps fs log p = fs p) ∧ decAt c' (incN ((body.length + 15) / 16) v)
  missing : ∀ (c : κ) (j : Vector Byte 4) (fs : FS) (i o : Path), fs i = none → F.enc c j fs i o = none

theorem incN_iter (n : Nat) (v : BitVec 128) : inc32^[n] v = incN n v := by
  induction n with
  | zero => rfl
  | succ n ih => rw [Function.iterate_succ_apply', ih]; rfl

theorem incN_one (v : BitVec 128) : incN 1 v = inc32 v := rfl

theorem perf_paths_ne : perfEncPath ≠ perfDecPath := by decide
theorem perf_tmp_ne : tmpPath perfEncPath ≠ perfDecPath := by decide

/-- The log of an encryption leaves other files alone. -/
theorem enc_log_other (fs : FS) (tmp out p : Path) (a b : List Byte) (h1 : p ≠ out) (h2 : p ≠ tmp) :
    applyOps fs ([FsOp.trunc tmp, FsOp.trunc out] ++ a.map (FsOp.put tmp) ++ b.map (FsOp.put out) ++ [FsOp.remove tmp]) p = fs p := by
  apply applyOps_other
  intro o ho
  simp only [List.mem_append, List.mem_cons, List.not_mem_nil, or_false, List.mem_map] at ho
  rcases ho with (((rfl | rfl) | ⟨x, _, rfl⟩) | ⟨x, _, rfl⟩) | rfl <;> simp only [FsOp.path] <;> first | exact Ne.symm h1 | exact Ne.symm h2

theorem gcmfileEncrypt_log {c : GcmCtx} {junk : Vector Byte 4} {fs : FS} {inp out : Path} {r : FileResult}
    (h : gcmfileEncrypt c junk fs inp out = some r) : ∃ a b : List Byte, r.log = [FsOp.trunc (tmpPath out), FsOp.trunc out] ++
      a.map (FsOp.put (tmpPath out)) ++ b.map (FsOp.put out) ++ [FsOp.remove (tmpPath out)] := by
  simp only [gcmfileEncrypt, Option.bind_eq_bind, Option.bind_eq_some_iff, Option.pure_def, Option.some.injEq] at h
  obtain ⟨_, _, _, _, x, _, y, _, rfl⟩ := h
  exact ⟨_, _, rfl⟩

theorem wbgcmfileEncrypt_log {c : WbGcmCtx} {junk : Vector Byte 4} {fs : FS} {inp out : Path} {r : WbFileResult}
    (h : wbgcmfileEncrypt c junk fs inp out = some r) : ∃ a b : List Byte, r.log = [FsOp.trunc (tmpPath out), FsOp.trunc out] ++
      a.map (FsOp.put (tmpPath out)) ++ b.map (FsOp.put out) ++ [FsOp.remove (tmpPath out)] := by
  simp only [wbgcmfileEncrypt, Option.bind_eq_bind, Option.bind_eq_some_iff, Option.pure_def, Option.some.injEq] at h
  obtain ⟨_, _, _, _, x, _, y, _, rfl⟩ := h
  exact ⟨_, _, rfl⟩

theorem gcmfileDecrypt_log {c : GcmCtx} {fs : FS} {inp out : Path} {r : FileResult}
    (h : gcmfileDecrypt c fs inp out = some r) : ∃ a : List Byte, r.log = FsOp.trunc out :: a.map (FsOp.put out) := by
  simp only [gcmfileDecrypt, Option.bind_eq_bind, Option.bind_eq_some_iff] at h
  obtain ⟨_, _, h⟩ := h
  split at h
  · exact (nomatch h)
  split at h
  · exact (nomatch h)
  split at h
  · exact (nomatch h)
  simp only [Option.bind_eq_some_iff] at h
  obtain ⟨x, _, y, _, h⟩ := h
  split at h
  · exact (nomatch h)
  exact ⟨y.1, by rw [← Option.some.inj h]⟩

theorem wbgcmfileDecrypt_log {c : WbGcmCtx} {fs : FS} {inp out : Path} {r : WbFileResult}
    (h : wbgcmfileDecrypt c fs inp out = some r) : ∃ a : List Byte, r.log = FsOp.trunc out :: a.map (FsOp.put out) := by
  simp only [wbgcmfileDecrypt, Option.bind_eq_bind, Option.bind_eq_some_iff] at h
  obtain ⟨_, _, h⟩ := h
  split at h
  · exact (nomatch h)
  split at h
  · exact (nomatch h)
  split at h
  · exact (nomatch h)
  simp only [Option.bind_eq_some_iff] at h
  obtain ⟨x, _, y, _, h⟩ := h
  split at h
  · exact (nomatch h)
  exact ⟨y.1, by rw [← Option.some.inj h]⟩

theorem dec_log_other (fs : FS) (out p : Path) (a : List Byte) (h : p ≠ out) :
    applyOps fs (FsOp.trunc out :: a.map (FsOp.put out)) p = fs p := by
  apply applyOps_other
  intro o ho
  simp only [List.mem_cons, List.mem_map] at ho
  rcases ho with rfl | ⟨x, _, rfl⟩ <;> exact Ne.symm h

theorem gcm_files_work (E : Block → Block) : FilesWork gcmFns E xorComb xorComb
    (fun c v => c.block = E ∧ toBV c.y = v) (fun c v => c.block = E ∧ toBV c.y = v) where
  enc := by
    rintro c v j fs i o d ⟨hb, hv⟩ h1 h2 hd
    obtain ⟨r, tag, a1, _, a3, a4, a5, a6⟩ := C111_encrypt c j fs i o d h1 h2 hd
    obtain ⟨x, y, hl⟩ := gcmfileEncrypt_log a1
    refine ⟨r.ctx, r.log, tag, by simp only [gcmFns, a1, Option.map_some], a3, ?_, ?_, ?_, ?_, ?_⟩
    · rw [a4, hb, hv, stream_xor]
    · rw [hl]; exact (log_result fs _ o x y (tmpPath_ne o)).2
    · intro p p1 p2; rw [hl]; exact enc_log_other fs _ _ p x y p1 p2
    · rw [a5, hb]
    · rw [a6, hv, incN_iter]
  dec := by
    rintro c v fs i o tag body j ⟨hb, hv⟩ h1 ht hd hl
    obtain ⟨r, a1, _, a3, a4, a5⟩ := C111_decrypt c fs i o tag body j h1 ht hd hl
    obtain ⟨x, hx⟩ := gcmfileDecrypt_log a1
    refine ⟨r.ctx, r.log, by simp only [gcmFns, a1, Option.map_some], ?_, ?_, ?_, ?_⟩
    · rw [a3, hb, hv, stream_xor]
    · intro p p1; rw [hx]; exact dec_log_other fs _ p x p1
    · rw [a4, hb]
    · rw [a5, hv, incN_iter]
  missing := by
    intro c j fs i o h
    simp only [gcmFns, ((C63_missing_or_short_input c j fs i o).1 h).1, Option.map_none]

theorem wb_files_work (E : Block → Block) (enc enc' : Fin 16 → Byte → Byte) (f g : Comb) : FilesWork wbFns E f g
    (fun w v => Boxed w E enc f ∧ toBV w.g.y = v) (fun w v => Boxed w E enc' g ∧ toBV w.g.y = v) where
  enc := by
    rintro c v j fs i o d ⟨hb, hv⟩ h1 h2 hd
    obtain ⟨r, tag, a1, _, a3, a4, a5, a6⟩ := wb_enc_file hb j fs i o d h1 h2 hd
    obtain ⟨x, y, hl⟩ := wbgcmfileEncrypt_log a1
    refine ⟨r.ctx, r.log, tag, by simp only [wbFns, a1, Option.map_some], a3, ?_, ?_, ?_, a5, ?_⟩
    · rw [a4, hv]
    · rw [hl]; exact (log_result fs _ o x y (tmpPath_ne o)).2
    · intro p p1 p2; rw [hl]; exact enc_log_other fs _ _ p x y p1 p2
    · rw [a6, hv, incN_iter]
  dec := by
    rintro c v fs i o tag body j ⟨hb, hv⟩ h1 ht hd hl
    obtain ⟨r, a1, _, a3, a4, a5⟩ := wb_dec_file hb fs i o tag body j h1 ht hd hl
    obtain ⟨x, hx⟩ := wbgcmfileDecrypt_log a1
    refine ⟨r.ctx, r.log, by simp only [wbFns, a1, Option.map_some], ?_, ?_, a4, ?_⟩
    · rw [a3, hv]
    · intro p p1; rw [hx]; exact dec_log_other fs _ p x p1
    · rw [a5, hv, incN_iter]
  missing := by
    intro c j fs i o h
    simp only [wbFns, wbgcmfileEncrypt, h, Option.bind_eq_bind, Option.bind_none, Option.map_none]

/-! ### the loops -/

/-- The blocks of a file. -/
def blocksOf (d : List Byte) : Nat := (d.length + 15) / 16

section
variable {κ : Type} {F : FileFns κ} {E : Block → Block} {f g : Comb} {encAt decAt : κ → BitVec 128 → Prop}

/-- Paths that the program reads and does not write. -/
def PerfInp (p : Path) : Prop := p ≠ perfEncPath ∧ p ≠ tmpPath perfEncPath ∧ p ≠ perfDecPath

theorem perfEncLoop_run (W : FilesWork F E f g encAt decAt) (junk : Nat → Vector Byte 4) (p : Path) (hp : PerfInp p) (d : List Byte)
    (n : Nat) : ∀ (c : κ) (v : BitVec 128) (fs : FS), encAt c v → fs p = some d →
    ∃ c' fs' tag, perfEncLoop F junk p (n + 1) (c, fs) = some (c', fs') ∧ encAt c' (incN ((n + 1) * blocksOf d) v) ∧ tag.length = 16 ∧
      fs' perfEncPath = some (tag ++ sizeBuf d.length (junk 0) ++ stream f E (incN (n * blocksOf d + 1) v) d) ∧
      fs' (tmpPath perfEncPath) = none ∧ (∀ q, q ≠ perfEncPath → q ≠ tmpPath perfEncPath → fs' q = fs q) := by
  induction n with
  | zero =>
    intro c v fs hc hd
    obtain ⟨c', log, tag, a1, a2, a3, a4, a5, a6⟩ := W.enc c v (junk 0) fs p perfEncPath d hc hp.1 hp.2.1 hd
    refine ⟨c', applyOps fs log, tag, by rw [perfEncLoop, a1]; rfl, ?_, a2, ?_, a4, a5⟩
    · rw [Nat.zero_add, Nat.one_mul]; exact a6
    · rw [a3, Nat.zero_mul]; rfl
  | succ n ih =>
    intro c v fs hc hd
    obtain ⟨c', log, tag, a1, a2, a3, a4, a5, a6⟩ := W.enc c v (junk (n + 1)) fs p perfEncPath d hc hp.1 hp.2.1 hd
    obtain ⟨c2, fs2, tag2, b1, b2, b3, b4, b5, b6⟩ := ih c' _ (applyOps fs log) a6 (by rw [a5 p hp.1 hp.2.1]; exact hd)
    refine ⟨c2, fs2, tag2, by rw [perfEncLoop, a1]; exact b1, ?_, b3, ?_, b5, fun q q1 q2 => by rw [b6 q q1 q2, a5 q q1 q2]⟩
    · rw [← incN_add] at b2
      rw [show (n + 1 + 1) * blocksOf d = (n + 1) * blocksOf d + (d.length + 15) / 16 by unfold blocksOf; ring]
      exact b2
    · rw [b4, ← incN_add]
      rw [show (n + 1) * blocksOf d + 1 = n * blocksOf d + 1 + (d.length + 15) / 16 by unfold blocksOf; ring]

theorem perfDecLoop_run (W : FilesWork F E f g encAt decAt) (tag body : List Byte) (j : Vector Byte 4) (ht : tag.length = 16)
    (hl : body.length < 2 ^ 31) (n : Nat) : ∀ (c : κ) (v : BitVec 128) (fs : FS), decAt c v →
    fs perfEncPath = some (tag ++ sizeBuf body.length j ++ body) →
    ∃ c' fs', perfDecLoop F n (c, fs) =
        some ((c', fs'), (List.range n).map fun k => some (stream g E (incN (k * blocksOf body + 1) v) body)) ∧
      decAt c' (incN (n * blocksOf body) v) ∧ (∀ q, q ≠ perfDecPath → fs' q = fs q) := by
  induction n with
  | zero => intro c v fs hc _; exact ⟨c, fs, rfl, by rw [Nat.zero_mul]; exact hc, fun _ _ => rfl⟩
  | succ n ih =>
    intro c v fs hc hd
    obtain ⟨c', log, a1, a2, a3, a4⟩ := W.dec c v fs perfEncPath perfDecPath tag body j hc perf_paths_ne ht hd hl
    obtain ⟨c2, fs2, b1, b2, b3⟩ := ih c' _ (applyOps fs log) a4 (by rw [a3 _ perf_paths_ne]; exact hd)
    refine ⟨c2, fs2, ?_, ?_, fun q hq => by rw [b3 q hq, a3 q hq]⟩
    · rw [perfDecLoop, a1, Option.bind_some, b1, Option.bind_some, a2, List.range_succ_eq_map, List.map_cons, List.map_map]
      refine congrArg (fun l => some ((c2, fs2), l)) (congrArg₂ List.cons ?_ ?_)
      · rw [Nat.zero_mul, Nat.zero_add, incN_one]
      · apply List.map_congr_left
        intro k _
        rw [Function.comp_apply, ← incN_add, show (k.succ) * blocksOf body + 1 = k * blocksOf body + 1 + (body.length + 15) / 16 by
          unfold blocksOf; rw [Nat.succ_mul]; ring]
    · rw [← incN_add] at b2
      rw [show (n + 1) * blocksOf body = n * blocksOf body + (body.length + 15) / 16 by unfold blocksOf; ring]
      exact b2

/-- What the ten decryptions of the file `d` give if both contexts stand at `v`: the tenth encryption starts `9` files further. -/
def tenDecryptions (E : Block → Block) (v : BitVec 128) (d : List Byte) : List (List Byte) :=
  (List.range 10).map fun k => gctr E (incN (k * blocksOf d + 1) v) (gctr E (incN (9 * blocksOf d + 1) v) d)

theorem perfFile_run (W : FilesWork F E f g encAt decAt) (hfg : ∀ i a e e', g i (f i a e) e' = a ^^^ e ^^^ e')
    (junk : Nat → Vector Byte 4) (p : Path) (hp : PerfInp p)
    (d : List Byte) (s : PerfState κ) (v : BitVec 128) (he : encAt s.enc v) (hc : decAt s.dec v) (hd : s.fs p = some d)
    (hl : d.length < 2 ^ 31) :
    ∃ s', perfFile F junk p s = some (s', (tenDecryptions E v d).map some) ∧
      encAt s'.enc (incN (10 * blocksOf d) v) ∧ decAt s'.dec (incN (10 * blocksOf d) v) ∧
      s'.fs perfEncPath = none ∧ s'.fs perfDecPath = none ∧ s'.fs (tmpPath perfEncPath) = none ∧
      (∀ q, PerfInp q → s'.fs q = s.fs q) := by
  obtain ⟨c1, fs1, tag, a1, a2, a3, a4, a5, a6⟩ := perfEncLoop_run W junk p hp d 9 s.enc v s.fs he hd
  have hlen := length_stream f E d (incN (9 * blocksOf d + 1) v)
  have hbl : blocksOf (stream f E (incN (9 * blocksOf d + 1) v) d) = blocksOf d := by
    rw [blocksOf, hlen, ← blocksOf]
  rw [← hlen] at a4
  obtain ⟨c2, fs2, b1, b2, b3⟩ := perfDecLoop_run W tag _ (junk 0) a3 (by rw [hlen]; exact hl) 10 s.dec v fs1 hc a4
  rw [hbl] at b1 b2
  have hrm : ∀ q, q ≠ perfEncPath → q ≠ perfDecPath →
      applyOps fs2 [FsOp.remove perfEncPath, FsOp.remove perfDecPath] q = fs2 q := by
    intro q q1 q2
    apply applyOps_other
    intro o ho
    simp only [List.mem_cons, List.not_mem_nil, or_false] at ho
    rcases ho with rfl | rfl
    · exact Ne.symm q1
    · exact Ne.symm q2
  refine ⟨{ enc := c1, dec := c2, fs := applyOps fs2 [FsOp.remove perfEncPath, FsOp.remove perfDecPath] }, ?_, a2, b2, ?_, ?_, ?_, ?_⟩
  · unfold perfFile
    rw [show testCycles = 9 + 1 from rfl, a1]
    simp only [Option.bind_some]
    rw [b1]
    simp only [Option.bind_some]
    refine congrArg (fun l => some ((_ : PerfState κ), l)) ?_
    rw [tenDecryptions, List.map_map]
    apply List.map_congr_left
    intro k _
    rw [Function.comp_apply, stream_pair f g xorComb xorComb (fun i a e e' => by rw [hfg]; rfl), stream_xor, stream_xor]
  · show applyOp (applyOp fs2 (FsOp.remove perfEncPath)) (FsOp.remove perfDecPath) perfEncPath = none
    rw [applyOp, FsOp.path, if_neg perf_paths_ne, applyOp, FsOp.path, if_pos rfl, FsOp.effect]
  · show applyOp (applyOp fs2 (FsOp.remove perfEncPath)) (FsOp.remove perfDecPath) perfDecPath = none
    rw [applyOp, FsOp.path, if_pos rfl, FsOp.effect]
  · exact (hrm _ (tmpPath_ne _) perf_tmp_ne).trans ((b3 _ perf_tmp_ne).trans a5)
  · intro q hq
    show applyOps fs2 [FsOp.remove perfEncPath, FsOp.remove perfDecPath] q = _
    rw [hrm q hq.1 hq.2.2, b3 q hq.2.2, a6 q hq.1 hq.2.1]

/-- What the program sees of the files `ds` if both contexts stand at `v` before the first. -/
def perfSeen (E : Block → Block) : BitVec 128 → List (List Byte) → List (List (List Byte))
  | _, [] => []
  | v, d :: ds => tenDecryptions E v d :: perfSeen E (incN (10 * blocksOf d) v) ds

theorem perfFiles_run (W : FilesWork F E f g encAt decAt) (hfg : ∀ i a e e', g i (f i a e) e' = a ^^^ e ^^^ e')
    (junk : Path → Nat → Vector Byte 4) (ps : List Path) (ds : List (List Byte)) :
    ∀ (s : PerfState κ) (v : BitVec 128), encAt s.enc v → decAt s.dec v →
    List.Forall₂ (fun p d => PerfInp p ∧ s.fs p = some d ∧ d.length < 2 ^ 31) ps ds →
    ∃ s', perfFiles F junk ps s = some (s', (perfSeen E v ds).map fun l => l.map some) ∧
      (ps ≠ [] → s'.fs perfEncPath = none ∧ s'.fs perfDecPath = none ∧ s'.fs (tmpPath perfEncPath) = none) ∧
      (∀ q, PerfInp q → s'.fs q = s.fs q) := by
  induction ps generalizing ds with
  | nil => intro s v _ _ h; cases h; exact ⟨s, rfl, fun h => absurd rfl h, fun _ _ => rfl⟩
  | cons p ps ih =>
    intro s v he hc h
    cases h with
    | @cons _ d _ ds h1 h2 =>
      obtain ⟨s1, a1, a2, a3, a4, a5, a6, a7⟩ := perfFile_run W hfg (junk p) p h1.1 d s v he hc h1.2.1 h1.2.2
      obtain ⟨s2, b1, b2, b3⟩ := ih ds s1 _ a2 a3 (h2.imp fun q e hq => ⟨hq.1, by rw [a7 q hq.1]; exact hq.2.1, hq.2.2⟩)
      refine ⟨s2, ?_, ?_, fun q hq => by rw [b3 q hq, a7 q hq]⟩
      · rw [perfFiles, a1, Option.bind_some, b1]; rfl
      · intro _
        cases ps with
        | nil => cases h2; obtain rfl : s1 = s2 := (Prod.mk.inj (Option.some.inj b1)).1; exact ⟨a4, a5, a6⟩
        | cons q qs => exact b2 (by simp)

theorem perfFiles_missing (W : FilesWork F E f g encAt decAt) (hfg : ∀ i a e e', g i (f i a e) e' = a ^^^ e ^^^ e')
    (junk : Path → Nat → Vector Byte 4) (ps : List Path) :
    ∀ (s : PerfState κ) (v : BitVec 128), encAt s.enc v → decAt s.dec v →
    (∀ p ∈ ps, PerfInp p ∧ ∀ d, s.fs p = some d → d.length < 2 ^ 31) → (∃ p ∈ ps, s.fs p = none) → perfFiles F junk ps s = none := by
  induction ps with
  | nil => rintro s v _ _ _ ⟨p, hp, _⟩; exact absurd hp (by simp)
  | cons p ps ih =>
    intro s v he hc h hm
    rw [perfFiles]
    cases hd : s.fs p with
    | none =>
      rw [perfFile, show testCycles = 9 + 1 from rfl, perfEncLoop, W.missing _ _ _ _ _ hd]
      rfl
    | some d =>
      have hp := h p List.mem_cons_self
      obtain ⟨s1, a1, a2, a3, _, _, _, a7⟩ := perfFile_run W hfg (junk p) p hp.1 d s v he hc hd (hp.2 d hd)
      rw [a1, Option.bind_some, ih s1 _ a2 a3 ?_ ?_]
      · rfl
      · intro q hq
        have := h q (List.mem_cons_of_mem _ hq)
        exact ⟨this.1, fun e he' => this.2 e (by rw [← a7 q this.1]; exact he')⟩
      · obtain ⟨q, hq, hn⟩ := hm
        rcases List.mem_cons.mp hq with rfl | hq
        · rw [hd] at hn; exact (nomatch hn)
        · exact ⟨q, hq, by rw [a7 q (h q (List.mem_cons_of_mem _ hq)).1]; exact hn⟩

end

/-! ### the ten decryptions -/

theorem zipWith_xor_left (a : List Byte) : ∀ k l : List Byte, a.length ≤ k.length → k.length = l.length →
    List.zipWith (· ^^^ ·) a k = List.zipWith (· ^^^ ·) a l → k.take a.length = l.take a.length := by
  induction a with
  | nil => intro k l _ _ _; simp
  | cons x a ih =>
    intro k l h1 h2 h
    cases k with
    | nil => simp at h1
    | cons y k =>
      cases l with
      | nil => simp at h2
      | cons z l =>
        simp only [List.zipWith_cons_cons, List.cons.injEq] at h
        have hyz : y = z := by
          have := congrArg (x ^^^ ·) h.1
          simpa [← BitVec.xor_assoc] using this
        rw [List.length_cons, List.take_succ_cons, List.take_succ_cons, hyz,
          ih k l (by simpa using h1) (by simpa using h2) h.2]

/-- Key streams from different counters differ in the first block. -/
theorem gctr_ne (E : Block → Block) (hE : Function.Injective E) (u v : BitVec 128) (huv : u ≠ v) (d : List Byte) (hd : 16 ≤ d.length) :
    gctr E u (gctr E v d) ≠ d := by
  intro h
  have h' : gctr E v d = gctr E u d := by
    have := congrArg (gctr E u) h
    rwa [gctr_gctr] at this
  have hne : d ≠ [] := by rintro rfl; simp at hd
  rw [gctr_step E v d hne, gctr_step E u d hne] at h'
  have hl : (List.zipWith (fun a b => a ^^^ b) (d.take 16) (E (ofBV v)).toList).length =
      (List.zipWith (fun a b => a ^^^ b) (d.take 16) (E (ofBV u)).toList).length := by simp
  have h1 := zipWith_xor_left (d.take 16) _ _ (by simp) (by simp) (List.append_inj h' hl).1
  rw [List.length_take, Nat.min_eq_left hd, List.take_of_length_le (by simp), List.take_of_length_le (by simp)] at h1
  exact huv (ofBV_inj'.mp (hE (Vector.toList_inj.mp h1))).symm

theorem tenDecryptions_get (E : Block → Block) (v : BitVec 128) (d : List Byte) (k : Nat) (hk : k < 10) :
    (tenDecryptions E v d)[k]? = some (gctr E (incN (k * blocksOf d + 1) v) (gctr E (incN (9 * blocksOf d + 1) v) d)) := by
  rw [tenDecryptions, List.getElem?_map, List.getElem?_range hk]
  rfl

theorem perfSeen_get (E : Block → Block) (ds : List (List Byte)) : ∀ (v : BitVec 128) (i : Nat) (hi : i < ds.length),
    (perfSeen E v ds)[i]? = some (tenDecryptions E (incN (10 * ((ds.take i).map blocksOf).sum) v) ds[i]) := by
  induction ds with
  | nil => intro v i hi; simp at hi
  | cons d ds ih =>
    intro v i hi
    cases i with
    | zero => rfl
    | succ i =>
      rw [perfSeen, List.getElem?_cons_succ, ih _ i (by simpa using hi), ← incN_add, List.take_succ_cons, List.map_cons, List.sum_cons,
        List.getElem_cons_succ, Nat.mul_add, Nat.add_comm]

/-- The contents that the program meets: file `i`, decryption `k`. -/
def Met (seen : List (List (Option (List Byte)))) (i k : Nat) (x : List Byte) : Prop := (seen[i]?.bind (·[k]?)) = some (some x)

/-- What the decryptions give: every one has the length of the file; the tenth is the file; the others are files of another content,
if the block cipher is injective and the file has at least one block. -/
def NineOfTen (E : Block → Block) (ds : List (List Byte)) (seen : List (List (Option (List Byte)))) : Prop :=
  seen.length = ds.length ∧ ∀ (i k : Nat) (hi : i < ds.length), k < 10 → ∃ x, Met seen i k x ∧ x.length = ds[i].length ∧
    (k = 9 → x = ds[i]) ∧ (Function.Injective E → 16 ≤ ds[i].length → k < 9 → x ≠ ds[i])

theorem perfSeen_length (E : Block → Block) (ds : List (List Byte)) : ∀ v, (perfSeen E v ds).length = ds.length := by
  induction ds with
  | nil => intro v; rfl
  | cons d ds ih => intro v; rw [perfSeen, List.length_cons, ih, List.length_cons]

theorem nineOfTen_seen (E : Block → Block) (v : BitVec 128) (ds : List (List Byte)) (hl : ∀ d ∈ ds, d.length < 2 ^ 31) :
    NineOfTen E ds ((perfSeen E v ds).map fun l => l.map some) := by
  refine ⟨by rw [List.length_map, perfSeen_length], fun i k hi hk => ?_⟩
  refine ⟨_, by
    rw [Met, List.getElem?_map, perfSeen_get E ds v i hi, Option.map_some, Option.bind_some, List.getElem?_map,
      tenDecryptions_get _ _ _ k hk, Option.map_some], by rw [length_gctr, length_gctr], ?_, ?_⟩
  · rintro rfl; rw [gctr_gctr]
  · intro hE h16 h9
    refine gctr_ne E hE _ _ ?_ _ h16
    intro h
    rw [incN_eq_iff] at h
    have h1 := hl ds[i] (List.getElem_mem hi)
    have h2 : 1 ≤ blocksOf ds[i] := by unfold blocksOf; omega
    have h3 : blocksOf ds[i] ≤ 2 ^ 27 := by unfold blocksOf; omega
    have h4 : (k + 1) * blocksOf ds[i] ≤ 9 * blocksOf ds[i] := Nat.mul_le_mul_right _ (by omega)
    rw [Nat.succ_mul] at h4
    rw [Nat.mod_eq_of_lt (by omega), Nat.mod_eq_of_lt (by omega)] at h
    omega

/-! ### the results -/

theorem perfPaths_inp : ∀ p ∈ perfPaths, PerfInp p := by
  intro p hp
  unfold PerfInp
  revert p
  decide

/-- How many of the six files the program measures: it divides the size of an array of pointers by 8. -/
def measuredFiles (ptr : Nat) : List Path := if ptr = 8 then perfPaths else perfPaths.take 3

theorem measured_eq (ptr : Nat) (hp : ptr = 4 ∨ ptr = 8) {κ : Type} (F : FileFns κ) (junk : Path → Nat → Vector Byte 4) (s : PerfState κ) :
    perfProgram F ptr junk s = perfFiles F junk (measuredFiles ptr) s := by
  rcases hp with rfl | rfl <;> rfl

theorem measured_inp (ptr : Nat) : ∀ p ∈ measuredFiles ptr, PerfInp p := by
  intro p hp
  unfold measuredFiles at hp
  split at hp
  · exact perfPaths_inp p hp
  · exact perfPaths_inp p (List.mem_of_mem_take hp)

theorem measured_ne (ptr : Nat) : measuredFiles ptr ≠ [] := by
  unfold measuredFiles
  split <;> exact List.cons_ne_nil _ _

/-- The files that are measured exist with the contents `ds`, none of `2^31` bytes or more. -/
def Present (ptr : Nat) (fs : FS) (ds : List (List Byte)) : Prop :=
  List.Forall₂ (fun p d => fs p = some d ∧ d.length < 2 ^ 31) (measuredFiles ptr) ds

theorem forall2_inp {fs : FS} {ps : List Path} {ds : List (List Byte)} (hi : ∀ p ∈ ps, PerfInp p)
    (h : List.Forall₂ (fun p d => fs p = some d ∧ d.length < 2 ^ 31) ps ds) :
    List.Forall₂ (fun p d => PerfInp p ∧ fs p = some d ∧ d.length < 2 ^ 31) ps ds := by
  induction h with
  | nil => exact .nil
  | cons h _ ih => exact .cons ⟨hi _ List.mem_cons_self, h⟩ (ih fun p hp => hi p (List.mem_cons_of_mem _ hp))

theorem forall2_len {fs : FS} {ps : List Path} {ds : List (List Byte)}
    (h : List.Forall₂ (fun p d => fs p = some d ∧ d.length < 2 ^ 31) ps ds) : ∀ d ∈ ds, d.length < 2 ^ 31 := by
  induction h with
  | nil => intro d hd; exact (nomatch hd)
  | cons h _ ih =>
    intro d hd
    rcases List.mem_cons.mp hd with rfl | hd
    · exact h.2
    · exact ih d hd

theorem program_run {κ : Type} {F : FileFns κ} {E : Block → Block} {f g : Comb} {encAt decAt : κ → BitVec 128 → Prop}
    (W : FilesWork F E f g encAt decAt) (hfg : ∀ i a e e', g i (f i a e) e' = a ^^^ e ^^^ e') (ptr : Nat) (hp : ptr = 4 ∨ ptr = 8)
    (junk : Path → Nat → Vector Byte 4) (s : PerfState κ) (v : BitVec 128) (he : encAt s.enc v) (hc : decAt s.dec v)
    (ds : List (List Byte)) (hd : Present ptr s.fs ds) :
    ∃ s' seen, perfProgram F ptr junk s = some (s', seen) ∧ NineOfTen E ds seen ∧
      s'.fs perfEncPath = none ∧ s'.fs perfDecPath = none ∧ s'.fs (tmpPath perfEncPath) = none ∧
      (∀ q, q ≠ perfEncPath → q ≠ tmpPath perfEncPath → q ≠ perfDecPath → s'.fs q = s.fs q) := by
  obtain ⟨s', a1, a2, a3⟩ := perfFiles_run W hfg junk _ ds s v he hc (forall2_inp (measured_inp ptr) hd)
  obtain ⟨b1, b2, b3⟩ := a2 (measured_ne ptr)
  exact ⟨s', _, by rw [measured_eq ptr hp]; exact a1, nineOfTen_seen E v ds (forall2_len hd), b1, b2, b3,
    fun q h1 h2 h3 => a3 q ⟨h1, h2, h3⟩⟩

theorem program_missing {κ : Type} {F : FileFns κ} {E : Block → Block} {f g : Comb} {encAt decAt : κ → BitVec 128 → Prop}
    (W : FilesWork F E f g encAt decAt) (hfg : ∀ i a e e', g i (f i a e) e' = a ^^^ e ^^^ e') (ptr : Nat) (hp : ptr = 4 ∨ ptr = 8)
    (junk : Path → Nat → Vector Byte 4) (s : PerfState κ) (v : BitVec 128) (he : encAt s.enc v) (hc : decAt s.dec v)
    (hl : ∀ p d, s.fs p = some d → d.length < 2 ^ 31) (hm : ∃ p ∈ measuredFiles ptr, s.fs p = none) :
    perfProgram F ptr junk s = none := by
  rw [measured_eq ptr hp]
  exact perfFiles_missing W hfg junk _ s v he hc (fun p h => ⟨measured_inp ptr p h, hl p⟩) hm

theorem gcm_start_at (E : Block → Block) (iv aad : List Byte) (hiv : iv.length < 2 ^ 29) :
    (gcmAad (gcmSetiv (gcmInit E) iv) aad).block = E ∧ toBV (gcmAad (gcmSetiv (gcmInit E) iv) aad).y = j0 E iv :=
  ⟨rfl, by
    show toBV (gcmSetiv (gcmInit E) iv).y = _
    rw [setiv_y _ (init_ok E) iv hiv]; rfl⟩

/-- C132: `test_aes_gcmfile`, `test_sm4_gcmfile`, `test_wbaes_gcmfile` and `test_wbsm4_gcmfile`, for any block cipher, IV and AAD. If the
files exist, the program ends, leaves them as they are and removes its own; of the ten decryptions of each file that are timed,
nine are of a file that the context cannot decrypt any more and the tenth restores it. -/
theorem C132_files (E : Block → Block) (iv aad aad' : List Byte) (hiv : iv.length < 2 ^ 29) (ptr : Nat) (hp : ptr = 4 ∨ ptr = 8)
    (junk : Path → Nat → Vector Byte 4) (fs : FS) (ds : List (List Byte)) (hd : Present ptr fs ds) :
    ∃ s' seen, perfProgram gcmFns ptr junk
        ⟨gcmAad (gcmSetiv (gcmInit E) iv) aad, gcmAad (gcmSetiv (gcmInit E) iv) aad', fs⟩ = some (s', seen) ∧ NineOfTen E ds seen ∧
      s'.fs perfEncPath = none ∧ s'.fs perfDecPath = none ∧ s'.fs (tmpPath perfEncPath) = none ∧
      (∀ q, q ≠ perfEncPath → q ≠ tmpPath perfEncPath → q ≠ perfDecPath → s'.fs q = fs q) :=
  program_run (gcm_files_work E) (fun _ _ _ _ => rfl) ptr hp junk _ (j0 E iv) (gcm_start_at E iv aad hiv) (gcm_start_at E iv aad' hiv)
    ds hd

/-- C132: if one of the files that are measured is missing (the repository has a script that makes them), the program is
undefined. -/
theorem C132_files_missing (E : Block → Block) (iv aad aad' : List Byte) (hiv : iv.length < 2 ^ 29) (ptr : Nat) (hp : ptr = 4 ∨ ptr = 8)
    (junk : Path → Nat → Vector Byte 4) (fs : FS) (hl : ∀ p d, fs p = some d → d.length < 2 ^ 31)
    (hm : ∃ p ∈ measuredFiles ptr, fs p = none) :
    perfProgram gcmFns ptr junk ⟨gcmAad (gcmSetiv (gcmInit E) iv) aad, gcmAad (gcmSetiv (gcmInit E) iv) aad', fs⟩ = none :=
  program_missing (gcm_files_work E) (fun _ _ _ _ => rfl) ptr hp junk _ (j0 E iv) (gcm_start_at E iv aad hiv)
    (gcm_start_at E iv aad' hiv) hl hm

/-- AES is injective: its inverse is in Spec/AesInv. -/
theorem aes128_injective (key : Block) : Function.Injective (aes128 key) := by
  have hx : ∀ a b k : Block, a ^^^ k = b ^^^ k → a = b := by
    intro a b k h
    apply Vector.ext
    intro i hi
    have h1 := congrArg (fun v : Block => v[i] ^^^ k[i]) h
    simpa only [Vec.getElem_xor, BitVec.xor_assoc, BitVec.xor_self, BitVec.xor_zero] using h1
  have hr : ∀ n x y, aesRounds key x n = aesRounds key y n → x = y := by
    intro n
    induction n with
    | zero => intro x y h; exact hx _ _ _ h
    | succ n ih =>
      intro x y h
      have h1 := congrArg invMixColumns (hx _ _ _ h)
      rw [invMix_mix, invMix_mix] at h1
      have h2 := congrArg (fun s => invShiftRows (invSubBytes s)) h1
      simp only [inv_sub_shift] at h2
      exact ih x y h2
  intro x y h
  have h1 := congrArg (fun s => invShiftRows (invSubBytes s)) (hx _ _ _ h)
  simp only [inv_sub_shift] at h1
  exact hr 9 x y h1

theorem program_wb {w w' : WbGcmCtx} {E : Block → Block} {enc enc' : Fin 16 → Byte → Byte} {f g : Comb} (B : Boxed w E enc f)
    (B' : Boxed w' E enc' g) (hfg : ∀ i a e e', g i (f i a e) e' = a ^^^ e ^^^ e')
    (iv aad aad' : List Byte) (hiv : iv.length < 2 ^ 29) (ptr : Nat) (hp : ptr = 4 ∨ ptr = 8)
    (junk : Path → Nat → Vector Byte 4) (fs : FS) (ds : List (List Byte)) (hd : Present ptr fs ds) :
    ∃ s' seen, perfProgram wbFns ptr junk
        ⟨wbgcmAad (wbgcmSetiv w iv) aad, wbgcmAad (wbgcmSetiv w' iv) aad', fs⟩ = some (s', seen) ∧ NineOfTen E ds seen ∧
      s'.fs perfEncPath = none ∧ s'.fs perfDecPath = none ∧ s'.fs (tmpPath perfEncPath) = none ∧
      (∀ q, q ≠ perfEncPath → q ≠ tmpPath perfEncPath → q ≠ perfDecPath → s'.fs q = fs q) := by
  have hy : toBV (wbgcmAad (wbgcmSetiv w iv) aad).g.y = j0 E iv := wbsetiv_y B iv hiv
  have hy' : toBV (wbgcmAad (wbgcmSetiv w' iv) aad').g.y = j0 E iv := wbsetiv_y B' iv hiv
  have hb := wbaad_boxed B iv aad
  have hb' := wbaad_boxed B' iv aad'
  generalize wbgcmAad (wbgcmSetiv w iv) aad = u at hy hb ⊢
  generalize wbgcmAad (wbgcmSetiv w' iv) aad' = u' at hy' hb' ⊢
  exact program_run (wb_files_work E enc enc' f g) hfg ptr hp junk ⟨u, u', fs⟩ (j0 E iv) ⟨hb, hy⟩ ⟨hb', hy'⟩ ds hd

/-- C132: `test_wbaes_wbgcmfile_ee`: both contexts use one table. -/
theorem C132_files_ee (r : WbaesRnd) (r1 r2 : Fin 16 → Nat → BitVec 32) (jt : Vector (Fin 256) 256) (key : Block)
    (iv aad aad' : List Byte) (hiv : iv.length < 2 ^ 29) (ptr : Nat) (hp : ptr = 4 ∨ ptr = 8)
    (junk : Path → Nat → Vector Byte 4) (fs : FS) (ds : List (List Byte)) (hd : Present ptr fs ds) :
    ∃ s' seen, perfProgram wbFns ptr junk
        ⟨wbgcmAad (wbgcmSetiv (wbEeInit (wbEeGenTable r r1 r2 jt key)) iv) aad,
          wbgcmAad (wbgcmSetiv (wbEeInit (wbEeGenTable r r1 r2 jt key)) iv) aad', fs⟩ = some (s', seen) ∧
      NineOfTen (aes128 key) ds seen ∧
      s'.fs perfEncPath = none ∧ s'.fs perfDecPath = none ∧ s'.fs (tmpPath perfEncPath) = none ∧
      (∀ q, q ≠ perfEncPath → q ≠ tmpPath perfEncPath → q ≠ perfDecPath → s'.fs q = fs q) :=
  program_wb (ee_boxed r r1 r2 jt key) (ee_boxed r r1 r2 jt key) (fun _ _ _ _ => rfl) iv aad aad' hiv ptr hp junk fs ds hd

/-- C132: `test_wbaes_wbgcmfile_mask`. -/
theorem C132_files_mask (re rd : WbaesRnd) (roe rod : Fin 16 → Fin 2 → Nat → BitVec 32) (r : WbMaskRnd) (key : Block)
    (iv aad aad' : List Byte) (hiv : iv.length < 2 ^ 29) (ptr : Nat) (hp : ptr = 4 ∨ ptr = 8)
    (junk : Path → Nat → Vector Byte 4) (fs : FS) (ds : List (List Byte)) (hd : Present ptr fs ds) :
    ∃ s' seen, perfProgram wbFns ptr junk
        ⟨wbgcmAad (wbgcmSetiv (wbMaskInit (wbMaskGenTable re rd roe rod r key).1) iv) aad,
          wbgcmAad (wbgcmSetiv (wbMaskInit (wbMaskGenTable re rd roe rod r key).2) iv) aad', fs⟩ = some (s', seen) ∧
      NineOfTen (aes128 key) ds seen ∧
      s'.fs perfEncPath = none ∧ s'.fs perfDecPath = none ∧ s'.fs (tmpPath perfEncPath) = none ∧
      (∀ q, q ≠ perfEncPath → q ≠ tmpPath perfEncPath → q ≠ perfDecPath → s'.fs q = fs q) :=
  program_wb (mask_enc_boxed re roe r key) (mask_dec_boxed rd rod r key) (fun i a e e' => by rw [maskL_inv]) iv aad aad' hiv ptr hp
    junk fs ds hd

/-- C132: with AES under any key (`test_aes_gcmfile`, and `test_wbaes_gcmfile` by C15) no decryption but the tenth restores a file of at
least 16 bytes. -/
theorem C132_files_aes (key : Block) (ds : List (List Byte)) (seen : List (List (Option (List Byte))))
    (h : NineOfTen (aes128 key) ds seen) (i k : Nat) (hi : i < ds.length) (hk : k < 10) (h16 : 16 ≤ ds[i].length) :
    Met seen i k ds[i] ↔ k = 9 := by
  obtain ⟨x, a1, _, a3, a4⟩ := h.2 i k hi hk
  constructor
  · intro hm
    rw [Met] at hm a1
    rw [hm] at a1
    have hx : ds[i] = x := Option.some.inj (Option.some.inj a1)
    by_contra hne
    exact a4 (aes128_injective key) h16 (by omega) hx.symm
  · intro h9; rw [← a3 h9]; exact a1

/-- Six files of 1 KB and so on need not be so long for the hypotheses: here every file has 20 zero bytes. -/
example : Present 8 (fun _ => some (List.replicate 20 0)) (List.replicate 6 (List.replicate 20 0)) := by
  unfold Present measuredFiles perfPaths
  simp

end Verif.Props
