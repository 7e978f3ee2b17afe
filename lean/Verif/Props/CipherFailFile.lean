import Verif.Props.CipherFail

/-! C131, continued: setting the IV, files and the parallel function with a block cipher that reports failure. -/
set_option autoImplicit false

namespace Verif.Props
open Verif Spec Model

/-- C131 (IV): the call in `gcm_setiv` fails and leaves `b` in `base_ectr`. The function returns 0; if the context is used all the same, the
ciphertext is the right one and the tag is the right one xored with the right mask and with `b`. -/
theorem C131_setiv_fails (w : Faults) (n : Nat) (c : GcmCtx) (iv a p out : List Byte) (outlen : Nat) (b : Block)
    (hw : w n (gcmSetiv c iv).y c.baseEctr = some b) (r : GcmResult) (t : List Byte) (cf : GcmCtx)
    (hr : gcmEncrypt (gcmAad (gcmSetiv c iv) a) p out outlen = some r) (ht : gcmFinish r.ctx 16 = some (t, cf)) :
    (gcmSetivF w n c iv).1 = 0 ∧
    ∃ r' cf', gcmEncrypt (gcmAad (gcmSetivF w n c iv).2 a) p out outlen = some r' ∧ r'.out = r.out ∧
      gcmFinish r'.ctx 16 = some (List.zipWith (· ^^^ ·) t (c.block (gcmSetiv c iv).y ^^^ b).toList, cf') := by
  have hs : gcmSetivF w n c iv = (0, { gcmSetiv c iv with baseEctr := b }) := by
    rw [gcmSetivF]; simp only [callF, hw]; rfl
  rw [hs]
  refine ⟨rfl, { r with ctx := { r.ctx with baseEctr := b } }, ?_⟩
  have hb : r.ctx.baseEctr = c.block (gcmSetiv c iv).y ∧
      gcmEncrypt (gcmAad { gcmSetiv c iv with baseEctr := b } a) p out outlen =
        some { r with ctx := { r.ctx with baseEctr := b } } := by
    unfold gcmEncrypt gcmCrypt at hr ⊢
    split at hr
    · next h => rw [if_pos h]; obtain rfl := Option.some.inj hr; exact ⟨rfl, rfl⟩
    · next h =>
      rw [if_neg h]
      simp only [] at hr ⊢
      split at hr
      · next h2 => rw [if_pos h2]; obtain rfl := Option.some.inj hr; exact ⟨rfl, rfl⟩
      · exact (nomatch hr)
  rw [hb.2]
  have key : ∀ (x y z : Block), (z ^^^ y).toList.take 16 =
      List.zipWith (· ^^^ ·) ((x ^^^ y).toList.take 16) (x ^^^ z).toList := by
    intro x y z
    rw [List.take_of_length_le (by simp), List.take_of_length_le (by simp)]
    apply List.ext_getElem (by simp)
    intro k h1 h2
    have hk : k < 16 := by simpa using h1
    simp only [List.getElem_zipWith, Vector.getElem_toList, Vec.getElem_xor]
    rw [BitVec.xor_comm x[k] y[k], BitVec.xor_assoc, ← BitVec.xor_assoc x[k], BitVec.xor_self, BitVec.zero_xor, BitVec.xor_comm]
  have key0 : ∀ (x z : Block), z.toList.take 16 = List.zipWith (· ^^^ ·) (x.toList.take 16) (x ^^^ z).toList := by
    intro x z
    rw [List.take_of_length_le (by simp), List.take_of_length_le (by simp)]
    apply List.ext_getElem (by simp)
    intro k h1 h2
    have hk : k < 16 := by simpa using h1
    simp only [List.getElem_zipWith, Vector.getElem_toList, Vec.getElem_xor]
    rw [← BitVec.xor_assoc, BitVec.xor_self, BitVec.zero_xor]
  unfold gcmFinish at ht ⊢
  rw [if_neg (by decide)] at ht ⊢
  simp only [] at ht ⊢
  split at ht
  · next h =>
    obtain ⟨rfl, rfl⟩ := Prod.mk.inj (Option.some.inj ht)
    rw [if_pos h]
    exact ⟨_, trivial, trivial, congrArg some (Prod.ext (by rw [hb.1]; exact key _ _ _) rfl)⟩
  · next h =>
    obtain ⟨rfl, rfl⟩ := Prod.mk.inj (Option.some.inj ht)
    rw [if_neg h]
    exact ⟨_, trivial, trivial, congrArg some (Prod.ext (by rw [hb.1]; exact key0 _ _) rfl)⟩

/-- C131 (init): a failing call gives no context. -/
theorem C131_init (E : Block → Block) (w : Faults) (n : Nat) :
    (WorksAt w n → gcmInitF E w n = some (gcmInit E)) ∧ (FailsAt w n → gcmInitF E w n = none) := by
  unfold gcmInitF
  refine ⟨fun h => ?_, fun h => ?_⟩
  · rw [callF_works h]; rfl
  · rw [callF_fails h]; rfl

/-! ### files -/

theorem chunks_len128 {d : List Byte} (h : 128 ≤ d.length) : (chunks (d.take 128)).length = 8 := by
  rw [chunks_count, List.length_take]; omega

theorem fileLoopF_works (dec : Bool) (w : Faults) (e : Nat → Block) (d : List Byte) : ∀ (n : Nat) (c : GcmCtx),
    (∀ k, n ≤ k → WorksAt w k) →
    ∃ k, fileLoopF dec w e n c (fpieces d) = (fileLoop (dirCrypt dec) c (fpieces d)).map fun r => (r.1, r.2, k) := by
  induction d using fpieces_induction with
  | nil => intro n c _; exact ⟨n, rfl⟩
  | step d hd ih =>
    intro n c hw
    have hlen : (d.take 128).length ≤ 128 := by rw [List.length_take]; omega
    rw [fpieces_of_ne_nil hd, fileLoopF, fileLoop]
    rw [cryptF_works dec w n c (e n) (d.take 128) (List.replicate 128 0) _ (by omega) (Nat.le_refl _) (by simp)
      (fun j _ => hw _ (by omega))]
    rw [dirCrypt_eq dec c (d.take 128) _ _ (by omega) (Nat.le_refl _) (by simp)]
    simp only [Option.map_some, Option.bind_eq_bind, Option.bind_some]
    obtain ⟨k, hk⟩ := ih (n + (chunks (d.take 128)).length) { c with
          len := c.len + BitVec.ofNat 64 (d.take 128).length,
          y := ((chunks (d.take 128)).foldl (dirPiece dec c) (c.y, c.buf, [])).1,
          buf := ((chunks (d.take 128)).foldl (dirPiece dec c) (c.y, c.buf, [])).2.1 } (fun k hk => hw k (by omega))
    refine ⟨k, ?_⟩
    rw [hk]
    cases fileLoop (dirCrypt dec) { c with
          len := c.len + BitVec.ofNat 64 (d.take 128).length,
          y := ((chunks (d.take 128)).foldl (dirPiece dec c) (c.y, c.buf, [])).1,
          buf := ((chunks (d.take 128)).foldl (dirPiece dec c) (c.y, c.buf, [])).2.1 } (fpieces (d.drop 128)) with
    | none => rfl
    | some r => rfl

theorem fileLoop_dir_out (dec : Bool) (d : List Byte) (c : GcmCtx) :
    ∃ c', fileLoop (dirCrypt dec) c (fpieces d) = some (gctr c.block (inc32 (toBV c.y)) d, c') := by
  cases dec
  · exact ⟨_, (enc_loop_any d c).trans (by rw [show ((chunks d).foldl (encPiece c) (c.y, c.buf, [])).2.2 = _ from dir_fold_out false c d _ _])⟩
  · exact ⟨_, (dec_loop_any d c).trans (by rw [show ((chunks d).foldl (decPiece c) (c.y, c.buf, [])).2.2 = _ from dir_fold_out true c d _ _])⟩

/-- The bytes produced when exactly one call fails. -/
theorem fileLoopF_one (dec : Bool) (w : Faults) (e : Nat → Block) (d : List Byte) : ∀ (n i : Nat) (c : GcmCtx), 16 * i < d.length →
    (∀ k, k ≠ n + i → WorksAt w k) → FailsAt w (n + i) →
    ∃ c' k, fileLoopF dec w e n c (fpieces d) = some
      (gctr c.block (incN 1 (toBV c.y)) (d.take (16 * i)) ++ List.replicate (min (128 * (i / 8 + 1)) d.length - 16 * i) 0 ++
        gctr c.block (incN (i + 2) (toBV c.y)) (d.drop (128 * (i / 8 + 1))), c', k) := by
  induction d using fpieces_induction with
  | nil => intro n i c h; simp at h
  | step d hd ih =>
    intro n i c hi hw hf
    have hlen : (d.take 128).length = min 128 d.length := List.length_take
    rw [fpieces_of_ne_nil hd, fileLoopF]
    by_cases h8 : i < 8
    · obtain ⟨r, h1, h2, h3, h4⟩ := C131_crypt_fails dec w n i c (e n) (d.take 128) (List.replicate 128 0) (d.take 128).length
        (by omega) (Nat.le_refl _) (by rw [List.length_replicate]; omega) (by omega) (fun j hj => hw _ (by omega)) hf
      rw [h4]
      simp only [Option.bind_eq_bind, Option.bind_some]
      have hblk : r.ctx.block = c.block := by
        have hlt : ((d.take 128).take (16 * i)).length = 16 * i := by rw [List.length_take]; omega
        rw [dirCrypt_eq dec c _ _ _ (by omega) (by omega) (by rw [List.length_replicate]; omega)] at h1
        obtain rfl := Option.some.inj h1
        rfl
      obtain ⟨k, hk⟩ := fileLoopF_works dec w e (d.drop 128) (n + i + 1) { r.ctx with
        len := c.len + BitVec.ofNat 64 (d.take 128).length, y := incCtr r.ctx.y 4 (by decide) } (fun k hk => hw k (by omega))
      obtain ⟨c', hc'⟩ := fileLoop_dir_out dec (d.drop 128) { r.ctx with
        len := c.len + BitVec.ofNat 64 (d.take 128).length, y := incCtr r.ctx.y 4 (by decide) }
      refine ⟨c', k, ?_⟩
      rw [hk, hc']
      simp only [Option.map_some, Option.bind_some, h3, hblk]
      have e1 : (d.take 128).take (16 * i) = d.take (16 * i) := by rw [List.take_take]; congr 1; omega
      have e2 : r.out.take (d.take 128).length = gctr c.block (incN 1 (toBV c.y)) (d.take (16 * i)) ++
          List.replicate (min (128 * (i / 8 + 1)) d.length - 16 * i) 0 := by
        have hlg : (gctr c.block (incN 1 (toBV c.y)) (d.take (16 * i))).length = 16 * i := by
          rw [length_gctr, List.length_take]; omega
        rw [h2, e1, show inc32 (toBV c.y) = incN 1 (toBV c.y) from rfl, List.take_append, List.take_of_length_le (by omega), hlg,
          List.drop_replicate, List.take_replicate]
        congr 2
        omega
      rw [e2, show i / 8 = 0 by omega]
      rfl
    · have h128 : 128 ≤ d.length := by omega
      rw [cryptF_works dec w n c (e n) (d.take 128) (List.replicate 128 0) _ (by omega) (Nat.le_refl _)
        (by rw [List.length_replicate]; omega) (fun j hj => hw _ (by rw [chunks_len128 h128] at hj; omega))]
      rw [dirCrypt_eq dec c (d.take 128) _ _ (by omega) (Nat.le_refl _) (by rw [List.length_replicate]; omega), chunks_len128 h128]
      simp only [Option.map_some, Option.bind_eq_bind, Option.bind_some]
      obtain ⟨c', k, h⟩ := ih (n + 8) (i - 8) { c with
          len := c.len + BitVec.ofNat 64 (d.take 128).length,
          y := ((chunks (d.take 128)).foldl (dirPiece dec c) (c.y, c.buf, [])).1,
          buf := ((chunks (d.take 128)).foldl (dirPiece dec c) (c.y, c.buf, [])).2.1 } (by rw [List.length_drop]; omega)
        (fun k hk => hw k (by omega)) (by rwa [show n + 8 + (i - 8) = n + i by omega])
      refine ⟨c', k, ?_⟩
      rw [h]
      simp only [Option.bind_some, dir_fold_y, chunks_len128 h128, ← incN_add]
      rw [List.take_left' (by rw [length_gctr]), show (i - 8) / 8 = i / 8 - 1 by omega, List.length_drop, List.drop_drop,
        show i - 8 + 2 + 8 = i + 2 by omega, show 128 + 128 * (i / 8 - 1 + 1) = 128 * (i / 8 + 1) by omega,
        show min (128 * (i / 8 - 1 + 1)) (d.length - 128) - 16 * (i - 8) = min (128 * (i / 8 + 1)) d.length - 16 * i by omega]
      have e1 : d.take (16 * i) = d.take 128 ++ (d.drop 128).take (16 * (i - 8)) := by
        conv => lhs; rw [show 16 * i = 128 + 16 * (i - 8) by omega]
        exact List.take_add
      rw [e1, gctr_append_aligned _ _ _ _ (by omega), chunks_len128 h128, ← incN_add, show (8 + 1 : Nat) = 1 + 8 by rfl]
      simp only [List.append_assoc]
      rfl

/-- What the file functions produce for the data `d` when call `i` fails: the bytes before that block, zeros up to the end of the
128-byte piece, and the rest with the counters that follow the failed one. -/
def holedStream (E : Block → Block) (v : BitVec 128) (i : Nat) (d : List Byte) : List Byte :=
  gctr E (incN 1 v) (d.take (16 * i)) ++ List.replicate (min (128 * (i / 8 + 1)) d.length - 16 * i) 0 ++
    gctr E (incN (i + 2) v) (d.drop (128 * (i / 8 + 1)))

/-- C131 (files): exactly one call fails during `gcmfile_encrypt`. The function returns 1 all the same. The ciphertext in the file has
zeros from the block of the failed call to the end of the 128-byte piece, and the pieces behind are encrypted with other counters. -/
theorem C131_file_encrypt (w : Faults) (e : Nat → Block) (n i : Nat) (c : GcmCtx) (junk : Vector Byte 4) (fs : FS) (inp out : Path) (d : List Byte)
    (h1 : inp ≠ out) (h2 : inp ≠ tmpPath out) (hd : fs inp = some d) (hi : 16 * i < d.length)
    (hw : ∀ k, k ≠ n + i → WorksAt w k) (hf : FailsAt w (n + i)) :
    ∃ r tag, gcmfileEncryptF w e n c junk fs inp out = some r ∧ r.ret = 1 ∧ tag.length = 16 ∧
      applyOps fs r.log out = some (tag ++ sizeBuf d.length junk ++ holedStream c.block (toBV c.y) i d) := by
  obtain ⟨c1, k, hl⟩ := fileLoopF_one false w e d n i c hi hw hf
  obtain ⟨tag, c2, e3, e4, _⟩ := finish16 c1
  have hr : applyOps fs [FsOp.trunc (tmpPath out), FsOp.trunc out] inp = some d := by
    rw [applyOps_other, hd]
    intro o ho
    simp at ho
    rcases ho with rfl | rfl
    · exact Ne.symm h2
    · exact Ne.symm h1
  refine ⟨{ ret := 1, ctx := c2, log := [FsOp.trunc (tmpPath out), FsOp.trunc out] ++
      (holedStream c.block (toBV c.y) i d).map (FsOp.put (tmpPath out)) ++
      (tag ++ sizeBuf d.length junk ++ holedStream c.block (toBV c.y) i d).map (FsOp.put out) ++ [FsOp.remove (tmpPath out)] },
    tag, ?_, rfl, e4, ?_⟩
  · unfold gcmfileEncryptF
    simp only [hd, hr, hl, e3, Option.bind_eq_bind, Option.bind_some, fpieces_flatten]
    rfl
  · exact (log_result fs (tmpPath out) out _ _ (tmpPath_ne out)).1

/-- C131 (files): the same for `gcmfile_decrypt`. The return value only depends on the size field. -/
theorem C131_file_decrypt (w : Faults) (e : Nat → Block) (n i : Nat) (c : GcmCtx) (fs : FS) (inp out : Path) (content : List Byte)
    (h1 : inp ≠ out) (hd : fs inp = some content) (hl : content.length < 2 ^ 31 + 24) (hi : 16 * i < (content.drop 24).length)
    (hw : ∀ k, k ≠ n + i → WorksAt w k) (hf : FailsAt w (n + i)) :
    ∃ r, gcmfileDecryptF w e n c fs inp out = some r ∧
      r.ret = (if ((content.drop 24).length : Int) = fileSize ((content.drop 16).take 8) then 1 else 0) ∧
      applyOps fs r.log out = some (holedStream c.block (toBV c.y) i (content.drop 24)) := by
  obtain ⟨t, c1, f1, _, f2, f3⟩ := finish16 c
  obtain ⟨c2, k, hloop⟩ := fileLoopF_one true w e (content.drop 24) n i c1 hi hw hf
  rw [f2, f3] at hloop
  have hlen : 24 < content.length := by rw [List.length_drop] at hi; omega
  refine ⟨{ ret := _, ctx := c2, log := FsOp.trunc out :: (holedStream c.block (toBV c.y) i (content.drop 24)).map (FsOp.put out) }, ?_, rfl, ?_⟩
  · unfold gcmfileDecryptF
    simp only [hd, Option.bind_eq_bind, Option.bind_some]
    have n1 : content.take 16 ≠ [] := by
      intro h; have := congrArg List.length h; simp only [List.length_take, List.length_nil] at this; omega
    have n2 : (content.drop 16).take 8 ≠ [] := by
      intro h; have := congrArg List.length h
      simp only [List.length_take, List.length_drop, List.length_nil] at this; omega
    have n3 : ¬ 2 ^ 31 ≤ (content.drop 24).length := by rw [List.length_drop]; omega
    rw [if_neg h1, if_neg n1, if_neg n2]
    simp only [f1, hloop, Option.bind_some]
    rw [if_neg n3]
    rfl
  · show applyOps (applyOp fs (FsOp.trunc out)) _ out = _
    rw [applyOps_put out _ _ [] (by simp [applyOp, FsOp.path, FsOp.effect])]
    rfl

theorem fileLoopF_lost (dec : Bool) (w : Faults) (e : Nat → Block) (d : List Byte) : ∀ (d' : List Byte) (n i : Nat) (c : GcmCtx),
    d'.length = d.length → 16 * i < d.length → (∀ k, k ≠ n + i → WorksAt w k) → FailsAt w (n + i) →
    d.take (16 * i) = d'.take (16 * i) → d.drop (128 * (i / 8 + 1)) = d'.drop (128 * (i / 8 + 1)) →
    fileLoopF dec w e n c (fpieces d) = fileLoopF dec w e n c (fpieces d') := by
  induction d using fpieces_induction with
  | nil => intro d' n i c _ h; simp at h
  | step d hd ih =>
    intro d' n i c hl hi hw hf ht hr
    have hd' : d' ≠ [] := by rw [← List.length_pos_iff]; omega
    have hlen : (d.take 128).length = min 128 d.length := List.length_take
    have hlen' : (d'.take 128).length = min 128 d'.length := List.length_take
    have hll : (d'.take 128).length = (d.take 128).length := by omega
    rw [fpieces_of_ne_nil hd, fpieces_of_ne_nil hd', fileLoopF, fileLoopF]
    by_cases h8 : i < 8
    · obtain ⟨r, h1, h2, h3, h4⟩ := C131_crypt_fails dec w n i c (e n) (d.take 128) (List.replicate 128 0) (d.take 128).length
        (by omega) (Nat.le_refl _) (by rw [List.length_replicate]; omega) (by omega) (fun j hj => hw _ (by omega)) hf
      obtain ⟨r', h1', h2', h3', h4'⟩ := C131_crypt_fails dec w n i c (e n) (d'.take 128) (List.replicate 128 0) (d'.take 128).length
        (by omega) (Nat.le_refl _) (by rw [List.length_replicate]; omega) (by omega) (fun j hj => hw _ (by omega)) hf
      have e1 : (d.take 128).take (16 * i) = d.take (16 * i) := by rw [List.take_take]; congr 1; omega
      have e1' : (d'.take 128).take (16 * i) = d'.take (16 * i) := by rw [List.take_take]; congr 1; omega
      rw [e1', hll, ← ht, ← e1, h1] at h1'
      obtain rfl := Option.some.inj h1'
      rw [show i / 8 = 0 by omega] at hr
      rw [h4, h4', hll, show d'.drop 128 = d.drop 128 from hr.symm]
    · have hp : d.take 128 = d'.take 128 := by
        have := congrArg (List.take 128) ht
        rwa [List.take_take, List.take_take, show min 128 (16 * i) = 128 by omega] at this
      have h128 : 128 ≤ d.length := by omega
      rw [← hp, cryptF_works dec w n c (e n) (d.take 128) (List.replicate 128 0) _ (by omega) (Nat.le_refl _)
        (by rw [List.length_replicate]; omega) (fun j hj => hw _ (by rw [chunks_len128 h128] at hj; omega))]
      rw [dirCrypt_eq dec c (d.take 128) _ _ (by omega) (Nat.le_refl _) (by rw [List.length_replicate]; omega), chunks_len128 h128]
      simp only [Option.map_some, Option.bind_eq_bind, Option.bind_some]
      rw [ih (d'.drop 128) (n + 8) (i - 8) _ (by rw [List.length_drop, List.length_drop, hl]) (by rw [List.length_drop]; omega)
        (fun k hk => hw k (by omega)) (by rwa [show n + 8 + (i - 8) = n + i by omega]) ?_ ?_]
      · have := congrArg (List.drop 128) ht
        rwa [List.drop_take, List.drop_take, show 16 * i - 128 = 16 * (i - 8) by omega] at this
      · rw [List.drop_drop, List.drop_drop, show 128 + 128 * ((i - 8) / 8 + 1) = 128 * (i / 8 + 1) by omega, hr]

/-- C131 (files): the plaintext from the block of the failed call to the end of its 128-byte piece has no influence on anything: two
files that only differ there give the same return value, context and file operations. -/
theorem C131_file_lost (w : Faults) (e : Nat → Block) (n i : Nat) (c : GcmCtx) (junk : Vector Byte 4) (fs fs' : FS) (inp out : Path)
    (d d' : List Byte) (h1 : inp ≠ out) (h2 : inp ≠ tmpPath out) (hd : fs inp = some d) (hd' : fs' inp = some d')
    (hl : d'.length = d.length) (hi : 16 * i < d.length)
    (hsame : ∀ k, k < 16 * i ∨ 128 * (i / 8 + 1) ≤ k → d[k]? = d'[k]?)
    (hw : ∀ k, k ≠ n + i → WorksAt w k) (hf : FailsAt w (n + i)) :
    gcmfileEncryptF w e n c junk fs inp out = gcmfileEncryptF w e n c junk fs' inp out := by
  have hr : ∀ (fs : FS) (d : List Byte), fs inp = some d →
      applyOps fs [FsOp.trunc (tmpPath out), FsOp.trunc out] inp = some d := by
    intro fs d hd
    rw [applyOps_other, hd]
    intro o ho
    simp at ho
    rcases ho with rfl | rfl
    · exact Ne.symm h2
    · exact Ne.symm h1
  have ht : d.take (16 * i) = d'.take (16 * i) := by
    apply List.ext_getElem?
    intro k
    rw [List.getElem?_take, List.getElem?_take]
    split
    · next h => exact hsame k (Or.inl h)
    · rfl
  have hdr : d.drop (128 * (i / 8 + 1)) = d'.drop (128 * (i / 8 + 1)) := by
    apply List.ext_getElem?
    intro k
    rw [List.getElem?_drop, List.getElem?_drop]
    exact hsame _ (Or.inr (by omega))
  unfold gcmfileEncryptF
  simp only [hd, hd', hr fs d hd, hr fs' d' hd', Option.bind_eq_bind, Option.bind_some, hl,
    fileLoopF_lost false w e d d' n i c hl hi hw hf ht hdr]

/-- Two different files of 40 bytes that differ in byte 20 only, with call 1 failing. -/
example : (List.replicate 40 (0 : Byte)).set 20 1 ≠ List.replicate 40 0 ∧
    ∀ k, k < 16 * 1 ∨ 128 * (1 / 8 + 1) ≤ k → ((List.replicate 40 (0 : Byte)).set 20 1)[k]? = (List.replicate 40 0)[k]? :=
  ⟨by decide, fun k hk => by rw [List.getElem?_set_ne (by omega)]⟩

/-! ### the parallel function -/

/-- C131 (parallel): what `block` returns is not looked at. Even if the inner index were private: after all threads are done, a block whose
call failed is the input xored with whatever the call left in the local array, and the function returns 1. -/
theorem C131_parallel (w : Faults) (n : Nat) (e : Nat → Block) (c : GcmCtx) (inbuf out : List Byte) (len j0 : Nat) (assign : Nat → List Nat)
    (hl : 0 < len) (hin : len ≤ inbuf.length) (hout : len ≤ out.length)
    (va : ValidAssign (parBlocks len) assign) (sched : List Nat) :
    ∃ s, parRun (parCfgF false w n e c inbuf len) (parInit out j0 assign) sched = some s ∧
      (s.Done → (parTail c len s.out).ret = 1 ∧ ∀ i b, i < parBlocks len →
        w (n + i) ((yArr c.y (parBlocks len)).1.getD i zeroBlock) (e i) = some b → ∀ j, j < useLen (parBlocks len) len i →
        (parTail c len s.out).out[16 * i + j]? = some (b.toList.getD j 0 ^^^ inbuf.getD (16 * i + j) 0)) := by
  obtain ⟨s, hs, inv⟩ := parRun_inv (g := parCfgF false w n e c inbuf len) (out0 := out) (assign := assign) rfl va rfl hl
    hin hout sched (parInit_inv _ out j0 assign)
  refine ⟨s, hs, fun hd => ⟨rfl, fun i b hi hb j hj => ?_⟩⟩
  obtain ⟨t, ht⟩ := va.cover i hi
  have := inv.done t i ht (by rw [hd t]; exact List.not_mem_nil) j hj
  refine (show (parTail c len s.out).out[16 * i + j]? = s.out[16 * i + j]? from rfl).trans (this.trans ?_)
  unfold byteVal
  simp only [parCfgF, callF, hb]

/-- C131: if no call fails, the functions are those of the other properties. -/
theorem C131_no_failure (w : Faults) (hw : ∀ k, WorksAt w k) (n : Nat) (c : GcmCtx) :
    (∀ iv, gcmSetivF w n c iv = (1, gcmSetiv c iv)) ∧
    (∀ dec e inp out outlen, inp.length < 2 ^ 31 → inp.length ≤ outlen → outlen ≤ out.length →
      (gcmCryptF dec w n c e inp out outlen).map (·.1) = dirCrypt dec c inp out outlen) ∧
    (∀ e junk fs inp out, gcmfileEncryptF w e n c junk fs inp out = gcmfileEncrypt c junk fs inp out) ∧
    (∀ e fs inp out, gcmfileDecryptF w e n c fs inp out = gcmfileDecrypt c fs inp out) ∧
    (∀ sh e inbuf len, parCfgF sh w n e c inbuf len = parCfg sh c inbuf len) := by
  refine ⟨fun iv => ?_, fun dec e inp out outlen hl ho hb => ?_, fun e junk fs inp out => ?_, fun e fs inp out => ?_,
    fun sh e inbuf len => ?_⟩
  · rw [gcmSetivF]
    simp only [callF_works (hw n), if_true]
    rfl
  · rw [cryptF_works dec w n c e inp out outlen hl ho hb (fun j _ => hw _), Option.map_map]
    cases dirCrypt dec c inp out outlen <;> rfl
  · unfold gcmfileEncryptF gcmfileEncrypt
    simp only [Option.bind_eq_bind]
    congr 1
    funext _
    congr 1
    funext data
    obtain ⟨k, hk⟩ := fileLoopF_works false w e data n c (fun k _ => hw k)
    rw [hk, show dirCrypt false = gcmEncrypt from rfl]
    cases fileLoop gcmEncrypt c (fpieces data) <;> rfl
  · unfold gcmfileDecryptF gcmfileDecrypt
    simp only [Option.bind_eq_bind]
    congr 1
    funext content
    split
    · rfl
    · split
      · rfl
      · split
        · rfl
        · congr 1
          funext r
          obtain ⟨k, hk⟩ := fileLoopF_works true w e (content.drop 24) n r.2 (fun k _ => hw k)
          rw [hk, show dirCrypt true = gcmDecrypt from rfl]
          cases fileLoop gcmDecrypt r.2 (fpieces (content.drop 24)) <;> rfl
  · unfold parCfgF parCfg
    simp only [callF_works (hw _)]

end Verif.Props
