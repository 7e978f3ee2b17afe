import Verif.Model.GcmFile
import Verif.Props.Gcm

/-! Properties C24-C26, C62, C63 of `/repo/src/modes/gcmfile.c`. -/
set_option autoImplicit false
set_option linter.unusedSimpArgs false
set_option linter.unnecessarySimpa false

namespace Verif.Props
open Verif.Model Verif.Spec

/-! ### file system lemmas -/

theorem applyOps_append (fs : FS) (a b : List FsOp) : applyOps fs (a ++ b) = applyOps (applyOps fs a) b := by
  simp [applyOps]

theorem applyOps_other (p : Path) (l : List FsOp) : ∀ fs : FS, (∀ o ∈ l, o.path ≠ p) → applyOps fs l p = fs p := by
  induction l with
  | nil => intro fs _; rfl
  | cons o l ih =>
    intro fs h
    show applyOps (applyOp fs o) l p = _
    rw [ih _ (fun x hx => h x (List.mem_cons_of_mem _ hx))]
    simp [applyOp, Ne.symm (h o List.mem_cons_self)]

theorem applyOps_put (p : Path) (d : List Byte) : ∀ (fs : FS) (x : List Byte), fs p = some x →
    applyOps fs (d.map (FsOp.put p)) p = some (x ++ d) := by
  induction d with
  | nil => intro fs x h; simp [applyOps, h]
  | cons b d ih =>
    intro fs x h
    show applyOps (applyOp fs (.put p b)) (d.map (FsOp.put p)) p = _
    rw [ih _ (x ++ [b]) (by simp [applyOp, FsOp.path, FsOp.effect, h])]
    simp

theorem path_put (p : Path) (d : List Byte) : ∀ o ∈ d.map (FsOp.put p), o.path = p := by
  intro o ho
  obtain ⟨b, _, rfl⟩ := List.mem_map.mp ho
  rfl

theorem tmpPath_ne (p : Path) : tmpPath p ≠ p := by
  intro h
  have := congrArg List.length h
  simp [tmpPath] at this

/-! ### the chunk loop -/

theorem fpiecesAux_fuel (n : Nat) : ∀ (m : Nat) (l : List Byte), l.length ≤ n → l.length ≤ m →
    fpiecesAux n l = fpiecesAux m l := by
  induction n with
  | zero =>
    intro m l h _
    have : l = [] := List.length_eq_zero_iff.mp (by omega)
    subst this
    cases m <;> rfl
  | succ n ih =>
    intro m l h1 h2
    cases l with
    | nil => cases m <;> rfl
    | cons b l =>
      cases m with
      | zero => simp at h2
      | succ m =>
        simp only [fpiecesAux]
        rw [ih m _ (by simp at *; omega) (by simp at *; omega)]

theorem fpieces_of_ne_nil {l : List Byte} (h : l ≠ []) : fpieces l = l.take 128 :: fpieces (l.drop 128) := by
  cases l with
  | nil => exact absurd rfl h
  | cons b l =>
    show (b :: l).take 128 :: fpiecesAux l.length ((b :: l).drop 128) = _
    rw [fpiecesAux_fuel l.length ((b :: l).drop 128).length _ (by simp) (Nat.le_refl _)]
    rfl

theorem fpieces_induction {P : List Byte → Prop} (nil : P [])
    (step : ∀ l, l ≠ [] → P (l.drop 128) → P l) : ∀ l, P l := by
  intro l
  suffices H : ∀ n (l : List Byte), l.length ≤ n → P l from H l.length l (Nat.le_refl _)
  intro n
  induction n with
  | zero => intro l h; obtain rfl := List.length_eq_zero_iff.mp (Nat.le_zero.mp h); exact nil
  | succ n ih =>
    intro l h
    by_cases hl : l = []
    · rw [hl]; exact nil
    · exact step l hl (ih _ (by have := List.length_pos_iff.mpr hl; simp; omega))

theorem fpieces_flatten (l : List Byte) : (fpieces l).flatten = l := by
  induction l using fpieces_induction with
  | nil => rfl
  | step l hl ih => rw [fpieces_of_ne_nil hl, List.flatten_cons, ih, List.take_append_drop]

theorem fpieces_length (l : List Byte) : ∀ p ∈ fpieces l, p.length ≤ 128 := by
  induction l using fpieces_induction with
  | nil => intro p hp; simp [fpieces, fpiecesAux] at hp
  | step l hl ih =>
    rw [fpieces_of_ne_nil hl]
    intro p hp
    rcases List.mem_cons.mp hp with rfl | hp
    · simp; omega
    · exact ih p hp

theorem fpieces_aligned (l : List Byte) : Aligned (fpieces l) := by
  induction l using fpieces_induction with
  | nil => trivial
  | step l hl ih =>
    rw [fpieces_of_ne_nil hl]
    by_cases h : l.drop 128 = []
    · rw [h]; trivial
    · rw [fpieces_of_ne_nil h] at ih ⊢
      refine ⟨?_, ih⟩
      have : 128 < l.length := by
        exact Nat.lt_of_not_le (fun hc => h (List.drop_eq_nil_of_le hc))
      simp; omega

theorem fileLoop_enc (ps : List (List Byte)) : ∀ (c : GcmCtx), (∀ p ∈ ps, p.length ≤ 128) →
    fileLoop gcmEncrypt c ps = encPieces c 0 ps := by
  induction ps with
  | nil => intro c _; rfl
  | cons p ps ih =>
    intro c h
    have hp := h p List.mem_cons_self
    have hg := length_gctr c.block (inc32 (toBV c.y)) p
    simp only [fileLoop, encPieces]
    rw [gcmEncrypt_eq c p _ _ (by omega) (Nat.le_refl _) (by simp; omega),
      gcmEncrypt_eq c p _ _ (by omega) (Nat.le_refl _) (by simp)]
    simp only [Option.bind_eq_bind, Option.bind_some]
    rw [ih _ (fun q hq => h q (List.mem_cons_of_mem _ hq))]
    rw [List.take_append_of_le_length (by omega), List.take_of_length_le (by omega)]
    simp

theorem fileLoop_dec (ps : List (List Byte)) : ∀ (c : GcmCtx), (∀ p ∈ ps, p.length ≤ 128) →
    fileLoop gcmDecrypt c ps = decPieces c 0 ps := by
  induction ps with
  | nil => intro c _; rfl
  | cons p ps ih =>
    intro c h
    have hp := h p List.mem_cons_self
    have hg := length_gctr c.block (inc32 (toBV c.y)) p
    simp only [fileLoop, decPieces]
    rw [gcmDecrypt_eq c p _ _ (by omega) (Nat.le_refl _) (by simp; omega),
      gcmDecrypt_eq c p _ _ (by omega) (Nat.le_refl _) (by simp)]
    simp only [Option.bind_eq_bind, Option.bind_some]
    rw [ih _ (fun q hq => h q (List.mem_cons_of_mem _ hq))]
    rw [List.take_append_of_le_length (by omega), List.take_of_length_le (by omega)]
    simp

/-- The chunk loop is one call of GCM encryption on the whole content. -/
theorem fileLoop_enc_eq (c : GcmCtx) (d : List Byte) (h : d.length < 2 ^ 31) :
    ∃ c', fileLoop gcmEncrypt c (fpieces d) = some (gctr c.block (inc32 (toBV c.y)) d, c') ∧
      gcmEncrypt c d (List.replicate d.length 0) d.length =
        some { ret := 1, ctx := c', out := gctr c.block (inc32 (toBV c.y)) d } := by
  have he := gcmEncrypt_eq c d (List.replicate d.length 0) d.length h (Nat.le_refl _) (by simp)
  rw [List.drop_of_length_le (by simp), List.append_nil] at he
  refine ⟨_, ?_, he⟩
  rw [fileLoop_enc _ _ (fpieces_length d)]
  by_cases hd : d = []
  · subst hd
    simp [fpieces, fpiecesAux, encPieces, gctr, gctrPieces]
  · have ha := fpieces_aligned d
    have hf := fpieces_flatten d
    rw [fpieces_of_ne_nil hd] at ha hf ⊢
    rw [C14_streaming_encrypt 0 _ c _ ha (by rw [hf]; exact h), hf]
    simp only [encPieces, he, Option.bind_eq_bind, Option.bind_some]
    simp

theorem fileLoop_dec_eq (c : GcmCtx) (d : List Byte) (h : d.length < 2 ^ 31) :
    ∃ c', fileLoop gcmDecrypt c (fpieces d) = some (gctr c.block (inc32 (toBV c.y)) d, c') := by
  have he := gcmDecrypt_eq c d (List.replicate d.length 0) d.length h (Nat.le_refl _) (by simp)
  rw [List.drop_of_length_le (by simp), List.append_nil] at he
  rw [fileLoop_dec _ _ (fpieces_length d)]
  by_cases hd : d = []
  · subst hd
    simp [fpieces, fpiecesAux, decPieces, gctr, gctrPieces]
  · have ha := fpieces_aligned d
    have hf := fpieces_flatten d
    rw [fpieces_of_ne_nil hd] at ha hf ⊢
    rw [C14_streaming_decrypt 0 _ c _ ha (by rw [hf]; exact h), hf]
    simp only [decPieces, he, Option.bind_eq_bind, Option.bind_some]
    simp

theorem finish16 (c : GcmCtx) : ∃ t c', gcmFinish c 16 = some (t, c') ∧ t.length = 16 ∧ c'.block = c.block ∧ c'.y = c.y := by
  unfold gcmFinish
  rw [if_neg (by omega)]
  simp only []
  split
  · exact ⟨_, _, rfl, by simp, rfl, rfl⟩
  · exact ⟨_, _, rfl, by simp, rfl, rfl⟩

/-! ### the size field -/

theorem fileSize_sizeBuf (n : Nat) (junk : Vector Byte 4) (h : n < 2 ^ 31) : fileSize (sizeBuf n junk) = n := by
  unfold fileSize sizeBuf
  simp only [List.cons_append, List.getD_cons_succ, List.getD_cons_zero]
  have key : ∀ v : BitVec 32,
      (BitVec.zeroExtend 32 ((v >>> 24).truncate 8 : BitVec 8) <<< 24 |||
        BitVec.zeroExtend 32 ((v >>> 16).truncate 8 : BitVec 8) <<< 16 |||
        BitVec.zeroExtend 32 ((v >>> 8).truncate 8 : BitVec 8) <<< 8 |||
        BitVec.zeroExtend 32 (v.truncate 8 : BitVec 8)) = v := by
    intro v
    ext i hi
    have : i < 8 ∨ 8 ≤ i ∧ i < 16 ∨ 16 ≤ i ∧ i < 24 ∨ 24 ≤ i := by omega
    rcases this with h | h | h | h <;>
    simp [BitVec.getLsbD_shiftLeft, BitVec.getLsbD_ushiftRight, h] <;> grind
  rw [key, BitVec.toInt_ofNat']
  simp [Int.bmod]
  omega

theorem length_sizeBuf (n : Nat) (junk : Vector Byte 4) : (sizeBuf n junk).length = 8 := by simp [sizeBuf]

/-! ### encryption -/

/-- The complete content of the encrypted file. -/
def encContent (tag : List Byte) (junk : Vector Byte 4) (ct : List Byte) : List Byte :=
  tag ++ sizeBuf ct.length junk ++ ct

theorem encrypt_eq (c : GcmCtx) (junk : Vector Byte 4) (fs : FS) (inp out : Path) (d : List Byte)
    (h1 : inp ≠ out) (h2 : inp ≠ tmpPath out) (hd : fs inp = some d) (hl : d.length < 2 ^ 31) :
    ∃ r tag c1 c2, gcmfileEncrypt c junk fs inp out = some r ∧ r.ret = 1 ∧ r.ctx = c2 ∧
      gcmEncrypt c d (List.replicate d.length 0) d.length =
        some { ret := 1, ctx := c1, out := gctr c.block (inc32 (toBV c.y)) d } ∧
      gcmFinish c1 16 = some (tag, c2) ∧ tag.length = 16 ∧
      r.log = [FsOp.trunc (tmpPath out), FsOp.trunc out] ++
        (gctr c.block (inc32 (toBV c.y)) d).map (FsOp.put (tmpPath out)) ++
        (encContent tag junk (gctr c.block (inc32 (toBV c.y)) d)).map (FsOp.put out) ++
        [FsOp.remove (tmpPath out)] := by
  obtain ⟨c1, e1, e2⟩ := fileLoop_enc_eq c d hl
  obtain ⟨tag, c2, e3, e4, _⟩ := finish16 c1
  have hr : applyOps fs [FsOp.trunc (tmpPath out), FsOp.trunc out] inp = some d := by
    rw [applyOps_other, hd]
    intro o ho
    simp at ho
    rcases ho with rfl | rfl
    · exact Ne.symm h2
    · exact Ne.symm h1
  refine ⟨{ ret := 1, ctx := c2, log := _ }, tag, c1, c2, ?_, rfl, rfl, e2, e3, e4, rfl⟩
  unfold gcmfileEncrypt
  simp only [hd, hr, e1, e3, Option.bind_eq_bind, Option.bind_some, fpieces_flatten]
  rw [show sizeBuf d.length junk = sizeBuf (gctr c.block (inc32 (toBV c.y)) d).length junk by rw [length_gctr]]
  rfl

theorem decrypt_eq (c : GcmCtx) (fs : FS) (inp out : Path) (content : List Byte)
    (h1 : inp ≠ out) (hd : fs inp = some content) (h17 : 17 ≤ content.length)
    (hl : content.length < 2 ^ 31 + 24) :
    ∃ r, gcmfileDecrypt c fs inp out = some r ∧
      r.ret = (if ((content.drop 24).length : Int) = fileSize ((content.drop 16).take 8) then 1 else 0) ∧
      r.log = FsOp.trunc out :: (gctr c.block (inc32 (toBV c.y)) (content.drop 24)).map (FsOp.put out) := by
  obtain ⟨t, c1, f1, _, f2, f3⟩ := finish16 c
  obtain ⟨c2, e⟩ := fileLoop_dec_eq c1 (content.drop 24) (by simp; omega)
  rw [f2, f3] at e
  refine ⟨{ ret := _, ctx := c2, log := _ }, ?_, rfl, rfl⟩
  unfold gcmfileDecrypt
  simp only [hd, Option.bind_eq_bind, Option.bind_some]
  have n1 : content.take 16 ≠ [] := by
    intro h; have := congrArg List.length h; simp only [List.length_take, List.length_nil] at this; omega
  have n2 : (content.drop 16).take 8 ≠ [] := by
    intro h; have := congrArg List.length h
    simp only [List.length_take, List.length_drop, List.length_nil] at this; omega
  have n3 : ¬ 2 ^ 31 ≤ (content.drop 24).length := by rw [List.length_drop]; omega
  rw [if_neg h1, if_neg n1, if_neg n2]
  simp only [f1, e, Option.bind_some]
  rw [if_neg n3]
  rfl

theorem log_result (fs : FS) (tmp out : Path) (a b : List Byte) (hne : tmp ≠ out) :
    applyOps fs ([FsOp.trunc tmp, FsOp.trunc out] ++ a.map (FsOp.put tmp) ++ b.map (FsOp.put out) ++ [FsOp.remove tmp]) out = some b ∧
    applyOps fs ([FsOp.trunc tmp, FsOp.trunc out] ++ a.map (FsOp.put tmp) ++ b.map (FsOp.put out) ++ [FsOp.remove tmp]) tmp = none := by
  rw [applyOps_append, applyOps_append, applyOps_append]
  constructor
  · rw [applyOps_other out [FsOp.remove tmp] _ (by simp [FsOp.path, hne])]
    rw [applyOps_put out b _ [] ?_]
    · rfl
    · rw [applyOps_other out _ _ (fun o ho => by rw [path_put _ _ o ho]; exact hne)]
      simp [applyOps, applyOp, FsOp.path, FsOp.effect]
  · show applyOp _ _ _ = _
    simp [applyOp, FsOp.path, FsOp.effect]

/-- C24: file encryption succeeds, leaves the input and every other file alone, removes its temporary file and
produces tag, size field and the GCM ciphertext of the whole file; decryption (in a context for the same key and IV)
succeeds and restores the content. The tag is the NIST GCM tag. -/
theorem C24_file_roundtrip (E : Block → Block) (iv aad : List Byte) (junk : Vector Byte 4) (fs : FS)
    (inp out out2 : Path) (d : List Byte)
    (hiv : iv.length < 2 ^ 29) (ha : aad.length < 2 ^ 61)
    (h1 : inp ≠ out) (h2 : inp ≠ tmpPath out) (h3 : out ≠ out2) (hd : fs inp = some d) (hl : d.length < 2 ^ 31) :
    ∃ r fs', gcmfileEncrypt (gcmAad (gcmSetiv (gcmInit E) iv) aad) junk fs inp out = some r ∧ r.ret = 1 ∧
      fs' = applyOps fs r.log ∧
      fs' out = some ((gcmTag E iv aad (gcmCipher E iv d)).toList ++
        ((List.range 4).map (fun i => BitVec.ofNat 8 (d.length / 256 ^ i)) ++ junk.toList) ++ gcmCipher E iv d) ∧
      (∀ x, fs' out = some x → x.length = d.length + 24) ∧
      fs' (tmpPath out) = none ∧ (∀ p, p ≠ out → p ≠ tmpPath out → fs' p = fs p) ∧
      ∃ r2, gcmfileDecrypt (gcmAad (gcmSetiv (gcmInit E) iv) aad) fs' out out2 = some r2 ∧ r2.ret = 1 ∧
        applyOps fs' r2.log out2 = some d ∧ (∀ p, p ≠ out2 → applyOps fs' r2.log p = fs' p) := by
  obtain ⟨r, tag, c1, c2, a1, a2, a3, a4, a5, a6, a7⟩ :=
    encrypt_eq (gcmAad (gcmSetiv (gcmInit E) iv) aad) junk fs inp out d h1 h2 hd hl
  have hblk : (gcmAad (gcmSetiv (gcmInit E) iv) aad).block = E := rfl
  have hy : toBV (gcmAad (gcmSetiv (gcmInit E) iv) aad).y = j0 E iv := by
    show toBV (gcmSetiv (gcmInit E) iv).y = _
    rw [setiv_y _ (init_ok E) iv hiv]; rfl
  have hct : gctr (gcmAad (gcmSetiv (gcmInit E) iv) aad).block
      (inc32 (toBV (gcmAad (gcmSetiv (gcmInit E) iv) aad).y)) d = gcmCipher E iv d := by
    rw [hblk, hy]; rfl
  have hlen : (gcmCipher E iv d).length = d.length := length_gctr _ _ _
  have htag : tag = (gcmTag E iv aad (gcmCipher E iv d)).toList := by
    have hs := C12_gcm_nist E iv aad d (List.replicate d.length 0) d.length hiv ha hl (Nat.le_refl _) (by simp)
    simp only [sealMsg, a4, a5, Option.bind_eq_bind, Option.bind_some] at hs
    simpa using (Prod.mk.inj (Prod.mk.inj (Option.some.inj hs)).2).2
  rw [hct] at a7
  have hlr := log_result fs (tmpPath out) out (gcmCipher E iv d) (encContent tag junk (gcmCipher E iv d)) (tmpPath_ne out)
  rw [← a7] at hlr
  have hsz : sizeBuf d.length junk =
      (List.range 4).map (fun i => BitVec.ofNat 8 (d.length / 256 ^ i)) ++ junk.toList := by
    unfold sizeBuf
    congr 1
    simp only [List.range_succ, List.range_zero, List.nil_append, List.map_append, List.map_cons, List.map_nil, List.cons_append]
    have key : ∀ i, i ≤ 24 → ((BitVec.ofNat 32 d.length >>> i).truncate 8 : BitVec 8) = BitVec.ofNat 8 (d.length / 2 ^ i) := by
      intro i hi
      apply BitVec.eq_of_toNat_eq
      simp [BitVec.toNat_ushiftRight, Nat.shiftRight_eq_div_pow, Nat.mod_eq_of_lt (show d.length < 4294967296 by omega)]
    have k0 : (BitVec.ofNat 32 d.length).truncate 8 = BitVec.ofNat 8 (d.length / 256 ^ 0) := by
      have := key 0 (by omega); simpa using this
    rw [key 8 (by omega), key 16 (by omega), key 24 (by omega), k0]
  have hcont : encContent tag junk (gcmCipher E iv d) = (gcmTag E iv aad (gcmCipher E iv d)).toList ++
        ((List.range 4).map (fun i => BitVec.ofNat 8 (d.length / 256 ^ i)) ++ junk.toList) ++ gcmCipher E iv d := by
    rw [encContent, hlen, hsz, htag]
  have hother : ∀ p, p ≠ out → p ≠ tmpPath out → applyOps fs r.log p = fs p := by
    intro p hp hp'
    apply applyOps_other
    intro o ho
    rw [a7] at ho
    simp only [List.mem_append, List.mem_cons, List.not_mem_nil, or_false] at ho
    rcases ho with ((( rfl | rfl) | ho) | ho) | rfl
    · exact Ne.symm hp'
    · exact Ne.symm hp
    · rw [path_put _ _ o ho]; exact Ne.symm hp'
    · rw [path_put _ _ o ho]; exact Ne.symm hp
    · exact Ne.symm hp'
  have hcl : (encContent tag junk (gcmCipher E iv d)).length = d.length + 24 := by
    simp only [encContent, List.length_append, a6, length_sizeBuf, hlen]; omega
  refine ⟨r, _, a1, a2, rfl, ?_, ?_, hlr.2, hother, ?_⟩
  · rw [hlr.1, hcont]
  · intro x hx
    rw [hlr.1] at hx
    cases hx
    exact hcl
  · obtain ⟨r2, b1, b2, b3⟩ := decrypt_eq (gcmAad (gcmSetiv (gcmInit E) iv) aad) (applyOps fs r.log) out out2 _ h3 hlr.1
      (by omega) (by omega)
    have hdrop : (encContent tag junk (gcmCipher E iv d)).drop 24 = gcmCipher E iv d := by
      rw [encContent, List.drop_left' (by simp [a6, length_sizeBuf])]
    have hsize : ((encContent tag junk (gcmCipher E iv d)).drop 16).take 8 = sizeBuf d.length junk := by
      rw [encContent, List.append_assoc, List.drop_left' a6, List.take_left' (length_sizeBuf _ _), hlen]
    rw [hdrop] at b2 b3
    rw [hsize, fileSize_sizeBuf _ _ hl, if_pos (by rw [hlen])] at b2
    refine ⟨r2, b1, b2, ?_, ?_⟩
    · rw [b3]
      have hgg : gctr (gcmAad (gcmSetiv (gcmInit E) iv) aad).block
          (inc32 (toBV (gcmAad (gcmSetiv (gcmInit E) iv) aad).y)) (gcmCipher E iv d) = d := by
        rw [hblk, hy]
        obtain ⟨rr, g1, _, g2⟩ := C11_gcm_roundtrip (gcmAad (gcmSetiv (gcmInit E) iv) aad) d (List.replicate d.length 0)
          (List.replicate d.length 0) d.length d.length hl (Nat.le_refl _) (by simp) (Nat.le_refl _) (by simp)
        rw [a4, hct] at g1
        cases g1
        dsimp only at g2
        rw [List.take_of_length_le (by omega), gcmDecrypt_eq _ _ _ _ (by omega) (by omega) (by simp)] at g2
        have := congrArg GcmResult.out (Option.some.inj g2)
        simp only [List.drop_of_length_le (Nat.le_of_eq (List.length_replicate (n := d.length) (a := (0 : Byte)))),
          hlen, List.append_nil, hblk, hy] at this
        exact this
      rw [hgg]
      show applyOps (applyOp _ (FsOp.trunc out2)) _ out2 = _
      rw [applyOps_put out2 d _ [] (by simp [applyOp, FsOp.path, FsOp.effect])]
      rfl
    · intro p hp
      apply applyOps_other
      intro o ho
      rw [b3] at ho
      rcases List.mem_cons.mp ho with rfl | ho
      · exact Ne.symm hp
      · rw [path_put _ _ o ho]; exact Ne.symm hp

/- A concrete file system meeting the hypotheses. -/
example : ∃ (fs : FS) (inp out out2 : Path) (d : List Byte), inp ≠ out ∧ inp ≠ tmpPath out ∧ out ≠ out2 ∧
    fs inp = some d ∧ d.length = 3 ∧ d.length < 2 ^ 31 :=
  ⟨fun p => if p = ['a'] then some [1, 2, 3] else none, ['a'], ['b'], ['c'], [1, 2, 3], by decide, by decide, by decide,
    rfl, rfl, by decide⟩

/-- The size field as a number. -/
theorem fileSize_nat (b : List Byte) (n : Nat) (hn : n < 2 ^ 31) : (n : Int) = fileSize b ↔
    n = (b.getD 0 0).toNat + 256 * (b.getD 1 0).toNat + 256 ^ 2 * (b.getD 2 0).toNat + 256 ^ 3 * (b.getD 3 0).toNat := by
  have hcat : ∀ a b c d : Byte, ((a.zeroExtend 32 <<< 24) ||| (b.zeroExtend 32 <<< 16) |||
      (c.zeroExtend 32 <<< 8) ||| d.zeroExtend 32 : BitVec 32) = ((a ++ b) ++ c) ++ d := by
    intro a b c d
    ext i hi
    have : i < 8 ∨ 8 ≤ i ∧ i < 16 ∨ 16 ≤ i ∧ i < 24 ∨ 24 ≤ i := by omega
    rcases this with h | h | h | h <;> simp [h, BitVec.getElem_append] <;> grind
  unfold fileSize
  rw [hcat]
  generalize b.getD 0 0 = x0, b.getD 1 0 = x1, b.getD 2 0 = x2, b.getD 3 0 = x3
  have hnat : (((x3 ++ x2) ++ x1) ++ x0 : BitVec 32).toNat =
      x0.toNat + 256 * x1.toNat + 256 ^ 2 * x2.toNat + 256 ^ 3 * x3.toNat := by
    rw [toNat_append', toNat_append', toNat_append']; omega
  rw [← hnat]
  generalize (((x3 ++ x2) ++ x1) ++ x0 : BitVec 32) = v
  rw [BitVec.toInt_eq_toNat_cond]
  have := v.isLt
  split <;> omega

/-- C25: whether file decryption reports success depends on nothing but the length and the size field of the file: not on
the context (key, IV, AAD), not on the tag, not on the ciphertext. -/
theorem C25_no_authentication (c : GcmCtx) (fs : FS) (inp out : Path) (content : List Byte)
    (h1 : inp ≠ out) (hd : fs inp = some content) (h24 : 24 ≤ content.length) (hl : content.length < 2 ^ 31 + 24) :
    ∃ r, gcmfileDecrypt c fs inp out = some r ∧
      (r.ret = 1 ↔ content.length - 24 = (content.getD 16 0).toNat + 256 * (content.getD 17 0).toNat +
        256 ^ 2 * (content.getD 18 0).toNat + 256 ^ 3 * (content.getD 19 0).toNat) := by
  obtain ⟨r, a, b, _⟩ := decrypt_eq c fs inp out content h1 hd (by omega) hl
  refine ⟨r, a, ?_⟩
  have hg : ∀ i, i < 8 → ((content.drop 16).take 8).getD i 0 = content.getD (16 + i) 0 := by
    intro i hi
    simp [List.getD_eq_getElem?_getD, List.getElem?_drop, hi]
  have := fileSize_nat ((content.drop 16).take 8) (content.drop 24).length (by simp; omega)
  rw [hg 0 (by omega), hg 1 (by omega), hg 2 (by omega), hg 3 (by omega)] at this
  rw [b]
  rw [List.length_drop] at this ⊢
  constructor
  · intro h
    split at h
    · next h' => exact this.mp h'
    · omega
  · intro h
    rw [if_pos (this.mpr h)]

/-- C25, forged file: any tag, any body with the right size is accepted in any context. -/
theorem C25_forgery_accepted (c : GcmCtx) (fs : FS) (inp out : Path) (tag body : List Byte) (junk : Vector Byte 4)
    (h1 : inp ≠ out) (ht : tag.length = 16) (hb : body.length < 2 ^ 31)
    (hd : fs inp = some (tag ++ sizeBuf body.length junk ++ body)) :
    ∃ r, gcmfileDecrypt c fs inp out = some r ∧ r.ret = 1 := by
  have hlen : (tag ++ sizeBuf body.length junk ++ body).length = body.length + 24 := by
    simp only [List.length_append, length_sizeBuf]; omega
  obtain ⟨r, a, b, _⟩ := decrypt_eq c fs inp out _ h1 hd (by omega) (by omega)
  refine ⟨r, a, ?_⟩
  rw [b, List.drop_left' (by simp [ht, length_sizeBuf]), List.append_assoc, List.drop_left' ht,
    List.take_left' (length_sizeBuf _ _), fileSize_sizeBuf _ _ hb, if_pos rfl]

/-! ### crash points -/

/-- File systems that can be found after a crash: of the operations on each file, some prefix has reached it (buffering
may delay the files independently). -/
def CrashState (fs : FS) (log : List FsOp) (fs' : FS) : Prop :=
  ∀ p, ∃ k, fs' p = ((log.filter (fun o => o.path = p)).take k).foldl (fun x o => o.effect x) (fs p)

theorem foldl_put (out : Path) (d : List Byte) : ∀ x : List Byte,
    (d.map (FsOp.put out)).foldl (fun x o => o.effect x) (some x) = some (x ++ d) := by
  induction d with
  | nil => intro x; simp
  | cons b d ih =>
    intro x
    rw [List.map_cons, List.foldl_cons]
    show List.foldl (fun x (o : FsOp) => o.effect x) (some (x ++ [b])) _ = _
    rw [ih]; simp

theorem filter_put_same (p : Path) (d : List Byte) :
    (d.map (FsOp.put p)).filter (fun o => o.path = p) = d.map (FsOp.put p) := by
  rw [List.filter_eq_self]
  intro o ho
  simp [path_put p d o ho]

theorem filter_put_other (p q : Path) (d : List Byte) (h : q ≠ p) :
    (d.map (FsOp.put q)).filter (fun o => o.path = p) = [] := by
  rw [List.filter_eq_nil_iff]
  intro o ho
  simp [path_put q d o ho, h]

/-- C26: after a crash at any point of file encryption the input file and all files but the output and the temporary one
are intact; the output file is as before the call or holds a prefix of the complete encrypted file. -/
theorem C26_crash (c : GcmCtx) (junk : Vector Byte 4) (fs fs' : FS) (inp out : Path) (d : List Byte)
    (h1 : inp ≠ out) (h2 : inp ≠ tmpPath out) (hd : fs inp = some d) (hl : d.length < 2 ^ 31) :
    ∃ r full, gcmfileEncrypt c junk fs inp out = some r ∧ applyOps fs r.log out = some full ∧
      full.length = d.length + 24 ∧
      (CrashState fs r.log fs' →
        (∀ p, p ≠ out → p ≠ tmpPath out → fs' p = fs p) ∧
        (fs' out = fs out ∨ ∃ k, k ≤ full.length ∧ fs' out = some (full.take k))) := by
  obtain ⟨r, tag, c1, c2, a1, a2, a3, a4, a5, a6, a7⟩ := encrypt_eq c junk fs inp out d h1 h2 hd hl
  have hlr := log_result fs (tmpPath out) out (gctr c.block (inc32 (toBV c.y)) d)
    (encContent tag junk (gctr c.block (inc32 (toBV c.y)) d)) (tmpPath_ne out)
  rw [← a7] at hlr
  refine ⟨r, _, a1, hlr.1, ?_, ?_⟩
  · simp only [encContent, List.length_append, a6, length_sizeBuf, length_gctr]; omega
  intro hc
  constructor
  · intro p hp hp'
    obtain ⟨k, hk⟩ := hc p
    have hnil : r.log.filter (fun o => o.path = p) = [] := by
      rw [a7]
      simp only [List.filter_append, filter_put_other p _ _ (Ne.symm hp), filter_put_other p _ _ (Ne.symm hp')]
      simp [FsOp.path, Ne.symm hp, Ne.symm hp']
    rw [hk, hnil]; simp
  · obtain ⟨k, hk⟩ := hc out
    have hf : r.log.filter (fun o => o.path = out) =
        FsOp.trunc out :: (encContent tag junk (gctr c.block (inc32 (toBV c.y)) d)).map (FsOp.put out) := by
      rw [a7]
      simp only [List.filter_append, filter_put_other out _ _ (tmpPath_ne out), filter_put_same]
      simp [FsOp.path, tmpPath_ne]
    rw [hk, hf]
    cases k with
    | zero => left; rfl
    | succ k =>
      right
      rw [List.take_succ_cons, List.foldl_cons, ← List.map_take]
      show ∃ k_1, _ ∧ List.foldl _ (some []) _ = _
      rw [foldl_put]
      by_cases hkl : k ≤ (encContent tag junk (gctr c.block (inc32 (toBV c.y)) d)).length
      · exact ⟨k, hkl, rfl⟩
      · exact ⟨_, Nat.le_refl _, by rw [List.take_of_length_le (by omega), List.take_of_length_le (by omega)]; rfl⟩

/-- C26, truncated output: of the proper prefixes of an encrypted file, decryption refuses those of at least 24
bytes; for 17 to 23 bytes it accepts exactly if the size bytes present are 0, i.e. the size of the plaintext is a
multiple of 256^min(k-16,4); for 16 bytes or fewer its behaviour is undefined. In no case is the key involved. -/
theorem C26_truncated (c : GcmCtx) (fs : FS) (inp out : Path) (tag ct : List Byte) (junk : Vector Byte 4) (k : Nat)
    (h1 : inp ≠ out) (ht : tag.length = 16) (hct : ct.length < 2 ^ 31)
    (hk : k < ct.length + 24)
    (hd : fs inp = some ((tag ++ sizeBuf ct.length junk ++ ct).take k)) :
    (24 ≤ k → ∃ r, gcmfileDecrypt c fs inp out = some r ∧ r.ret = 0) ∧
    (17 ≤ k → k < 24 → ∃ r, gcmfileDecrypt c fs inp out = some r ∧
      (r.ret = 1 ↔ ct.length % 256 ^ (min (k - 16) 4) = 0) ∧ applyOps fs r.log out = some []) ∧
    (k ≤ 16 → gcmfileDecrypt c fs inp out = none) := by
  have hlen : (tag ++ sizeBuf ct.length junk ++ ct).length = ct.length + 24 := by
    simp only [List.length_append, length_sizeBuf]; omega
  refine ⟨?_, ?_, ?_⟩
  · intro h24
    obtain ⟨r, a, b, _⟩ := decrypt_eq c fs inp out _ h1 hd (by simp only [List.length_take]; omega)
      (by simp only [List.length_take]; omega)
    refine ⟨r, a, ?_⟩
    have hs : (((tag ++ sizeBuf ct.length junk ++ ct).take k).drop 16).take 8 = sizeBuf ct.length junk := by
      rw [List.drop_take, List.take_take, List.append_assoc, List.drop_left' ht, Nat.min_eq_left (by omega),
        List.take_left' (length_sizeBuf _ _)]
    rw [b, hs, fileSize_sizeBuf _ _ hct, if_neg]
    simp only [List.length_drop, List.length_take, hlen]
    omega
  · intro h17 h24
    obtain ⟨r, a, b, e⟩ := decrypt_eq c fs inp out _ h1 hd (by simp only [List.length_take]; omega)
      (by simp only [List.length_take]; omega)
    have hnil : ((tag ++ sizeBuf ct.length junk ++ ct).take k).drop 24 = [] :=
      List.drop_eq_nil_of_le (by simp only [List.length_take]; omega)
    have hs : (((tag ++ sizeBuf ct.length junk ++ ct).take k).drop 16).take 8 = (sizeBuf ct.length junk).take (k - 16) := by
      rw [List.drop_take, List.take_take, List.append_assoc, List.drop_left' ht, Nat.min_eq_right (by omega),
        List.take_append_of_le_length (by rw [length_sizeBuf]; omega)]
    rw [hnil] at b e
    refine ⟨r, a, ?_, ?_⟩
    · have hn := fileSize_nat ((sizeBuf ct.length junk).take (k - 16)) 0 (by omega)
      rw [hs] at b
      have hb : r.ret = 1 ↔ ((0 : Nat) : Int) = fileSize ((sizeBuf ct.length junk).take (k - 16)) := by
        rw [b]
        constructor
        · intro h
          split at h
          · next h' => exact h'
          · omega
        · intro h; exact if_pos h
      rw [hb, hn]
      have key : ∀ i, i ≤ 24 → ((BitVec.ofNat 32 ct.length >>> i).truncate 8 : BitVec 8).toNat = ct.length / 2 ^ i % 256 := by
        intro i hi
        simp [BitVec.toNat_ushiftRight, Nat.shiftRight_eq_div_pow, Nat.mod_eq_of_lt (show ct.length < 4294967296 by omega)]
      have k0 : ((BitVec.ofNat 32 ct.length).truncate 8 : BitVec 8).toNat = ct.length % 256 := by
        have := key 0 (by omega); simpa using this
      have k1 := key 8 (by omega)
      have k2 := key 16 (by omega)
      have k3 := key 24 (by omega)
      unfold sizeBuf
      generalize ct.length = n at *
      have hcase : k - 16 = 1 ∨ k - 16 = 2 ∨ k - 16 = 3 ∨ (4 ≤ k - 16) := by omega
      rcases hcase with h | h | h | h
      · rw [h]; simp only [List.cons_append, List.nil_append, List.take_succ_cons, List.take_zero, List.getD_cons_zero,
          List.getD_cons_succ, List.getD_nil, k0]; simp; omega
      · rw [h]; simp only [List.cons_append, List.nil_append, List.take_succ_cons, List.take_zero, List.getD_cons_zero,
          List.getD_cons_succ, List.getD_nil, k0, k1]; simp; omega
      · rw [h]; simp only [List.cons_append, List.nil_append, List.take_succ_cons, List.take_zero, List.getD_cons_zero,
          List.getD_cons_succ, List.getD_nil, k0, k1, k2]; simp; omega
      · obtain ⟨m, hm⟩ : ∃ m, k - 16 = m + 4 := ⟨k - 20, by omega⟩
        rw [hm, Nat.min_eq_right (by omega)]
        simp only [List.cons_append, List.nil_append, List.take_succ_cons, List.getD_cons_zero,
          List.getD_cons_succ, k0, k1, k2, k3]; omega
    · rw [e]
      show applyOp fs _ out = _
      simp [applyOp, FsOp.path, FsOp.effect]
  · intro h16
    unfold gcmfileDecrypt
    simp only [hd, Option.bind_eq_bind, Option.bind_some, if_neg h1]
    split
    · rfl
    · rw [if_pos]
      have : ((tag ++ sizeBuf ct.length junk ++ ct).take k).drop 16 = [] :=
        List.drop_eq_nil_of_le (by simp only [List.length_take]; omega)
      rw [this]; rfl

/-- C62: encrypting a file onto itself, or onto a path whose temporary file it is, reports success and yields the encryption
of the empty file: the content `d` has no influence. -/
theorem C62_in_place_destroys (c : GcmCtx) (junk : Vector Byte 4) (fs : FS) (inp out : Path) (d : List Byte)
    (h : inp = out ∨ inp = tmpPath out) (hd : fs inp = some d) :
    ∃ r tag c', gcmfileEncrypt c junk fs inp out = some r ∧ r.ret = 1 ∧ gcmFinish c 16 = some (tag, c') ∧
      applyOps fs r.log out = some (tag ++ [0, 0, 0, 0] ++ junk.toList) ∧ applyOps fs r.log (tmpPath out) = none := by
  obtain ⟨tag, c', e3, e4, _⟩ := finish16 c
  have hr : applyOps fs [FsOp.trunc (tmpPath out), FsOp.trunc out] inp = some [] := by
    rcases h with rfl | rfl
    · simp [applyOps, applyOp, FsOp.path, FsOp.effect]
    · simp [applyOps, applyOp, FsOp.path, FsOp.effect, tmpPath_ne]
  have hlr := log_result fs (tmpPath out) out [] (tag ++ sizeBuf 0 junk ++ []) (tmpPath_ne out)
  refine ⟨{ ret := 1, ctx := c', log := [FsOp.trunc (tmpPath out), FsOp.trunc out] ++ List.map (FsOp.put (tmpPath out)) [] ++
    List.map (FsOp.put out) (tag ++ sizeBuf 0 junk ++ []) ++ [FsOp.remove (tmpPath out)] }, tag, c', ?_, rfl, e3, ?_⟩
  · unfold gcmfileEncrypt
    simp only [hd, hr, Option.bind_eq_bind, Option.bind_some]
    rw [show fpieces [] = [] from rfl]
    simp only [fileLoop, Option.bind_some, e3]
    rfl
  · have : tag ++ [0, 0, 0, 0] ++ junk.toList = tag ++ sizeBuf 0 junk ++ [] := by
      simp [sizeBuf]
    rw [this]
    exact hlr

/- A file encrypted onto itself. -/
example : ∃ (fs : FS) (p : Path) (d : List Byte), fs p = some d ∧ d ≠ [] := ⟨fun _ => some [7], ['a'], [7], rfl, by decide⟩

/-- C63: a missing input file leads to undefined behaviour in both functions, and so does decrypting an empty file
or one of at most 16 bytes. -/
theorem C63_missing_or_short_input (c : GcmCtx) (junk : Vector Byte 4) (fs : FS) (inp out : Path) :
    (fs inp = none → gcmfileEncrypt c junk fs inp out = none ∧ gcmfileDecrypt c fs inp out = none) ∧
    (∀ x, fs inp = some x → x.length ≤ 16 → gcmfileDecrypt c fs inp out = none) := by
  constructor
  · intro h
    simp [gcmfileEncrypt, gcmfileDecrypt, h]
  · intro x hx hl
    unfold gcmfileDecrypt
    simp only [hx, Option.bind_eq_bind, Option.bind_some]
    split
    · rfl
    · split
      · rfl
      · rw [if_pos]
        rw [List.drop_eq_nil_of_le hl]; rfl

end Verif.Props
