import Verif.Props.GcmAuth

/-!
# GCM calls in other orders

`WBCRYPTO_gcm_aad`, `WBCRYPTO_gcm_encrypt`, `WBCRYPTO_gcm_decrypt` and `WBCRYPTO_gcm_finish` (gcm128.c lines 139-280) may be
called in any order and any number of times: no call looks at what was called before. Each call pads its own piece to whole
blocks; `aad` overwrites the AAD length of the calls before it; `finish` writes the block of lengths into the running hash. What
the tags are for every sequence of calls is stated with the blocks hashed (`stepsBlocks`), and what it means for their users is
derived from that.
-/
set_option autoImplicit false

namespace Verif.Props
open Verif Spec Model

/-- A call between `setiv` and `finish`. -/
inductive GcmStep where
  | aad (a : List Byte)
  | enc (p : List Byte)
  | dec (ct : List Byte)

/-- The calls of a list one after the other, each with an output buffer of the size of its input; the output of each. -/
def runSteps (junk : Byte) : GcmCtx → List GcmStep → Option (List (List Byte) × GcmCtx)
  | c, [] => some ([], c)
  | c, .aad a :: r => do
    let (o, c') ← runSteps junk (gcmAad c a) r
    return ([] :: o, c')
  | c, .enc p :: r => do
    let e ← gcmEncrypt c p (List.replicate p.length junk) p.length
    let (o, c') ← runSteps junk e.ctx r
    return (e.out :: o, c')
  | c, .dec p :: r => do
    let e ← gcmDecrypt c p (List.replicate p.length junk) p.length
    let (o, c') ← runSteps junk e.ctx r
    return (e.out :: o, c')

/-- `finish` called `k + 1` times; the last tag and the context. -/
def finishTimes : Nat → GcmCtx → Option (List Byte × GcmCtx)
  | 0, c => gcmFinish c 16
  | k + 1, c => do
    let (_, c') ← gcmFinish c 16
    finishTimes k c'

/-! ### specification -/

/-- What each call puts out: counter mode, every call beginning a new counter block; `cb` is the last counter block used. -/
def stepsOut (E : Block → Block) : BitVec 128 → List GcmStep → List (List Byte)
  | _, [] => []
  | cb, .aad _ :: r => [] :: stepsOut E cb r
  | cb, .enc p :: r => gctr E (inc32 cb) p :: stepsOut E (incN (chunks p).length cb) r
  | cb, .dec p :: r => gctr E (inc32 cb) p :: stepsOut E (incN (chunks p).length cb) r

/-- The blocks hashed: the pieces of AAD and ciphertext in the order of the calls, each padded with zeros to whole blocks. -/
def stepsBlocks (E : Block → Block) : BitVec 128 → List GcmStep → List (BitVec 128)
  | _, [] => []
  | cb, .aad a :: r => (chunks a).map padBV ++ stepsBlocks E cb r
  | cb, .enc p :: r => (chunks (gctr E (inc32 cb) p)).map padBV ++ stepsBlocks E (incN (chunks p).length cb) r
  | cb, .dec p :: r => (chunks p).map padBV ++ stepsBlocks E (incN (chunks p).length cb) r

/-- The length of the last AAD, `n` if there is none. -/
def aadLen : Nat → List GcmStep → Nat
  | n, [] => n
  | _, .aad a :: r => aadLen a.length r
  | n, .enc _ :: r => aadLen n r
  | n, .dec _ :: r => aadLen n r

/-- The number of bytes encrypted and decrypted. -/
def dataLen : List GcmStep → Nat
  | [] => 0
  | .aad _ :: r => dataLen r
  | .enc p :: r => p.length + dataLen r
  | .dec p :: r => p.length + dataLen r

/-- Lengths the calls can take. -/
def StepOk : GcmStep → Prop
  | .aad a => a.length < 2 ^ 61
  | .enc p => p.length < 2 ^ 31
  | .dec p => p.length < 2 ^ 31

/-- The block of lengths. -/
def lensBlock (a n : Nat) : BitVec 128 := BitVec.ofNat 64 (8 * a) ++ BitVec.ofNat 64 (8 * n)

/-! ### the calls -/

theorem fold_dec_buf (c : GcmCtx) {h} (ok : TabOk c.HL c.HH h) (x : List Byte) :
    ∀ (y buf : Block) (o : List Byte),
    toBV ((chunks x).foldl (decPiece c) (y, buf, o)).2.1 = ghashFrom h (toBV buf) ((chunks x).map padBV) := by
  induction x using chunks_induction with
  | nil => intro y buf o; rfl
  | step x hx ih =>
    intro y buf o
    rw [chunks_of_ne_nil hx, List.foldl_cons]
    simp only [decPiece]
    rw [ih, gcmMult_eq ok, toBV_xorInto]
    rfl

theorem steps_fold_y (c : GcmCtx) (ps : List (List Byte)) : ∀ (y buf : Block) (o : List Byte),
    toBV (ps.foldl (encPiece c) (y, buf, o)).1 = incN ps.length (toBV y) ∧
    toBV (ps.foldl (decPiece c) (y, buf, o)).1 = incN ps.length (toBV y) := by
  induction ps with
  | nil => intro y buf o; exact ⟨rfl, rfl⟩
  | cons p ps ih =>
    intro y buf o
    simp only [List.foldl_cons, encPiece, decPiece, ih, List.length_cons, incN_succ', incCtr_eq, and_self]

theorem runSteps_eq (junk : Byte) (s : List GcmStep) : ∀ (c : GcmCtx), TabOk c.HL c.HH (hashKey c.block) → (∀ x ∈ s, StepOk x) →
    ∀ n, c.addLen = BitVec.ofNat 64 n →
    ∃ c', runSteps junk c s = some (stepsOut c.block (toBV c.y) s, c') ∧ c'.HL = c.HL ∧ c'.HH = c.HH ∧ c'.block = c.block ∧
      c'.baseEctr = c.baseEctr ∧ c'.len = c.len + BitVec.ofNat 64 (dataLen s) ∧ c'.addLen = BitVec.ofNat 64 (aadLen n s) ∧
      toBV c'.buf = ghashFrom (hashKey c.block) (toBV c.buf) (stepsBlocks c.block (toBV c.y) s) := by
  induction s with
  | nil =>
    intro c ok h n hn
    refine ⟨c, rfl, rfl, rfl, rfl, rfl, ?_, hn, rfl⟩
    simp [dataLen]
  | cons x s ih =>
    intro c ok h n hn
    have hx := h x (by simp)
    have hs : ∀ y ∈ s, StepOk y := fun y hy => h y (by simp [hy])
    cases x with
    | aad a =>
      obtain ⟨c', h1, h2, h3, h4, h5, h6, h7, h8⟩ := ih (gcmAad c a) ok hs a.length rfl
      refine ⟨c', ?_, h2, h3, h4, h5, h6, h7, ?_⟩
      · rw [runSteps, h1]; rfl
      · rw [h8, stepsBlocks, ghashFrom_append]
        show ghashFrom _ (toBV (absorb c.HL c.HH c.buf a)) _ = _
        rw [absorb_eq ok]; rfl
    | enc p =>
      have he := gcmEncrypt_eq c p (List.replicate p.length junk) p.length hx (Nat.le_refl _) (by simp)
      obtain ⟨c', h1, h2, h3, h4, h5, h6, h7, h8⟩ := ih ({ c with
          len := c.len + BitVec.ofNat 64 p.length,
          y := ((chunks p).foldl (encPiece c) (c.y, c.buf, [])).1,
          buf := ((chunks p).foldl (encPiece c) (c.y, c.buf, [])).2.1 }) ok hs n hn
      simp only [(steps_fold_y c _ _ _ _).1] at h1 h8
      refine ⟨c', ?_, h2, h3, h4, h5, ?_, h7, ?_⟩
      · rw [runSteps, he]
        simp only [Option.bind_eq_bind, Option.bind_some, h1]
        simp [stepsOut]
      · rw [h6, dataLen, BitVec.ofNat_add, BitVec.add_assoc]
      · rw [h8, stepsBlocks, ghashFrom_append, fold_enc_buf c ok]
    | dec p =>
      have he := gcmDecrypt_eq c p (List.replicate p.length junk) p.length hx (Nat.le_refl _) (by simp)
      obtain ⟨c', h1, h2, h3, h4, h5, h6, h7, h8⟩ := ih ({ c with
          len := c.len + BitVec.ofNat 64 p.length,
          y := ((chunks p).foldl (decPiece c) (c.y, c.buf, [])).1,
          buf := ((chunks p).foldl (decPiece c) (c.y, c.buf, [])).2.1 }) ok hs n hn
      simp only [(steps_fold_y c _ _ _ _).2] at h1 h8
      refine ⟨c', ?_, h2, h3, h4, h5, ?_, h7, ?_⟩
      · rw [runSteps, he]
        simp only [Option.bind_eq_bind, Option.bind_some, h1]
        simp [stepsOut]
      · rw [h6, dataLen, BitVec.ofNat_add, BitVec.add_assoc]
      · rw [h8, stepsBlocks, ghashFrom_append, fold_dec_buf c ok]

theorem finish_step (c : GcmCtx) {h} (ok : TabOk c.HL c.HH h) (hc : c.len * 8 ≠ 0 ∨ c.addLen * 8 ≠ 0) :
    gcmFinish c 16 = some ((c.baseEctr ^^^ ofBV (gfMul (toBV c.buf ^^^ ((c.addLen * 8) ++ (c.len * 8) : BitVec 128)) h)).toList,
      { c with buf := ofBV (gfMul (toBV c.buf ^^^ ((c.addLen * 8) ++ (c.len * 8) : BitVec 128)) h) }) := by
  unfold gcmFinish
  rw [if_neg (by omega)]
  simp only [hc, if_true]
  rw [finish_work]
  have : gcmMult c.HL c.HH (c.buf ^^^ ofBV ((c.addLen * 8) ++ (c.len * 8))) =
      ofBV (gfMul (toBV c.buf ^^^ ((c.addLen * 8) ++ (c.len * 8) : BitVec 128)) h) := by
    apply toBV_injective
    rw [toBV_ofBV, gcmMult_eq ok, toBV_xor, toBV_ofBV]
  rw [this, List.take_of_length_le (by simp)]

theorem finishTimes_eq (k : Nat) : ∀ (c : GcmCtx) {h}, TabOk c.HL c.HH h → (c.len * 8 ≠ 0 ∨ c.addLen * 8 ≠ 0) →
    ∃ c', finishTimes k c = some ((c.baseEctr ^^^ ofBV (ghashFrom h (toBV c.buf)
      (List.replicate (k + 1) ((c.addLen * 8) ++ (c.len * 8) : BitVec 128)))).toList, c') := by
  induction k with
  | zero =>
    intro c h ok hc
    exact ⟨_, finish_step c ok hc⟩
  | succ k ih =>
    intro c h ok hc
    obtain ⟨c', h'⟩ := ih { c with buf := ofBV (gfMul (toBV c.buf ^^^ ((c.addLen * 8) ++ (c.len * 8) : BitVec 128)) h) } ok hc
    refine ⟨c', ?_⟩
    rw [finishTimes, finish_step c ok hc]
    simp only [Option.bind_eq_bind, Option.bind_some]
    rw [h']
    simp only [toBV_ofBV]
    rw [List.replicate_succ (n := k + 1)]
    rfl

theorem finishTimes_none (k : Nat) (c : GcmCtx) (h1 : c.len * 8 = 0) (h2 : c.addLen * 8 = 0) :
    finishTimes k c = some (c.baseEctr.toList, c) := by
  have : gcmFinish c 16 = some (c.baseEctr.toList, c) := by
    unfold gcmFinish
    rw [if_neg (by omega)]
    simp only [h1, h2]
    rw [if_neg (by simp), List.take_of_length_le (by simp)]
  induction k with
  | zero => exact this
  | succ k ih => rw [finishTimes, this]; exact ih

/-- The outputs and the `k + 1`st tag of a context used with `iv` and the calls `s`. -/
def stepsTag (c : GcmCtx) (junk : Byte) (iv : List Byte) (s : List GcmStep) (k : Nat) : Option (List (List Byte) × List Byte) := do
  let (o, c') ← runSteps junk (gcmSetiv c iv) s
  let (t, _) ← finishTimes k c'
  return (o, t)

theorem steps_start (E : Block → Block) (ops : List GcmOp) (c : GcmCtx) (hc : runOps (gcmInit E) ops = some c) (junk : Byte)
    (iv : List Byte) (s : List GcmStep) (hiv : iv.length < 2 ^ 29) (hs : ∀ x ∈ s, StepOk x) :
    ∃ c', runSteps junk (gcmSetiv c iv) s = some (stepsOut E (j0 E iv) s, c') ∧ TabOk c'.HL c'.HH (hashKey E) ∧
      c'.baseEctr = E (ofBV (j0 E iv)) ∧ c'.len = BitVec.ofNat 64 (dataLen s) ∧
      c'.addLen = BitVec.ofNat 64 (aadLen (lastAad 0 ops) s) ∧ toBV c'.buf = ghash (hashKey E) (stepsBlocks E (j0 E iv) s) := by
  obtain ⟨e1, e2, e3, e4⟩ := runOps_keeps ops _ _ 0 hc rfl
  have ok : TabOk c.HL c.HH (hashKey c.block) := by rw [e1, e2, e3]; exact init_ok E
  have eE : c.block = E := e3
  have hy := setiv_y c ok iv hiv
  obtain ⟨c', h1, h2, h3, h4, h5, h6, h7, h8⟩ := runSteps_eq junk s (gcmSetiv c iv) ok hs (lastAad 0 ops) e4
  rw [setiv_block, hy, eE] at h1 h8
  refine ⟨c', h1, ?_, ?_, ?_, h7, ?_⟩
  · rw [h2, h3, ← eE]; exact ok
  · rw [h5, ← eE, ← hy, ofBV_toBV]; rfl
  · rw [h6]
    show 0#64 + _ = _
    rw [BitVec.zero_add]
  · rw [h8]
    show ghashFrom _ (toBV zeroBlock) _ = _
    rw [toBV_zero]; rfl

/-- C114: every sequence of calls succeeds. What is put out is counter mode, each call beginning a new counter block; the tag is
that of the blocks hashed in the order of the calls, with the length of the last AAD alone and the number of bytes of data, that
block being hashed once for every tag taken. -/
theorem C114_tag (E : Block → Block) (ops : List GcmOp) (c : GcmCtx) (hc : runOps (gcmInit E) ops = some c) (junk : Byte)
    (iv : List Byte) (s : List GcmStep) (k : Nat) (hiv : iv.length < 2 ^ 29) (hs : ∀ x ∈ s, StepOk x) (hd : dataLen s < 2 ^ 61)
    (ha : aadLen (lastAad 0 ops) s < 2 ^ 61) (h0 : 0 < dataLen s ∨ 0 < aadLen (lastAad 0 ops) s) :
    stepsTag c junk iv s k = some (stepsOut E (j0 E iv) s, (E (ofBV (j0 E iv)) ^^^ ofBV (ghash (hashKey E)
      (stepsBlocks E (j0 E iv) s ++ List.replicate (k + 1) (lensBlock (aadLen (lastAad 0 ops) s) (dataLen s))))).toList) := by
  obtain ⟨c', h1, ok, hb, hl, hal, hbuf⟩ := steps_start E ops c hc junk iv s hiv hs
  have hne : c'.len * 8 ≠ 0 ∨ c'.addLen * 8 ≠ 0 := by
    rw [hl, hal]
    rcases h0 with h0 | h0
    · exact Or.inl fun e => by have := mul8_eq_zero hd e; omega
    · exact Or.inr fun e => by have := mul8_eq_zero ha e; omega
  obtain ⟨c'', hf⟩ := finishTimes_eq k c' ok hne
  rw [stepsTag, h1]
  simp only [Option.bind_eq_bind, Option.bind_some, hf, Option.pure_def]
  rw [hb, hbuf, hl, hal, ofNat_mul8, ofNat_mul8, ghash, ← ghashFrom_append]
  rfl

/-- C114: without data and with an empty AAD last, every tag is the encrypted counter block alone: what was hashed is not in
it. -/
theorem C114_tag_nothing (E : Block → Block) (ops : List GcmOp) (c : GcmCtx) (hc : runOps (gcmInit E) ops = some c) (junk : Byte)
    (iv : List Byte) (s : List GcmStep) (k : Nat) (hiv : iv.length < 2 ^ 29) (hs : ∀ x ∈ s, StepOk x) (hd : dataLen s = 0)
    (ha : aadLen (lastAad 0 ops) s = 0) :
    stepsTag c junk iv s k = some (stepsOut E (j0 E iv) s, (E (ofBV (j0 E iv))).toList) := by
  obtain ⟨c', h1, ok, hb, hl, hal, hbuf⟩ := steps_start E ops c hc junk iv s hiv hs
  rw [stepsTag, h1]
  simp only [Option.bind_eq_bind, Option.bind_some]
  rw [finishTimes_none k c' (by rw [hl, hd]; rfl) (by rw [hal, ha]; rfl), hb]
  rfl

/- Two pieces of AAD, data, AAD again, and data decrypted with the same context. -/
example : let s : List GcmStep := [.aad [1, 2], .aad [3], .enc [4, 5, 6], .aad [7], .dec [8]]
    (∀ x ∈ s, StepOk x) ∧ dataLen s = 4 ∧ aadLen 0 s = 1 := by
  simp [StepOk, dataLen, aadLen]

/-! ### padding of each piece -/

theorem padBV_zero (x : List Byte) : padBV (x ++ [0]) = padBV x := by
  unfold padBV
  congr 1
  apply Vector.ext
  intro i hi
  simp only [Vector.getElem_ofFn, List.getD_eq_getElem?_getD]
  rcases Nat.lt_trichotomy i x.length with h | h | h
  · rw [List.getElem?_append_left h]
  · subst h; simp
  · rw [List.getElem?_eq_none (by simp; omega), List.getElem?_eq_none (by omega)]

theorem blocks_zero (x : List Byte) (h : x.length % 16 ≠ 0) : (chunks (x ++ [0])).map padBV = (chunks x).map padBV := by
  induction x using chunks_induction with
  | nil => simp at h
  | step x hx ih =>
    rw [chunks_of_ne_nil hx, chunks_of_ne_nil (by simp : x ++ [0] ≠ [])]
    rcases Nat.lt_or_ge x.length 16 with hl | hl
    · rw [List.take_of_length_le (by simp; omega), List.drop_eq_nil_of_le (by simp; omega), List.take_of_length_le (by omega),
        List.drop_eq_nil_of_le (by omega)]
      simp only [List.map_cons, chunks_nil, List.map_nil, padBV_zero]
    · rw [List.take_append_of_le_length hl, List.drop_append_of_le_length hl, List.map_cons, List.map_cons,
        ih (by rw [List.length_drop]; omega)]

theorem stepsTag_congr (E : Block → Block) (ops : List GcmOp) (c : GcmCtx) (hc : runOps (gcmInit E) ops = some c) (junk junk' : Byte)
    (iv : List Byte) (s s' : List GcmStep) (k : Nat) (hiv : iv.length < 2 ^ 29) (hs : ∀ x ∈ s, StepOk x) (hs' : ∀ x ∈ s', StepOk x)
    (hb : stepsBlocks E (j0 E iv) s = stepsBlocks E (j0 E iv) s') (hd : dataLen s = dataLen s')
    (ha : aadLen (lastAad 0 ops) s = aadLen (lastAad 0 ops) s') :
    (stepsTag c junk iv s k).map (·.2) = (stepsTag c junk' iv s' k).map (·.2) := by
  obtain ⟨c1, h1, ok, b1, l1, a1, f1⟩ := steps_start E ops c hc junk iv s hiv hs
  obtain ⟨c2, h2, ok', b2, l2, a2, f2⟩ := steps_start E ops c hc junk' iv s' hiv hs'
  rw [stepsTag, stepsTag, h1, h2]
  simp only [Option.bind_eq_bind, Option.bind_some]
  by_cases hne : c1.len * 8 ≠ 0 ∨ c1.addLen * 8 ≠ 0
  · obtain ⟨_, e1⟩ := finishTimes_eq k c1 ok hne
    obtain ⟨_, e2⟩ := finishTimes_eq k c2 ok' (by rw [l2, a2, ← hd, ← ha, ← l1, ← a1]; exact hne)
    rw [e1, e2, b1, b2, l1, l2, a1, a2, f1, f2, hb, hd, ha]
    rfl
  · have hz : c1.len * 8 = 0 ∧ c1.addLen * 8 = 0 := by
      constructor
      · exact Classical.byContradiction fun h' => hne (Or.inl h')
      · exact Classical.byContradiction fun h' => hne (Or.inr h')
    rw [finishTimes_none k c1 hz.1 hz.2, finishTimes_none k c2 (by rw [l2, ← hd, ← l1]; exact hz.1)
      (by rw [a2, ← ha, ← a1]; exact hz.2), b1, b2]
    rfl

/-- C114: a piece of AAD that is not the last and does not end with a block is hashed like the same piece with a zero behind it:
whatever is done next, neither outputs nor tags differ. -/
theorem C114_aad_pad (E : Block → Block) (ops : List GcmOp) (c : GcmCtx) (hc : runOps (gcmInit E) ops = some c) (junk : Byte)
    (iv a b : List Byte) (s : List GcmStep) (k : Nat) (hiv : iv.length < 2 ^ 29) (ha : a.length + 1 < 2 ^ 61) (hb : b.length < 2 ^ 61)
    (hs : ∀ x ∈ s, StepOk x) (h16 : a.length % 16 ≠ 0) :
    stepsTag c junk iv (.aad a :: .aad b :: s) k = stepsTag c junk iv (.aad (a ++ [0]) :: .aad b :: s) k := by
  have hok : ∀ a : List Byte, a.length < 2 ^ 61 → ∀ x ∈ (.aad a :: .aad b :: s : List GcmStep), StepOk x := by
    intro a ha x hx
    simp only [List.mem_cons] at hx
    rcases hx with rfl | rfl | hx
    · exact ha
    · exact hb
    · exact hs x hx
  have h1 := hok a (by omega)
  have h2 := hok (a ++ [0]) (by simpa using ha)
  have key := stepsTag_congr E ops c hc junk junk iv _ _ k hiv h1 h2
    (by simp only [stepsBlocks]; rw [blocks_zero a h16]) rfl rfl
  obtain ⟨c1, e1, -⟩ := steps_start E ops c hc junk iv _ hiv h1
  obtain ⟨c2, e2, -⟩ := steps_start E ops c hc junk iv _ hiv h2
  rw [stepsTag, stepsTag, e1, e2] at key ⊢
  simp only [Option.bind_eq_bind, Option.bind_some] at key ⊢
  cases f1 : finishTimes k c1 <;> cases f2 : finishTimes k c2 <;> simp_all [stepsOut]

/- "ab", "c" and "ab\0", "c". -/
example : ([0x61, 0x62] : List Byte).length % 16 ≠ 0 := by decide

/-- C114: with an empty AAD last and no data the tag is the same for every AAD before it. -/
theorem C114_aad_lost (E : Block → Block) (ops : List GcmOp) (c : GcmCtx) (hc : runOps (gcmInit E) ops = some c) (junk : Byte)
    (iv a a' : List Byte) (k : Nat) (hiv : iv.length < 2 ^ 29) (ha : a.length < 2 ^ 61) (ha' : a'.length < 2 ^ 61) :
    stepsTag c junk iv [.aad a, .aad []] k = stepsTag c junk iv [.aad a', .aad []] k := by
  rw [C114_tag_nothing E ops c hc junk iv [.aad a, .aad []] k hiv (by simp [StepOk]; omega) rfl rfl,
    C114_tag_nothing E ops c hc junk iv [.aad a', .aad []] k hiv (by simp [StepOk]; omega) rfl rfl]
  rfl

/-- C114: data received in pieces that do not end with a block. The pieces `c1`, `c2 ‖ 0` and the pieces `c1 ‖ 0`, `c2` have the
same tags, though they are not the same ciphertext unless `c2` is zeros. -/
theorem C114_data_pad (E : Block → Block) (ops : List GcmOp) (c : GcmCtx) (hc : runOps (gcmInit E) ops = some c) (junk : Byte)
    (iv a c1 c2 : List Byte) (k : Nat) (hiv : iv.length < 2 ^ 29) (ha : a.length < 2 ^ 61) (h1 : c1.length + 1 < 2 ^ 31)
    (h2 : c2.length + 1 < 2 ^ 31) (h16 : c1.length % 16 ≠ 0) (h16' : c2.length % 16 ≠ 0) :
    (stepsTag c junk iv [.aad a, .dec c1, .dec (c2 ++ [0])] k).map (·.2) =
      (stepsTag c junk iv [.aad a, .dec (c1 ++ [0]), .dec c2] k).map (·.2) ∧
    (c1 ++ (c2 ++ [0]) = (c1 ++ [0]) ++ c2 ↔ ∀ b ∈ c2, b = 0) := by
  constructor
  · apply stepsTag_congr E ops c hc junk junk iv _ _ k hiv
    · simp [StepOk]; omega
    · simp [StepOk]; omega
    · simp only [stepsBlocks, blocks_zero _ h16, blocks_zero _ h16']
    · simp [dataLen]; omega
    · rfl
  · rw [List.append_assoc, List.append_cancel_left_eq]
    constructor
    · intro h
      have : ∀ l : List Byte, l ++ [0] = [0] ++ l → ∀ b ∈ l, b = 0 := by
        intro l
        induction l with
        | nil => simp
        | cons x l ih =>
          intro h b hb
          simp only [List.cons_append, List.nil_append, List.cons.injEq] at h
          obtain ⟨rfl, h⟩ := h
          rcases List.mem_cons.mp hb with rfl | hb
          · rfl
          · exact ih h b hb
      exact this c2 h
    · intro h
      obtain ⟨n, rfl⟩ : ∃ n, c2 = List.replicate n 0 := ⟨_, List.eq_replicate_iff.mpr ⟨rfl, h⟩⟩
      rw [← List.replicate_succ', List.singleton_append, ← List.replicate_succ]

/- Pieces of three bytes and of one byte. -/
example : ([1, 2, 3] : List Byte).length % 16 ≠ 0 ∧ ([4] : List Byte).length % 16 ≠ 0 ∧ ¬ ∀ b ∈ ([4] : List Byte), b = 0 := by decide

/-! ### AAD in pieces of whole blocks -/

theorem gf_cancel {x y h : BitVec 128} : gfMul x h = gfMul y h ↔ h = 0 ∨ x = y := by
  have e : gfMul x h = gfMul y h ↔ (⟨x⟩ : Gf) * ⟨h⟩ = ⟨y⟩ * ⟨h⟩ := by
    rw [Gf.ext_iff, Gf.val_mul, Gf.val_mul]
  rw [e, mul_eq_mul_right_iff, Gf.ext_iff, Gf.ext_iff, Gf.val_zero]
  exact or_comm

theorem xor_left_inj' {x y z : BitVec 128} : x ^^^ y = x ^^^ z ↔ y = z := by
  constructor
  · intro h
    have := congrArg (x ^^^ ·) h
    simpa only [← BitVec.xor_assoc, BitVec.xor_self, BitVec.zero_xor] using this
  · rintro rfl; rfl

theorem lensBlock_inj {a a' n n' : Nat} (ha : a < 2 ^ 61) (ha' : a' < 2 ^ 61) (h : lensBlock a n = lensBlock a' n') : a = a' := by
  have := congrArg (BitVec.extractLsb' 64 64) h
  simp only [lensBlock, BitVec.extractLsb'_append_eq_left] at this
  have := congrArg BitVec.toNat this
  rw [BitVec.toNat_ofNat, BitVec.toNat_ofNat, Nat.mod_eq_of_lt (by omega), Nat.mod_eq_of_lt (by omega)] at this
  omega

theorem block_out_inj {B x y : Block} : some (B ^^^ x).toList = some (B ^^^ y).toList ↔ x = y := by
  constructor
  · intro h
    simp only [Option.some.injEq] at h
    have h := congrArg toBV (Vector.toList_inj.mp h)
    rw [toBV_xor, toBV_xor, xor_left_inj'] at h
    exact toBV_injective h
  · rintro rfl; rfl

theorem ofBV_inj' {x y : BitVec 128} : ofBV x = ofBV y ↔ x = y :=
  ⟨fun h => by rw [← toBV_ofBV x, h, toBV_ofBV], fun h => by rw [h]⟩

/-- C114: AAD given in two pieces, the first of whole blocks, is not AAD given at once: the tags are the same only if the hash key
is zero. -/
theorem C114_aad_pieces (E : Block → Block) (ops : List GcmOp) (c : GcmCtx) (hc : runOps (gcmInit E) ops = some c) (junk : Byte)
    (iv a b p : List Byte) (hiv : iv.length < 2 ^ 29) (hab : (a ++ b).length < 2 ^ 61) (hp : p.length < 2 ^ 31)
    (h16 : a.length % 16 = 0) (ha0 : a ≠ []) (h0 : 0 < p.length ∨ 0 < b.length) :
    ((stepsTag c junk iv [.aad a, .aad b, .enc p] 0).map (·.2) = (stepsTag c junk iv [.aad (a ++ b), .enc p] 0).map (·.2)) ↔
      E zeroBlock = zeroBlock := by
  have hlen : 0 < a.length := List.length_pos_iff.mpr ha0
  have hab' := hab
  rw [List.length_append] at hab
  rw [C114_tag E ops c hc junk iv [.aad a, .aad b, .enc p] 0 hiv (by simp [StepOk]; omega) (by simp [dataLen]; omega)
      (by simp only [aadLen]; omega) (by simpa [dataLen, aadLen] using h0),
    C114_tag E ops c hc junk iv [.aad (a ++ b), .enc p] 0 hiv (by simp [StepOk]; omega) (by simp [dataLen]; omega)
      (by simp only [aadLen]; omega) (by simp only [aadLen, List.length_append]; omega)]
  simp only [stepsBlocks, chunks_append_aligned a b h16, List.map_append, Option.map_some, List.append_nil, List.append_assoc,
    aadLen, dataLen, Nat.zero_add, List.replicate_one]
  rw [block_out_inj, ofBV_inj']
  simp only [← List.append_assoc]
  rw [ghash, ghash, ghashFrom_append, ghashFrom_append _ _ _ [lensBlock (a ++ b).length _]]
  show gfMul _ _ = gfMul _ _ ↔ _
  rw [gf_cancel, xor_left_inj']
  constructor
  · rintro (h | h)
    · exact toBV_injective (by rw [toBV_zero]; exact h)
    · have := lensBlock_inj (by omega) hab' h
      rw [List.length_append] at this
      omega
  · intro h
    left
    rw [hashKey, h, toBV_zero]

/- Sixteen bytes and one byte. -/
example : (List.replicate 16 (1 : Byte)).length % 16 = 0 ∧ List.replicate 16 (1 : Byte) ≠ [] ∧ 0 < ([2] : List Byte).length := by decide

/-! ### AAD behind the data -/

theorem chunks_one {x : List Byte} (h0 : x ≠ []) (h : x.length ≤ 16) : chunks x = [x] := by
  rw [chunks_of_ne_nil h0, List.take_of_length_le h, List.drop_eq_nil_of_le h, chunks_nil]

/-- C114: AAD of one block given before or behind the data, of one block too: the tags are the same only if the padded AAD is the
padded ciphertext, or the hash key is zero or one. -/
theorem C114_aad_behind (E : Block → Block) (ops : List GcmOp) (c : GcmCtx) (hc : runOps (gcmInit E) ops = some c) (junk : Byte)
    (iv a p : List Byte) (hiv : iv.length < 2 ^ 29) (ha0 : a ≠ []) (ha : a.length ≤ 16) (hp0 : p ≠ []) (hp : p.length ≤ 16) :
    ((stepsTag c junk iv [.enc p, .aad a] 0).map (·.2) = (stepsTag c junk iv [.aad a, .enc p] 0).map (·.2)) ↔
      (padBV a = padBV (gcmCipher E iv p) ∨ hashKey E = 0 ∨ hashKey E = gfOne) := by
  have hpl : 0 < p.length := List.length_pos_iff.mpr hp0
  rw [C114_tag E ops c hc junk iv [.enc p, .aad a] 0 hiv (by simp [StepOk]; omega) (by simp [dataLen]; omega)
      (by simp only [aadLen]; omega) (by simp [dataLen]; omega),
    C114_tag E ops c hc junk iv [.aad a, .enc p] 0 hiv (by simp [StepOk]; omega) (by simp [dataLen]; omega)
      (by simp only [aadLen]; omega) (by simp [dataLen]; omega)]
  have hg : gctr E (inc32 (j0 E iv)) p = gcmCipher E iv p := rfl
  have hgl : (gcmCipher E iv p).length = p.length := length_gctr _ _ _
  have hg1 : chunks (gcmCipher E iv p) = [gcmCipher E iv p] :=
    chunks_one (by intro e; rw [e] at hgl; simp at hgl; omega) (by omega)
  simp only [stepsBlocks, hg, hg1, chunks_one ha0 ha, Option.map_some, aadLen, dataLen, Nat.zero_add, List.replicate_one,
    List.map_cons, List.map_nil, List.append_nil, List.cons_append, List.nil_append]
  rw [block_out_inj, ofBV_inj']
  generalize padBV a = A
  generalize padBV (gcmCipher E iv p) = C
  generalize lensBlock a.length p.length = L
  generalize hashKey E = H
  simp only [ghash, ghashFrom, List.foldl_cons, List.foldl_nil]
  have key : (⟨gfMul (gfMul (gfMul (0 ^^^ C) H ^^^ A) H ^^^ L) H⟩ : Gf) - ⟨gfMul (gfMul (gfMul (0 ^^^ A) H ^^^ C) H ^^^ L) H⟩ =
      ((⟨C⟩ : Gf) - ⟨A⟩) * (⟨H⟩ * ⟨H⟩) * (⟨H⟩ - 1) := by
    have e1 : ∀ X Y : BitVec 128, (⟨gfMul (gfMul (gfMul (0 ^^^ X) H ^^^ Y) H ^^^ L) H⟩ : Gf) =
        (((0 + (⟨X⟩ : Gf)) * ⟨H⟩ + ⟨Y⟩) * ⟨H⟩ + ⟨L⟩) * ⟨H⟩ := by
      intro X Y
      apply Gf.ext
      simp only [Gf.val_mul, Gf.val_add, Gf.val_zero]
      rfl
    rw [e1, e1]
    ring
  have h1 : gfMul (gfMul (gfMul (0 ^^^ C) H ^^^ A) H ^^^ L) H = gfMul (gfMul (gfMul (0 ^^^ A) H ^^^ C) H ^^^ L) H ↔
      ((⟨C⟩ : Gf) - ⟨A⟩) * (⟨H⟩ * ⟨H⟩) * (⟨H⟩ - 1) = 0 := by
    rw [← key, sub_eq_zero, Gf.ext_iff]
  rw [h1]
  simp only [mul_eq_zero, sub_eq_zero, Gf.ext_iff, Gf.val_zero, Gf.val_one, or_self]
  rw [eq_comm (a := C)]
  exact or_assoc

/- One byte of each. -/
example : ([1] : List Byte) ≠ [] ∧ ([1] : List Byte).length ≤ 16 := by decide

/-! ### tags taken again -/

/-- C114: three tags taken one after the other, of any sequence of calls. They are tied by the hash key alone: unless the first
two are the same, no other key fits. -/
theorem C114_three_tags (E : Block → Block) (ops : List GcmOp) (c : GcmCtx) (hc : runOps (gcmInit E) ops = some c) (junk : Byte)
    (iv : List Byte) (s : List GcmStep) (hiv : iv.length < 2 ^ 29) (hs : ∀ x ∈ s, StepOk x) (hd : dataLen s < 2 ^ 61)
    (ha : aadLen (lastAad 0 ops) s < 2 ^ 61) (t0 t1 t2 : Block)
    (h0 : (stepsTag c junk iv s 0).map (·.2) = some t0.toList) (h1 : (stepsTag c junk iv s 1).map (·.2) = some t1.toList)
    (h2 : (stepsTag c junk iv s 2).map (·.2) = some t2.toList) :
    gfMul (toBV (t0 ^^^ t1)) (hashKey E) = toBV (t1 ^^^ t2) ∧
    (t0 ≠ t1 → ∀ h, gfMul (toBV (t0 ^^^ t1)) h = toBV (t1 ^^^ t2) → h = hashKey E) := by
  have hx : ∀ B x y : Block, (B ^^^ x) ^^^ (B ^^^ y) = x ^^^ y := by
    intro B x y
    apply toBV_injective
    simp only [toBV_xor]
    rw [BitVec.xor_comm (toBV B) (toBV x), BitVec.xor_assoc, ← BitVec.xor_assoc (toBV B), BitVec.xor_self, BitVec.zero_xor]
  have key : gfMul (toBV (t0 ^^^ t1)) (hashKey E) = toBV (t1 ^^^ t2) := by
    by_cases hz : 0 < dataLen s ∨ 0 < aadLen (lastAad 0 ops) s
    · rw [C114_tag E ops c hc junk iv s _ hiv hs hd ha hz] at h0 h1 h2
      simp only [Option.map_some, Option.some.injEq, Vector.toList_inj] at h0 h1 h2
      rw [← h0, ← h1, ← h2, hx, hx]
      simp only [ghash, ghashFrom_append, List.replicate_succ, List.replicate_zero]
      generalize ghashFrom (hashKey E) 0 (stepsBlocks E (j0 E iv) s) = g
      generalize lensBlock _ _ = L
      simp only [ghashFrom, List.foldl_cons, List.foldl_nil, toBV_xor, toBV_ofBV]
      have hl : ∀ x y : BitVec 128, x ^^^ y = (x ^^^ L) ^^^ (y ^^^ L) := by
        intro x y
        rw [BitVec.xor_comm y L, BitVec.xor_assoc, ← BitVec.xor_assoc L, BitVec.xor_self, BitVec.zero_xor]
      rw [hl (gfMul (g ^^^ L) (hashKey E)), gfMul_xor]
    · rw [C114_tag_nothing E ops c hc junk iv s _ hiv hs (by omega) (by omega)] at h0 h1 h2
      simp only [Option.map_some, Option.some.injEq, Vector.toList_inj] at h0 h1 h2
      rw [← h0, ← h1, ← h2, toBV_xor, BitVec.xor_self]
      exact gfMul_zero _
  refine ⟨key, fun hne h hh => ?_⟩
  rw [← key, gfMul_comm _ h, gfMul_comm _ (hashKey E)] at hh
  rcases gf_cancel.mp hh with e | e
  · exact absurd e (by
      rw [toBV_xor]
      intro e
      exact hne (toBV_injective (BitVec.xor_eq_zero_iff.mp e)))
  · exact e

/-- The hash key from three tags. -/
noncomputable def keyOfTags (t0 t1 t2 : Block) : Block :=
  open Classical in if h : ∃ H, gfMul (toBV (t0 ^^^ t1)) (toBV H) = toBV (t1 ^^^ t2) then h.choose else zeroBlock

/-- C114: who is given three tags of one message (AAD `a`, ciphertext `ct`), the first two not the same, can make the tag of every
other message under that IV, without the key. -/
theorem C114_forge : ∃ f : List Byte × List Byte → Block × Block × Block → List Byte × List Byte → Block,
    ∀ (E : Block → Block) (ops : List GcmOp) (c : GcmCtx), runOps (gcmInit E) ops = some c → ∀ (junk : Byte) (iv a p : List Byte),
      iv.length < 2 ^ 29 → a.length < 2 ^ 61 → p.length < 2 ^ 31 → ∀ t0 t1 t2 : Block,
      (stepsTag c junk iv [.aad a, .enc p] 0).map (·.2) = some t0.toList →
      (stepsTag c junk iv [.aad a, .enc p] 1).map (·.2) = some t1.toList →
      (stepsTag c junk iv [.aad a, .enc p] 2).map (·.2) = some t2.toList → t0 ≠ t1 →
      ∀ (a' ct' out : List Byte) (outlen : Nat), a'.length < 2 ^ 61 → ct'.length < 2 ^ 31 → ct'.length ≤ outlen →
        outlen ≤ out.length →
        ∃ p', openMsg (gcmInit E) iv a' ct' out outlen 16 =
          some (1, p', (f (a, gcmCipher E iv p) (t0, t1, t2) (a', ct')).toList) := by
  refine ⟨fun m t m' => forgeTag (keyOfTags t.1 t.2.1 t.2.2) m.1 m.2 t.1 m'.1 m'.2, ?_⟩
  intro E ops c hc junk iv a p hiv ha hp t0 t1 t2 h0 h1 h2 hne a' ct' out outlen ha' hct' ho hb
  have hs : ∀ x ∈ ([.aad a, .enc p] : List GcmStep), StepOk x := by simp [StepOk]; omega
  have hd : dataLen [.aad a, .enc p] < 2 ^ 61 := by simp [dataLen]; omega
  have hal : aadLen (lastAad 0 ops) [.aad a, .enc p] < 2 ^ 61 := ha
  obtain ⟨k1, k2⟩ := C114_three_tags E ops c hc junk iv _ hiv hs hd hal t0 t1 t2 h0 h1 h2
  have hk : keyOfTags t0 t1 t2 = E zeroBlock := by
    have hex : ∃ H, gfMul (toBV (t0 ^^^ t1)) (toBV H) = toBV (t1 ^^^ t2) := ⟨E zeroBlock, k1⟩
    rw [keyOfTags, dif_pos hex]
    exact toBV_injective (k2 hne _ hex.choose_spec)
  have hz : 0 < dataLen [.aad a, .enc p] ∨ 0 < aadLen (lastAad 0 ops) [.aad a, .enc p] := by
    by_contra hz
    rw [C114_tag_nothing E ops c hc junk iv _ _ hiv hs (by omega) (by omega)] at h0 h1
    simp only [Option.map_some, Option.some.injEq, Vector.toList_inj] at h0 h1
    exact hne (h0.symm.trans h1)
  rw [C114_tag E ops c hc junk iv _ _ hiv hs hd hal hz] at h0
  simp only [Option.map_some, Option.some.injEq, Vector.toList_inj] at h0
  have ht : gcmTag E iv a (gcmCipher E iv p) = t0 := by
    rw [← h0]
    have hgl : (gcmCipher E iv p).length = p.length := length_gctr _ _ _
    simp only [gcmTag, stepsBlocks, dataLen, aadLen, Nat.zero_add, List.replicate_one, lenBlock, lensBlock, hgl, List.append_nil,
      Nat.add_zero]
    rfl
  obtain ⟨p0, hp0⟩ : ∃ p0, openMsg (gcmInit E) iv a (gcmCipher E iv p) (List.replicate p.length 0) p.length 16 =
      some (1, p0, t0.toList) := by
    have hgl : (gcmCipher E iv p).length = p.length := length_gctr _ _ _
    rw [open_eq E iv a (gcmCipher E iv p) _ p.length 16 (by omega) hiv ha (by omega) (by omega) (by simp),
      List.take_of_length_le (by simp), ht]
    exact ⟨_, rfl⟩
  have hgl : (gcmCipher E iv p).length = p.length := length_gctr _ _ _
  obtain ⟨p', hp'⟩ := C90_forge E iv a (gcmCipher E iv p) a' ct' (List.replicate p.length 0) out p0 p.length outlen t0 hiv ha (by omega)
    ha' hct' (by omega) (by simp) ho hb hp0
  exact ⟨p', by rw [hp']; simp only [hk]⟩

/- Three tags of one byte under a small cipher; the first two are not the same. -/
example : ((stepsTag (gcmInit xorCipher) 0 [] [.aad [1], .enc [5]] 0).map (·.2)) ≠
    ((stepsTag (gcmInit xorCipher) 0 [] [.aad [1], .enc [5]] 1).map (·.2)) := by
  decide +kernel

end Verif.Props
