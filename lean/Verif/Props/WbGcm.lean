import Verif.Model.WbGcm
import Verif.Props.Wbaes
import Verif.Props.Gcm
import Verif.Lemmas.AesEval

/-! C42, C43: the white-box GCM modes against GCM over AES-128. -/
set_option autoImplicit false
set_option linter.unusedSimpArgs false

namespace Verif.Props
open Verif Spec Model

abbrev Comb := Fin 16 → Byte → Byte → Byte

/-- `w` computes counter mode over `E` through encodings `enc`, with `comb` in place of the xor. -/
structure Boxed (w : WbGcmCtx) (E : Block → Block) (enc : Fin 16 → Byte → Byte) (comb : Comb) : Prop where
  block : ∀ y, w.g.block y = Vector.ofFn fun i => enc i (E y)[i]
  box : ∀ i a e, w.box i a (enc i e) = comb i a e
  tab : TabOk w.g.HL w.g.HH (hashKey E)

theorem boxPiece_enc (box : Comb) (enc : Fin 16 → Byte → Byte) (comb : Comb) (h : ∀ i a e, box i a (enc i e) = comb i a e)
    (e : Block) (p : List Byte) : boxPiece box (Vector.ofFn fun i => enc i e[i]) p = boxPiece comb e p := by
  unfold boxPiece
  congr 1
  funext i
  rw [Vector.getElem_ofFn]
  exact h _ _ _

@[simp] theorem length_boxPiece (box : Comb) (e : Block) (p : List Byte) :
    (boxPiece box e p).length = min 16 p.length := by simp [boxPiece]

theorem boxPiece_inv (f g : Comb) (h : ∀ i a e, g i (f i a e) e = a) (e : Block) (p : List Byte) (hp : p.length ≤ 16) :
    boxPiece g e (boxPiece f e p) = p := by
  apply List.ext_getElem
  · simp; omega
  · intro i h1 h2
    simp only [boxPiece, List.getElem_ofFn]
    exact h _ _ _

/-- Counter mode with `comb` in place of the xor. -/
def streamPieces (comb : Comb) (E : Block → Block) : BitVec 128 → List (List Byte) → List Byte
  | _, [] => []
  | v, p :: ps => boxPiece comb (E (ofBV v)) p ++ streamPieces comb E (inc32 v) ps

def stream (comb : Comb) (E : Block → Block) (v : BitVec 128) (x : List Byte) : List Byte := streamPieces comb E v (chunks x)

theorem stream_nil (comb : Comb) (E : Block → Block) (v : BitVec 128) : stream comb E v [] = [] := rfl

theorem stream_step (comb : Comb) (E : Block → Block) (v : BitVec 128) (x : List Byte) (h : x ≠ []) :
    stream comb E v x = boxPiece comb (E (ofBV v)) (x.take 16) ++ stream comb E (inc32 v) (x.drop 16) := by
  rw [stream, chunks_of_ne_nil h, streamPieces]; rfl

theorem length_stream (comb : Comb) (E : Block → Block) (x : List Byte) : ∀ v, (stream comb E v x).length = x.length := by
  induction x using chunks_induction with
  | nil => intro v; rfl
  | step x hx ih => intro v; rw [stream_step _ _ _ _ hx, List.length_append, ih]; simp; omega

theorem chunks_stream_step (comb : Comb) (E : Block → Block) (v : BitVec 128) (x : List Byte) (h : x ≠ []) :
    chunks (stream comb E v x) = boxPiece comb (E (ofBV v)) (x.take 16) :: chunks (stream comb E (inc32 v) (x.drop 16)) := by
  rw [stream_step _ _ _ _ h]
  have hpos := List.length_pos_iff.mpr h
  have hne : boxPiece comb (E (ofBV v)) (x.take 16) ≠ [] := by rw [← List.length_pos_iff]; simp; omega
  rcases Nat.lt_or_ge x.length 16 with hl | hl
  · rw [List.drop_eq_nil_of_le (by omega), stream_nil, List.append_nil, chunks_nil]
    exact chunks_short _ hne (by simp; omega)
  · rw [chunks_append_aligned _ _ (by simp; omega), chunks_short _ hne (by simp; omega)]
    rfl

theorem wbfold_enc {w : WbGcmCtx} {E : Block → Block} {enc : Fin 16 → Byte → Byte} {comb : Comb} (B : Boxed w E enc comb)
    (x : List Byte) : ∀ (y buf : Block) (o : List Byte),
    ∃ y' buf', (chunks x).foldl (wbEncPiece w) (y, buf, o) = (y', buf', o ++ stream comb E (inc32 (toBV y)) x) ∧
      toBV buf' = ghashFrom (hashKey E) (toBV buf) ((chunks (stream comb E (inc32 (toBV y)) x)).map padBV) := by
  induction x using chunks_induction with
  | nil => intro y buf o; exact ⟨y, buf, by simp [stream_nil], rfl⟩
  | step x hx ih =>
    intro y buf o
    rw [chunks_stream_step _ _ _ _ hx, stream_step _ _ _ _ hx, chunks_of_ne_nil hx, List.foldl_cons]
    simp only [wbEncPiece]
    rw [B.block, boxPiece_enc _ _ _ B.box]
    obtain ⟨y', buf', h1, h2⟩ := ih (incCtr y 4 (by decide))
      (gcmMult w.g.HL w.g.HH (xorInto buf (boxPiece comb (E (incCtr y 4 (by decide))) (x.take 16))))
      (o ++ boxPiece comb (E (incCtr y 4 (by decide))) (x.take 16))
    refine ⟨y', buf', ?_, ?_⟩
    · rw [h1, incCtr_eq, incCtr_eq_ofBV, List.append_assoc]
    · rw [h2, gcmMult_eq B.tab, toBV_xorInto, incCtr_eq, incCtr_eq_ofBV]
      simp [ghashFrom]

theorem wbfold_dec {w : WbGcmCtx} {E : Block → Block} {enc : Fin 16 → Byte → Byte} {comb : Comb} (B : Boxed w E enc comb)
    (f : Comb) (hf : ∀ i a e, comb i (f i a e) e = a) (x : List Byte) : ∀ (y buf : Block) (o : List Byte),
    ∃ y' buf', (chunks (stream f E (inc32 (toBV y)) x)).foldl (wbDecPiece w) (y, buf, o) = (y', buf', o ++ x) ∧
      toBV buf' = ghashFrom (hashKey E) (toBV buf) ((chunks (stream f E (inc32 (toBV y)) x)).map padBV) := by
  induction x using chunks_induction with
  | nil => intro y buf o; exact ⟨y, buf, by simp [stream_nil], rfl⟩
  | step x hx ih =>
    intro y buf o
    rw [chunks_stream_step _ _ _ _ hx, List.foldl_cons]
    simp only [wbDecPiece]
    rw [B.block, boxPiece_enc _ _ _ B.box, ← incCtr_eq, ofBV_toBV, boxPiece_inv _ _ hf _ _ (by simp; omega)]
    obtain ⟨y', buf', h1, h2⟩ := ih (incCtr y 4 (by decide))
      (gcmMult w.g.HL w.g.HH (xorInto buf (boxPiece f (E (incCtr y 4 (by decide))) (x.take 16)))) (o ++ x.take 16)
    refine ⟨y', buf', ?_, ?_⟩
    · rw [h1, List.append_assoc, List.take_append_drop]
    · rw [h2, gcmMult_eq B.tab, toBV_xorInto]
      simp [ghashFrom]

theorem wbgcmCrypt_eq (piece) (c : WbGcmCtx) (inp out : List Byte) (outlen : Nat)
    (hl : inp.length < 2 ^ 31) (ho : inp.length ≤ outlen) (hb : outlen ≤ out.length) (y buf : Block) (o : List Byte)
    (h : (chunks inp).foldl (piece c) (c.g.y, c.g.buf, []) = (y, buf, o)) :
    wbgcmCrypt piece c inp out outlen = some
      { ret := 1
        ctx := { c with g := { c.g with len := c.g.len + BitVec.ofNat 64 inp.length, y := y, buf := buf } }
        out := o ++ out.drop o.length } := by
  unfold wbgcmCrypt
  rw [if_neg (by omega), intLen_of_lt hl]
  simp only [Int.toNat_natCast, List.take_length]
  rw [if_pos (by omega), h]
  rfl

theorem init_tab (block : Block → Block) (box : Comb) (h : Block) (E : Block → Block) (hh : h = E zeroBlock) :
    TabOk (wbgcmInit block box h).g.HL (wbgcmInit block box h).g.HH (hashKey E) := by
  subst hh; exact tabOk _

/-- The GHASH value that the tag is made from. -/
def gcmHash (E : Block → Block) (a c : List Byte) : Block :=
  ofBV (ghash (hashKey E) ((chunks a).map padBV ++ (chunks c).map padBV ++ [lenBlock a c]))

theorem gcmTag_hash (E : Block → Block) (iv a c : List Byte) : gcmTag E iv a c = E (ofBV (j0 E iv)) ^^^ gcmHash E a c := rfl

/-- The tag as the white-box modes compute it. -/
def wbTag (enc : Fin 16 → Byte → Byte) (comb : Comb) (E : Block → Block) (iv aad c : List Byte) (n : Nat) : List Byte :=
  if c = [] ∧ aad = [] then (Vector.ofFn fun i => enc i (E (ofBV (j0 E iv)))[i]).toList.take n
  else boxPiece comb (E (ofBV (j0 E iv))) ((gcmHash E aad c).toList.take n)

/-- One message: setiv, aad, encrypt, finish. -/
def wbSeal (c : WbGcmCtx) (iv aad p out : List Byte) (outlen taglen : Nat) : Option (Int × List Byte × List Byte) := do
  let r ← wbgcmEncrypt (wbgcmAad (wbgcmSetiv c iv) aad) p out outlen
  let t ← wbgcmFinish r.ctx taglen
  return (r.ret, r.out, t.1)

/-- The receiving side: setiv, aad, decrypt, finish. -/
def wbOpen (c : WbGcmCtx) (iv aad ct out : List Byte) (outlen taglen : Nat) : Option (Int × List Byte × List Byte) := do
  let r ← wbgcmDecrypt (wbgcmAad (wbgcmSetiv c iv) aad) ct out outlen
  let t ← wbgcmFinish r.ctx taglen
  return (r.ret, r.out, t.1)

theorem wbsetiv_y {w : WbGcmCtx} {E : Block → Block} {enc : Fin 16 → Byte → Byte} {comb : Comb} (B : Boxed w E enc comb)
    (iv : List Byte) (h : iv.length < 2 ^ 29) : toBV (wbgcmSetiv w iv).g.y = j0 E iv :=
  setiv_y { w.g with block := E } B.tab iv h

theorem wbaad_boxed {w : WbGcmCtx} {E : Block → Block} {enc : Fin 16 → Byte → Byte} {comb : Comb} (B : Boxed w E enc comb)
    (iv aad : List Byte) : Boxed (wbgcmAad (wbgcmSetiv w iv) aad) E enc comb := ⟨B.block, B.box, B.tab⟩

/-- The state that either direction leaves, and the tag that `finish` makes of it. -/
theorem wbfinish_eq {w : WbGcmCtx} {E : Block → Block} {enc : Fin 16 → Byte → Byte} {comb : Comb} (B : Boxed w E enc comb)
    (iv aad c : List Byte) (n : Nat) (hn : n ≤ 16) (hiv : iv.length < 2 ^ 29) (ha : aad.length < 2 ^ 61)
    (hc : c.length < 2 ^ 31) (y buf : Block)
    (hbuf : toBV buf = ghashFrom (hashKey E) (toBV (wbgcmAad (wbgcmSetiv w iv) aad).g.buf) ((chunks c).map padBV)) :
    let w1 := wbgcmAad (wbgcmSetiv w iv) aad
    ∃ w', wbgcmFinish { w1 with g := { w1.g with len := w1.g.len + BitVec.ofNat 64 c.length, y := y, buf := buf } } n =
      some (wbTag enc comb E iv aad c n, w') := by
  intro w1
  have hy := wbsetiv_y B iv hiv
  have hb : w1.g.baseEctr = Vector.ofFn fun i => enc i (E (ofBV (j0 E iv)))[i] := by
    show w.g.block (wbgcmSetiv w iv).g.y = _
    rw [B.block, ← hy, ofBV_toBV]
  have hlen : w1.g.len + BitVec.ofNat 64 c.length = BitVec.ofNat 64 c.length := by
    show (0 : BitVec 64) + _ = _
    rw [show (0 : BitVec 64) = 0#64 from rfl, BitVec.zero_add]
  have hadd : w1.g.addLen = BitVec.ofNat 64 aad.length := rfl
  unfold wbgcmFinish
  rw [if_neg (by omega)]
  simp only [hlen, hadd, hb]
  by_cases hz : c = [] ∧ aad = []
  · obtain ⟨rfl, rfl⟩ := hz
    exact ⟨_, by simp [wbTag]; rfl⟩
  · have hne : BitVec.ofNat 64 c.length * 8 ≠ 0 ∨ BitVec.ofNat 64 aad.length * 8 ≠ 0 := by
      apply Decidable.byContradiction
      intro h
      have h1 : BitVec.ofNat 64 c.length * 8 = 0 := Decidable.byContradiction fun h' => h (Or.inl h')
      have h2 : BitVec.ofNat 64 aad.length * 8 = 0 := Decidable.byContradiction fun h' => h (Or.inr h')
      exact hz ⟨List.length_eq_zero_iff.mp (mul8_eq_zero (by omega) h1), List.length_eq_zero_iff.mp (mul8_eq_zero ha h2)⟩
    rw [if_pos hne, wbTag, if_neg hz]
    refine ⟨_, congrArg (fun t => some (t, _)) ?_⟩
    rw [boxPiece_enc _ _ _ (show ∀ i a e, w1.box i a (enc i e) = comb i a e from B.box), finish_work]
    have hb0 : toBV w1.g.buf = ghashFrom (hashKey E) 0 ((chunks aad).map padBV) := by
      show toBV (absorb w.g.HL w.g.HH zeroBlock aad) = _
      rw [absorb_eq B.tab]; rfl
    have hg : gcmMult w1.g.HL w1.g.HH (buf ^^^ ofBV ((BitVec.ofNat 64 aad.length * 8) ++ (BitVec.ofNat 64 c.length * 8))) =
        gcmHash E aad c := by
      apply toBV_injective
      rw [gcmMult_eq (show TabOk w1.g.HL w1.g.HH (hashKey E) from B.tab), toBV_xor, hbuf, toBV_ofBV, gcmHash, toBV_ofBV, ghash, ghashFrom_append, ghashFrom_append,
        ofNat_mul8, ofNat_mul8, hb0]
      rfl
    rw [hg]

theorem wbseal_eq {w : WbGcmCtx} {E : Block → Block} {enc : Fin 16 → Byte → Byte} {comb : Comb} (B : Boxed w E enc comb)
    (iv aad p out : List Byte) (outlen n : Nat) (hn : n ≤ 16) (hiv : iv.length < 2 ^ 29) (ha : aad.length < 2 ^ 61)
    (hp : p.length < 2 ^ 31) (ho : p.length ≤ outlen) (hb : outlen ≤ out.length) :
    wbSeal w iv aad p out outlen n = some (1, stream comb E (inc32 (j0 E iv)) p ++ out.drop p.length,
      wbTag enc comb E iv aad (stream comb E (inc32 (j0 E iv)) p) n) := by
  have hy := wbsetiv_y B iv hiv
  obtain ⟨y', buf', h1, h2⟩ := wbfold_enc (wbaad_boxed B iv aad) p (wbgcmAad (wbgcmSetiv w iv) aad).g.y
    (wbgcmAad (wbgcmSetiv w iv) aad).g.buf []
  rw [show toBV (wbgcmAad (wbgcmSetiv w iv) aad).g.y = j0 E iv from hy, List.nil_append] at h1
  rw [show toBV (wbgcmAad (wbgcmSetiv w iv) aad).g.y = j0 E iv from hy] at h2
  have hl := length_stream comb E p (inc32 (j0 E iv))
  rw [wbSeal, wbgcmEncrypt, wbgcmCrypt_eq _ _ p out outlen hp ho hb _ _ _ h1]
  obtain ⟨w', hw⟩ := wbfinish_eq B iv aad (stream comb E (inc32 (j0 E iv)) p) n hn hiv ha (by omega) y' buf' h2
  rw [hl] at hw
  simp only [Option.bind_eq_bind, Option.bind_some]
  rw [hw, hl]
  rfl

theorem wbopen_eq {w : WbGcmCtx} {E : Block → Block} {enc : Fin 16 → Byte → Byte} {comb : Comb} (B : Boxed w E enc comb)
    (f : Comb) (hf : ∀ i a e, comb i (f i a e) e = a)
    (iv aad p out : List Byte) (outlen n : Nat) (hn : n ≤ 16) (hiv : iv.length < 2 ^ 29) (ha : aad.length < 2 ^ 61)
    (hp : p.length < 2 ^ 31) (ho : p.length ≤ outlen) (hb : outlen ≤ out.length) :
    wbOpen w iv aad (stream f E (inc32 (j0 E iv)) p) out outlen n = some (1, p ++ out.drop p.length,
      wbTag enc comb E iv aad (stream f E (inc32 (j0 E iv)) p) n) := by
  have hy := wbsetiv_y B iv hiv
  obtain ⟨y', buf', h1, h2⟩ := wbfold_dec (wbaad_boxed B iv aad) f hf p (wbgcmAad (wbgcmSetiv w iv) aad).g.y
    (wbgcmAad (wbgcmSetiv w iv) aad).g.buf []
  rw [show toBV (wbgcmAad (wbgcmSetiv w iv) aad).g.y = j0 E iv from hy] at h1 h2
  rw [List.nil_append] at h1
  have hl := length_stream f E p (inc32 (j0 E iv))
  rw [wbOpen, wbgcmDecrypt, wbgcmCrypt_eq _ _ _ out outlen (by omega) (by omega) hb _ _ _ h1]
  obtain ⟨w', hw⟩ := wbfinish_eq B iv aad (stream f E (inc32 (j0 E iv)) p) n hn hiv ha (by omega) y' buf' h2
  simp only [Option.bind_eq_bind, Option.bind_some]
  rw [hw]
  rfl

/-! ### external encodings -/

def xorComb : Comb := fun _ a e => a ^^^ e

theorem boxPiece_xor (e : Block) (p : List Byte) :
    boxPiece xorComb e p = List.zipWith (fun a b => a ^^^ b) p e.toList := by
  apply List.ext_getElem
  · simp; omega
  · intro i h1 h2
    simp [boxPiece, xorComb]

theorem stream_xor (E : Block → Block) (x : List Byte) : ∀ v, stream xorComb E v x = gctr E v x := by
  induction x using chunks_induction with
  | nil => intro v; rfl
  | step x hx ih => intro v; rw [stream_step _ _ _ _ hx, gctr_step _ _ _ hx, ih, boxPiece_xor]

theorem wbTag_xor (enc : Fin 16 → Byte → Byte) (E : Block → Block) (iv aad c : List Byte) (n : Nat) (h : ¬(c = [] ∧ aad = [])) :
    wbTag enc xorComb E iv aad c n = (gcmTag E iv aad c).toList.take n := by
  rw [wbTag, if_neg h, gcmTag_hash]
  apply List.ext_getElem
  · simp; omega
  · intro i h1 h2
    simp at h1
    have h3 : i < 16 := by omega
    simp only [boxPiece, xorComb, List.getElem_ofFn, List.getElem_take, Vector.getElem_toList]
    rw [Vec.getElem_xor, BitVec.xor_comm]

def BytePermOk (p : BytePerm) : Prop := (∀ x, p.inv (p.fwd x) = x) ∧ (∀ x, p.fwd (p.inv x) = x)

theorem genByte_ok (rnd : Nat → BitVec 32) (junk : Vector (Fin 256) 256) : BytePermOk (genByte rnd junk) := by
  obtain ⟨h1, h2⟩ := genPermutation_spec rnd junk
  exact ⟨fun x => congrArg BitVec.ofFin (h1 x.toFin), fun x => congrArg BitVec.ofFin (h2 x.toFin)⟩

/-- Encoding of the counter-mode output in the ee mode. -/
def eeEnc (r : WbaesRnd) (r1 : Fin 16 → Nat → BitVec 32) (junk : Vector (Fin 256) 256) (i : Fin 16) (y : Byte) : Byte :=
  (genByte (r1 i) junk).fwd (matMulNum (r.enc.exOut i).mat y)

theorem ee_block (r : WbaesRnd) (r1 r2 : Fin 16 → Nat → BitVec 32) (junk : Vector (Fin 256) 256) (key x : Block) :
    wbEeBlock (wbEeGenTable r r1 r2 junk key) x = Vector.ofFn fun i => eeEnc r r1 junk i (aes128 key x)[i] := by
  apply Vector.ext
  intro m hm
  have h := wbaes_core r key (fun j y => (genByte (r1 j) junk).fwd y) x ⟨m, hm⟩
  simp only [Fin.getElem_fin] at h
  simp only [wbEeBlock, wbEeGenTable, Vector.getElem_ofFn, Fin.getElem_fin]
  rw [h]; rfl

theorem ee_box (r : WbaesRnd) (r1 r2 : Fin 16 → Nat → BitVec 32) (junk : Vector (Fin 256) 256) (key : Block)
    (i : Fin 16) (a e : Byte) : wbEeBox (wbEeGenTable r r1 r2 junk key) i a (eeEnc r r1 junk i e) = a ^^^ e := by
  simp only [wbEeBox, wbEeGenTable, eeEnc]
  rw [(genByte_ok _ _).1, (genByte_ok _ _).1, ← matMulNum_xor, ((enc_ok r).exOut i).1, BitVec.xor_comm]

theorem ee_boxed (r : WbaesRnd) (r1 r2 : Fin 16 → Nat → BitVec 32) (junk : Vector (Fin 256) 256) (key : Block) :
    Boxed (wbEeInit (wbEeGenTable r r1 r2 junk key)) (aes128 key) (eeEnc r r1 junk) xorComb := by
  refine ⟨ee_block r r1 r2 junk key, ee_box r r1 r2 junk key, ?_⟩
  have : (Vector.ofFn fun i : Fin 16 => wbEeBox (wbEeGenTable r r1 r2 junk key) i 0
      (wbEeBlock (wbEeGenTable r r1 r2 junk key) zeroBlock)[i]) = aes128 key zeroBlock := by
    apply Vector.ext
    intro m hm
    rw [ee_block]
    simp only [Vector.getElem_ofFn, Fin.getElem_fin, ee_box]
    simp
  exact init_tab _ _ _ _ this

/-- C42: for every key and every outcome of the random tables, the ee mode gives the AES-GCM ciphertext; the tag is the
AES-GCM tag unless message and AAD are both empty. -/
theorem C42_ee_is_gcm (r : WbaesRnd) (r1 r2 : Fin 16 → Nat → BitVec 32) (junk : Vector (Fin 256) 256) (key : Block)
    (iv aad p out : List Byte) (outlen n : Nat) (hn : n ≤ 16) (hiv : iv.length < 2 ^ 29) (ha : aad.length < 2 ^ 61)
    (hp : p.length < 2 ^ 31) (ho : p.length ≤ outlen) (hb : outlen ≤ out.length) :
    ∃ tag, wbSeal (wbEeInit (wbEeGenTable r r1 r2 junk key)) iv aad p out outlen n =
        some (1, gcmCipher (aes128 key) iv p ++ out.drop p.length, tag) ∧
      (¬(p = [] ∧ aad = []) → tag = (gcmTag (aes128 key) iv aad (gcmCipher (aes128 key) iv p)).toList.take n) := by
  have hs := wbseal_eq (ee_boxed r r1 r2 junk key) iv aad p out outlen n hn hiv ha hp ho hb
  rw [stream_xor, show gctr (aes128 key) (inc32 (j0 (aes128 key) iv)) p = gcmCipher (aes128 key) iv p from rfl] at hs
  refine ⟨_, hs, ?_⟩
  intro hne
  rw [wbTag_xor]
  · rintro ⟨h1, h2⟩
    refine hne ⟨?_, h2⟩
    have := congrArg List.length h1
    rw [gcmCipher, length_gctr] at this
    exact List.length_eq_zero_iff.mp this

/-- C42: contexts made from the same key by two runs of the generator interoperate: decryption returns the plaintext and
the receiver computes the same tag. -/
theorem C42_ee_roundtrip (r rr : WbaesRnd) (r1 r2 rr1 rr2 : Fin 16 → Nat → BitVec 32) (junk junk' : Vector (Fin 256) 256)
    (key : Block) (iv aad p out out2 : List Byte) (outlen outlen2 n : Nat) (hn : n ≤ 16) (hiv : iv.length < 2 ^ 29)
    (ha : aad.length < 2 ^ 61) (hp : p.length < 2 ^ 31) (ho : p.length ≤ outlen) (hb : outlen ≤ out.length)
    (ho2 : p.length ≤ outlen2) (hb2 : outlen2 ≤ out2.length) :
    ∃ o tag tag', wbSeal (wbEeInit (wbEeGenTable r r1 r2 junk key)) iv aad p out outlen n = some (1, o, tag) ∧
      wbOpen (wbEeInit (wbEeGenTable rr rr1 rr2 junk' key)) iv aad (o.take p.length) out2 outlen2 n =
        some (1, p ++ out2.drop p.length, tag') ∧ (¬(p = [] ∧ aad = []) → tag' = tag) := by
  have hop := wbopen_eq (ee_boxed rr rr1 rr2 junk' key) xorComb (fun i a e => by simp [xorComb, BitVec.xor_assoc]) iv aad p out2
      outlen2 n hn hiv ha hp ho2 hb2
  have ht : (stream xorComb (aes128 key) (inc32 (j0 (aes128 key) iv)) p ++ out.drop p.length).take p.length =
      stream xorComb (aes128 key) (inc32 (j0 (aes128 key) iv)) p := List.take_left' (length_stream _ _ _ _)
  rw [← ht] at hop
  refine ⟨_, _, _, wbseal_eq (ee_boxed r r1 r2 junk key) iv aad p out outlen n hn hiv ha hp ho hb, hop, ?_⟩
  rw [ht]
  · intro hne
    have hne' : ¬(stream xorComb (aes128 key) (inc32 (j0 (aes128 key) iv)) p = [] ∧ aad = []) := by
      rintro ⟨h1, h2⟩
      refine hne ⟨?_, h2⟩
      have := congrArg List.length h1
      rw [length_stream] at this
      exact List.length_eq_zero_iff.mp this
    rw [wbTag_xor _ _ _ _ _ _ hne', wbTag_xor _ _ _ _ _ _ hne']

/-- C42: with neither message nor AAD the tag is the *encoded* `E(J0)`: it depends on the random tables. -/
theorem C42_ee_empty_tag (r : WbaesRnd) (r1 r2 : Fin 16 → Nat → BitVec 32) (junk : Vector (Fin 256) 256) (key : Block)
    (iv out : List Byte) (outlen : Nat) (hiv : iv.length < 2 ^ 29) (hb : outlen ≤ out.length) :
    wbSeal (wbEeInit (wbEeGenTable r r1 r2 junk key)) iv [] [] out outlen 16 = some (1, out,
      List.ofFn fun i => (genByte (r1 i) junk).fwd (matMulNum (r.enc.exOut i).mat (aes128 key (ofBV (j0 (aes128 key) iv)))[i])) := by
  rw [wbseal_eq (ee_boxed r r1 r2 junk key) iv [] [] out outlen 16 (by omega) hiv (by simp) (by simp) (by simp) hb]
  simp [stream_nil, wbTag, eeEnc, Vector.toList_ofFn]

/-! ### masking -/

theorem boxPiece_layer (L : Fin 16 → Byte → Byte) (e : Block) (p : List Byte) :
    boxPiece (fun i a e => L i (a ^^^ e)) e p =
      (List.zipWith (fun a b => a ^^^ b) p e.toList).mapIdx fun i b => L ⟨i % 16, Nat.mod_lt _ (by decide)⟩ b := by
  apply List.ext_getElem
  · simp; omega
  · intro i h1 h2
    simp at h1
    have : i % 16 = i := Nat.mod_eq_of_lt (by omega)
    simp [boxPiece, this]

/-- A byte-wise layer `L`, position by position modulo 16. -/
def layer (L : Fin 16 → Byte → Byte) (l : List Byte) : List Byte := l.mapIdx fun i b => L ⟨i % 16, Nat.mod_lt _ (by decide)⟩ b

theorem stream_layer (L : Fin 16 → Byte → Byte) (E : Block → Block) (x : List Byte) : ∀ v,
    stream (fun i a e => L i (a ^^^ e)) E v x = layer L (gctr E v x) := by
  induction x using chunks_induction with
  | nil => intro v; rfl
  | step x hx ih =>
    intro v
    rw [stream_step _ _ _ _ hx, gctr_step _ _ _ hx, ih, boxPiece_layer, layer, layer, List.mapIdx_append]
    rcases Nat.lt_or_ge x.length 16 with hl | hl
    · rw [List.drop_eq_nil_of_le (by omega), gctr_nil]; rfl
    · have : (List.zipWith (fun a b => a ^^^ b) (x.take 16) (E (ofBV v)).toList).length = 16 := by simp; omega
      rw [this]
      congr 2
      funext i b
      simp

/-- The masked AES: `aux_..._encrypt` gives AES xor the mask. -/
theorem mask_aes (rk : WbaesRnd) (ro : Fin 16 → Fin 2 → Nat → BitVec 32) (key x : Block) (i : Fin 16) :
    (wbaesGenTable rk ro key).typeIb i
      ((auxWbaesEncrypt (wbaesGenTable rk ro key).tab (Vector.ofFn fun i => (wbaesGenTable rk ro key).tab.typeIa i x[i]))[i]) =
      (aes128 key x)[i] := by
  rw [← C41_wbaes_is_aes rk ro key x, wbaesEncrypt]
  simp only [Fin.getElem_fin, Vector.getElem_ofFn]

def maskEncEnc (c : WbaesCtx) (r : WbMaskRnd) (i : Fin 16) (y : Byte) : Byte := (wbMaskEncKey c r).gboxII i (y ^^^ r.maskEnc[i])
def maskDecEnc (c : WbaesCtx) (r : WbMaskRnd) (i : Fin 16) (y : Byte) : Byte := (wbMaskDecKey c r).gboxII i (y ^^^ r.maskDec[i])

theorem maskEnc_byte (c : WbaesCtx) (r : WbMaskRnd) (i : Fin 16) (z w : Byte) (h : c.typeIb i z = w) :
    (wbMaskEncKey c r).gboxII i ((wbMaskEncKey c r).typeIb i z) = maskEncEnc c r i w := by
  subst h
  simp only [wbMaskEncKey, maskEncEnc]

theorem maskEncBlock_eq (c : WbaesCtx) (r : WbMaskRnd) (y : Block) (v : Fin 16 → Byte)
    (h : ∀ i : Fin 16, c.typeIb i ((auxWbaesEncrypt c.tab (Vector.ofFn fun i => c.tab.typeIa i y[i]))[i]) = v i) :
    wbMaskBlock (wbMaskEncKey c r) y = Vector.ofFn fun i => maskEncEnc c r i (v i) := by
  apply Vector.ext
  intro m hm
  have h' := h ⟨m, hm⟩
  simp only [Fin.getElem_fin] at h'
  have ht : (wbMaskEncKey c r).tab = c.tab := by simp only [wbMaskEncKey]
  simp only [wbMaskBlock, wbMaskAes, Vector.getElem_ofFn, Fin.getElem_fin, ht]
  exact maskEnc_byte c r _ _ _ h'

theorem maskDec_byte (c : WbaesCtx) (r : WbMaskRnd) (i : Fin 16) (z w : Byte) (h : c.typeIb i z = w) :
    (wbMaskDecKey c r).gboxII i ((wbMaskDecKey c r).typeIb i z) = maskDecEnc c r i w := by
  subst h
  simp only [wbMaskDecKey, maskDecEnc]

theorem maskDecBlock_eq (c : WbaesCtx) (r : WbMaskRnd) (y : Block) (v : Fin 16 → Byte)
    (h : ∀ i : Fin 16, c.typeIb i ((auxWbaesEncrypt c.tab (Vector.ofFn fun i => c.tab.typeIa i y[i]))[i]) = v i) :
    wbMaskBlock (wbMaskDecKey c r) y = Vector.ofFn fun i => maskDecEnc c r i (v i) := by
  apply Vector.ext
  intro m hm
  have h' := h ⟨m, hm⟩
  simp only [Fin.getElem_fin] at h'
  have ht : (wbMaskDecKey c r).tab = c.tab := by simp only [wbMaskDecKey]
  simp only [wbMaskBlock, wbMaskAes, Vector.getElem_ofFn, Fin.getElem_fin, ht]
  exact maskDec_byte c r _ _ _ h'

theorem zero_xor8 (x : Byte) : (0 : Byte) ^^^ x = x := BitVec.zero_xor

/-- The linear layer of the mode, and its inverse. -/
def maskL (r : WbMaskRnd) (i : Fin 16) (b : Byte) : Byte := matMulNum (genM 8 (r.L1 i)).mat b
def maskLinv (r : WbMaskRnd) (i : Fin 16) (b : Byte) : Byte := matMulNum (genM 8 (r.L1 i)).inv b

theorem maskL_inv (r : WbMaskRnd) (i : Fin 16) (b : Byte) : maskLinv r i (maskL r i b) = b := (genM8_ok _).1 b

theorem xor_mask (a e m : Byte) : (a ^^^ m) ^^^ (e ^^^ m) = a ^^^ e := by
  rw [BitVec.xor_comm e m, BitVec.xor_assoc, ← BitVec.xor_assoc m m e, BitVec.xor_self, BitVec.zero_xor]

theorem mask_enc_box (c : WbaesCtx) (r : WbMaskRnd) (i : Fin 16) (a e : Byte) :
    wbMaskBox (wbMaskEncKey c r) i a (maskEncEnc c r i e) = maskL r i (a ^^^ e) := by
  simp only [wbMaskBox, wbMaskEncKey, maskEncEnc, maskL]
  rw [(genByte_ok _ _).1, (genByte_ok _ _).1, ← matMulNum_xor, ← matMulNum_xor, (genM8_ok _).1, xor_mask]

theorem mask_dec_box (c : WbaesCtx) (r : WbMaskRnd) (i : Fin 16) (a e : Byte) :
    wbMaskBox (wbMaskDecKey c r) i a (maskDecEnc c r i e) = maskLinv r i a ^^^ e := by
  simp only [wbMaskBox, wbMaskDecKey, maskDecEnc, maskLinv]
  rw [(genByte_ok _ _).1, (genByte_ok _ _).1, ← matMulNum_xor, (genM8_ok _).1, xor_mask]

theorem mask_enc_boxed (rk : WbaesRnd) (ro : Fin 16 → Fin 2 → Nat → BitVec 32) (r : WbMaskRnd) (key : Block) :
    Boxed (wbMaskInit (wbMaskEncKey (wbaesGenTable rk ro key) r)) (aes128 key) (maskEncEnc (wbaesGenTable rk ro key) r)
      (fun i a e => maskL r i (a ^^^ e)) := by
  have hb : ∀ y, wbMaskBlock (wbMaskEncKey (wbaesGenTable rk ro key) r) y =
      Vector.ofFn fun i => maskEncEnc (wbaesGenTable rk ro key) r i (aes128 key y)[i] := by
    intro y
    exact maskEncBlock_eq (wbaesGenTable rk ro key) r y (fun i => (aes128 key y)[i]) (mask_aes rk ro key y)
  refine ⟨hb, mask_enc_box _ r, ?_⟩
  have hh : (Vector.ofFn fun i : Fin 16 => matMulNum ((wbMaskEncKey (wbaesGenTable rk ro key) r).L1 i)
      (wbMaskBox (wbMaskEncKey (wbaesGenTable rk ro key) r) i 0
        (wbMaskBlock (wbMaskEncKey (wbaesGenTable rk ro key) r) zeroBlock)[i])) = aes128 key zeroBlock := by
    apply Vector.ext
    intro m hm
    rw [hb]
    simp only [Vector.getElem_ofFn, Fin.getElem_fin, mask_enc_box]
    rw [zero_xor8]
    exact maskL_inv r _ _
  exact init_tab _ _ _ _ hh

theorem mask_dec_boxed (rk : WbaesRnd) (ro : Fin 16 → Fin 2 → Nat → BitVec 32) (r : WbMaskRnd) (key : Block) :
    Boxed (wbMaskInit (wbMaskDecKey (wbaesGenTable rk ro key) r)) (aes128 key) (maskDecEnc (wbaesGenTable rk ro key) r)
      (fun i a e => maskLinv r i a ^^^ e) := by
  have hb : ∀ y, wbMaskBlock (wbMaskDecKey (wbaesGenTable rk ro key) r) y =
      Vector.ofFn fun i => maskDecEnc (wbaesGenTable rk ro key) r i (aes128 key y)[i] := by
    intro y
    exact maskDecBlock_eq (wbaesGenTable rk ro key) r y (fun i => (aes128 key y)[i]) (mask_aes rk ro key y)
  refine ⟨hb, mask_dec_box _ r, ?_⟩
  have hh : (Vector.ofFn fun i : Fin 16 =>
      (wbMaskBox (wbMaskDecKey (wbaesGenTable rk ro key) r) i (matMulNum ((wbMaskDecKey (wbaesGenTable rk ro key) r).L1 i) 0)
        (wbMaskBlock (wbMaskDecKey (wbaesGenTable rk ro key) r) zeroBlock)[i])) = aes128 key zeroBlock := by
    apply Vector.ext
    intro m hm
    rw [hb]
    simp only [Vector.getElem_ofFn, Fin.getElem_fin, mask_dec_box, maskLinv, matMulNum_zero, zero_xor8]
  exact init_tab _ _ _ _ hh

/-- C43: the masked mode's ciphertext is the AES-GCM ciphertext under the secret byte-wise linear layer `L1`, and decryption
in the matching context returns the plaintext, for every key, mask and outcome of the random tables. -/
theorem C43_mask_roundtrip (re rd : WbaesRnd) (roe rod : Fin 16 → Fin 2 → Nat → BitVec 32) (r : WbMaskRnd) (key : Block)
    (iv aad p out out2 : List Byte) (outlen outlen2 n n2 : Nat) (hn : n ≤ 16) (hn2 : n2 ≤ 16) (hiv : iv.length < 2 ^ 29)
    (ha : aad.length < 2 ^ 61) (hp : p.length < 2 ^ 31) (ho : p.length ≤ outlen) (hb : outlen ≤ out.length)
    (ho2 : p.length ≤ outlen2) (hb2 : outlen2 ≤ out2.length) :
    ∃ o tag tag', wbSeal (wbMaskInit (wbMaskGenTable re rd roe rod r key).1) iv aad p out outlen n = some (1, o, tag) ∧
      o = layer (maskL r) (gcmCipher (aes128 key) iv p) ++ out.drop p.length ∧
      wbOpen (wbMaskInit (wbMaskGenTable re rd roe rod r key).2) iv aad (o.take p.length) out2 outlen2 n2 =
        some (1, p ++ out2.drop p.length, tag') := by
  have hop := wbopen_eq (mask_dec_boxed rd rod r key) (fun i a e => maskL r i (a ^^^ e))
    (fun i a e => by rw [maskL_inv, BitVec.xor_assoc, BitVec.xor_self, BitVec.xor_zero]) iv aad p out2 outlen2 n2 hn2 hiv ha hp ho2 hb2
  have ht : (stream (fun i a e => maskL r i (a ^^^ e)) (aes128 key) (inc32 (j0 (aes128 key) iv)) p ++ out.drop p.length).take
      p.length = stream (fun i a e => maskL r i (a ^^^ e)) (aes128 key) (inc32 (j0 (aes128 key) iv)) p :=
    List.take_left' (length_stream _ _ _ _)
  rw [← ht] at hop
  refine ⟨_, _, _, wbseal_eq (mask_enc_boxed re roe r key) iv aad p out outlen n hn hiv ha hp ho hb, ?_, hop⟩
  rw [stream_layer, gcmCipher]

/-- C43: the tags that the two sides compute for a message that is not empty: `L1(GHASH ^ E(J0))` for the sender,
`L1⁻¹(GHASH) ^ E(J0)` for the receiver, byte by byte.  The GHASH is the same on both sides. -/
theorem C43_mask_tags (re rd : WbaesRnd) (roe rod : Fin 16 → Fin 2 → Nat → BitVec 32) (r : WbMaskRnd) (key : Block)
    (iv aad p out out2 : List Byte) (outlen outlen2 : Nat) (hiv : iv.length < 2 ^ 29)
    (ha : aad.length < 2 ^ 61) (hp : p.length < 2 ^ 31) (ho : p.length ≤ outlen) (hb : outlen ≤ out.length)
    (ho2 : p.length ≤ outlen2) (hb2 : outlen2 ≤ out2.length) (hne : ¬(p = [] ∧ aad = [])) :
    let E := aes128 key
    let c := layer (maskL r) (gcmCipher E iv p)
    let hash : Block := ofBV (ghash (hashKey E) ((chunks aad).map padBV ++ (chunks c).map padBV ++ [lenBlock aad c]))
    let e : Block := E (ofBV (j0 E iv))
    wbSeal (wbMaskInit (wbMaskGenTable re rd roe rod r key).1) iv aad p out outlen 16 =
        some (1, c ++ out.drop p.length, List.ofFn fun i => maskL r i (hash[i] ^^^ e[i])) ∧
      wbOpen (wbMaskInit (wbMaskGenTable re rd roe rod r key).2) iv aad c out2 outlen2 16 =
        some (1, p ++ out2.drop p.length, List.ofFn fun i => maskLinv r i hash[i] ^^^ e[i]) := by
  intro E c hash e
  have hs := wbseal_eq (mask_enc_boxed re roe r key) iv aad p out outlen 16 (by omega) hiv ha hp ho hb
  have hop := wbopen_eq (mask_dec_boxed rd rod r key) (fun i a e => maskL r i (a ^^^ e))
    (fun i a e => by rw [maskL_inv, BitVec.xor_assoc, BitVec.xor_self, BitVec.xor_zero]) iv aad p out2 outlen2 16 (by omega) hiv ha hp ho2 hb2
  rw [stream_layer, show gctr (aes128 key) (inc32 (j0 (aes128 key) iv)) p = gcmCipher (aes128 key) iv p from rfl] at hs hop
  have hcl : ¬(c = [] ∧ aad = []) := by
    rintro ⟨h1, h2⟩
    refine hne ⟨?_, h2⟩
    have := congrArg List.length h1
    simp only [c, layer, List.length_mapIdx, gcmCipher, length_gctr] at this
    exact List.length_eq_zero_iff.mp this
  have htag : ∀ enc comb, wbTag enc comb E iv aad c 16 = List.ofFn fun i => comb i hash[i] e[i] := by
    intro enc comb
    rw [wbTag, if_neg hcl]
    apply List.ext_getElem
    · simp
    · intro i h1 h2
      simp only [boxPiece, List.getElem_ofFn, List.getElem_take, Vector.getElem_toList]
      rfl
  exact ⟨hs.trans (by rw [htag]), hop.trans (by rw [htag])⟩

theorem ofFn_eq_iff {n : Nat} (f g : Fin n → Byte) : List.ofFn f = List.ofFn g ↔ ∀ i, f i = g i := by
  constructor
  · intro h i
    have := congrArg (fun l => l[i.1]?) h
    simpa using this
  · intro h; rw [funext h]

/-- C43: the exact condition under which the 16-byte tags agree. -/
theorem C43_mask_tags_agree_iff (re rd : WbaesRnd) (roe rod : Fin 16 → Fin 2 → Nat → BitVec 32) (r : WbMaskRnd) (key : Block)
    (iv aad p out out2 : List Byte) (outlen outlen2 : Nat) (hiv : iv.length < 2 ^ 29)
    (ha : aad.length < 2 ^ 61) (hp : p.length < 2 ^ 31) (ho : p.length ≤ outlen) (hb : outlen ≤ out.length)
    (ho2 : p.length ≤ outlen2) (hb2 : outlen2 ≤ out2.length) (hne : ¬(p = [] ∧ aad = [])) :
    let E := aes128 key
    let c := layer (maskL r) (gcmCipher E iv p)
    let hash : Block := ofBV (ghash (hashKey E) ((chunks aad).map padBV ++ (chunks c).map padBV ++ [lenBlock aad c]))
    let e : Block := E (ofBV (j0 E iv))
    ((wbSeal (wbMaskInit (wbMaskGenTable re rd roe rod r key).1) iv aad p out outlen 16).map (·.2.2) =
      (wbOpen (wbMaskInit (wbMaskGenTable re rd roe rod r key).2) iv aad c out2 outlen2 16).map (·.2.2)) ↔
      ∀ i : Fin 16, maskL r i (hash[i] ^^^ e[i]) = maskLinv r i hash[i] ^^^ e[i] := by
  intro E c hash e
  obtain ⟨h1, h2⟩ := C43_mask_tags re rd roe rod r key iv aad p out out2 outlen outlen2 hiv ha hp ho hb ho2 hb2 hne
  rw [h1, h2]
  simp only [Option.map_some, Option.some.injEq]
  exact ofFn_eq_iff _ _

/-- Choices of the generator used as a witness: every call draws the values 0, 7, 14, ... -/
def witnessRnd : WbMaskRnd where
  L1 _ n := BitVec.ofNat 32 (n * 7)
  L2 _ n := BitVec.ofNat 32 (n * 7)
  L3 _ n := BitVec.ofNat 32 (n * 7)
  N1 _ n := BitVec.ofNat 32 (n * 7)
  N2 _ n := BitVec.ofNat 32 (n * 7)
  N3 _ n := BitVec.ofNat 32 (n * 7)
  N4 _ n := BitVec.ofNat 32 (n * 7)
  junk := Vector.replicate 256 0
  maskEnc := zeroBlock
  maskDec := zeroBlock

theorem witness_hash : gcmHash (aes128 zeroBlock) [0] [] =
    #v[0xe6, 0x92, 0x01, 0x7e, 0xe3, 0x75, 0xc2, 0x4b, 0xae, 0x94, 0xbd, 0x4e, 0xf8, 0xa2, 0xc3, 0xb8] := by
  rw [show aes128 zeroBlock = aesEval zeroBlock from funext fun x => (aesEval_eq _ x).symm]
  decide +kernel

theorem witness_base : aes128 zeroBlock (ofBV (j0 (aes128 zeroBlock) (List.replicate 12 0))) =
    #v[0x58, 0xe2, 0xfc, 0xce, 0xfa, 0x7e, 0x30, 0x61, 0x36, 0x7f, 0x1d, 0x57, 0xa4, 0xe7, 0x45, 0x5a] := by
  rw [show aes128 zeroBlock = aesEval zeroBlock from funext fun x => (aesEval_eq _ x).symm]
  decide +kernel

/-- C43: the tags really differ: one byte of AAD, no message, whatever tables the AES part gets. -/
theorem C43_mask_tags_differ (re rd : WbaesRnd) (roe rod : Fin 16 → Fin 2 → Nat → BitVec 32) :
    (wbSeal (wbMaskInit (wbMaskGenTable re rd roe rod witnessRnd zeroBlock).1) (List.replicate 12 0) [0] [] [] 0 16).map (·.2.2) ≠
      (wbOpen (wbMaskInit (wbMaskGenTable re rd roe rod witnessRnd zeroBlock).2) (List.replicate 12 0) [0] [] [] 0 16).map (·.2.2) := by
  intro h
  have hi := (C43_mask_tags_agree_iff re rd roe rod witnessRnd zeroBlock (List.replicate 12 0) [0] [] [] [] 0 0
    (by decide) (by decide) (by decide) (by decide) (by decide) (by decide) (by decide) (by decide)).mp h 0
  rw [show ofBV (ghash (hashKey (aes128 zeroBlock)) ((chunks [0]).map padBV ++
    (chunks (layer (maskL witnessRnd) (gcmCipher (aes128 zeroBlock) (List.replicate 12 0) []))).map padBV ++
    [lenBlock [0] (layer (maskL witnessRnd) (gcmCipher (aes128 zeroBlock) (List.replicate 12 0) []))])) =
    gcmHash (aes128 zeroBlock) [0] [] from rfl, witness_hash, witness_base] at hi
  revert hi
  decide +kernel

/- NIST GCM test case 1 (key 0, IV 0, nothing else): the standard tag, for comparison with `C42_ee_empty_tag`. -/
example : gcmTag (aes128 zeroBlock) (List.replicate 12 0) [] [] =
    #v[0x58, 0xe2, 0xfc, 0xce, 0xfa, 0x7e, 0x30, 0x61, 0x36, 0x7f, 0x1d, 0x57, 0xa4, 0xe7, 0x45, 0x5a] := by
  rw [show aes128 zeroBlock = aesEval zeroBlock from funext fun x => (aesEval_eq _ x).symm]
  decide +kernel

/- Hypotheses of C42 and C43: a 12-byte IV, 20 bytes of AAD, a 33-byte message. -/
example : (List.replicate 12 (7 : Byte)).length < 2 ^ 29 ∧ (List.replicate 20 (7 : Byte)).length < 2 ^ 61 ∧
  (List.replicate 33 (7 : Byte)).length < 2 ^ 31 ∧ (List.replicate 33 (7 : Byte)).length ≤ 40 ∧
  40 ≤ (List.replicate 40 (7 : Byte)).length ∧ ¬(List.replicate 33 (7 : Byte) = [] ∧ List.replicate 20 (7 : Byte) = []) := by decide

end Verif.Props
