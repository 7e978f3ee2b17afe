import Verif.Model.Seed
import Verif.Props.Random
import Verif.Props.Matrix
import Verif.Props.WbGcm

/-! Property C89: the white-box contexts as functions of the clock. -/
set_option autoImplicit false

namespace Verif.Props
open Verif Verif.Model Verif.Spec

/-! ### two runs side by side -/

/-- Two states with the same counter, whose next `n` readings of the clock agree. -/
structure AlikeW (clock clock' : Nat → BitVec 32) (n : Nat) (g g' : Rng) : Prop where
  seed : g.seed = g'.seed
  time : ∀ k, k < n → clock (g.now + k) = clock' (g'.now + k)

/-- The same generator state as well. -/
structure Alike (clock clock' : Nat → BitVec 32) (n : Nat) (g g' : Rng) : Prop extends AlikeW clock clock' n g g' where
  st : g.st = g'.st

/-- Draws with `c` readings of the clock that give related results in both runs. -/
def Same {α : Type} (clock clock' : Nat → BitVec 32) (R : α → α → Prop) (c : Nat) (a a' : Rng → α × Rng) : Prop :=
  ∀ n g g', Alike clock clock' (n + c) g g' → R (a g).1 (a' g').1 ∧ Alike clock clock' n (a g).2 (a' g').2

/-- The same without assuming the same generator state: the draw seeds first. -/
def SameW {α : Type} (clock clock' : Nat → BitVec 32) (R : α → α → Prop) (c : Nat) (a a' : Rng → α × Rng) : Prop :=
  ∀ n g g', AlikeW clock clock' (n + c) g g' → R (a g).1 (a' g').1 ∧ Alike clock clock' n (a g).2 (a' g').2

/-- The first `k` results related. -/
def RelN {α : Type} (k : Nat) (R : α → α → Prop) (f f' : Nat → α) : Prop := ∀ j, j < k → R (f j) (f' j)

def RelP {α β : Type} (R : α → α → Prop) (S : β → β → Prop) (x x' : α × β) : Prop := R x.1 x'.1 ∧ S x.2 x'.2

section
variable {clock clock' : Nat → BitVec 32}

theorem SameW.same {α : Type} {R : α → α → Prop} {c : Nat} {a a' : Rng → α × Rng} (h : SameW clock clock' R c a a') :
    Same clock clock' R c a a' := fun n g g' hg => h n g g' hg.toAlikeW

theorem alike_time {n : Nat} {g g' : Rng} (h : AlikeW clock clock' (n + 1) g g') :
    Alike clock clock' n (rngTime clock g) (rngTime clock' g') := by
  obtain ⟨h2, h3⟩ := h
  unfold rngTime
  refine ⟨⟨by simpa only using h2, ?_⟩, ?_⟩
  · intro k hk
    show clock (g.now + 1 + k) = clock' (g'.now + 1 + k)
    rw [Nat.add_assoc, Nat.add_assoc]
    exact h3 (1 + k) (by omega)
  · show initRandom (clock g.now) = initRandom (clock' g'.now)
    rw [show clock g.now = clock' g'.now from h3 0 (by omega)]

theorem alike_tick {n : Nat} {g g' : Rng} (h : AlikeW clock clock' (n + 1) g g') :
    Alike clock clock' n (rngTick clock g) (rngTick clock' g') := by
  obtain ⟨h2, h3⟩ := h
  refine ⟨⟨?_, ?_⟩, ?_⟩
  · show g.seed + 1 = g'.seed + 1
    rw [h2]
  · intro k hk
    show clock (g.now + 1 + k) = clock' (g'.now + 1 + k)
    rw [Nat.add_assoc, Nat.add_assoc]
    exact h3 (1 + k) (by omega)
  · show initRandom (g.seed ^^^ clock g.now) = initRandom (g'.seed ^^^ clock' g'.now)
    rw [h2, show clock g.now = clock' g'.now from h3 0 (by omega)]

theorem alike_st {n : Nat} {g g' : Rng} (h : Alike clock clock' n g g') (s : RandSt) :
    Alike clock clock' n { g with st := s } { g' with st := s } := ⟨⟨h.seed, h.time⟩, rfl⟩

theorem same_mat (n : Nat) [WSize n] : SameW clock clock' Eq 2 (drawMat n clock) (drawMat n clock') := by
  intro b g g' h
  have h1 := alike_tick (alike_tick (n := b + 1) h).toAlikeW
  unfold drawMat
  simp only [h1.st, true_and]
  exact alike_st h1 _

theorem same_aff (n : Nat) [WSize n] : SameW clock clock' Eq 3 (drawAff n clock) (drawAff n clock') := by
  intro b g g' h
  obtain ⟨h1, h2⟩ := same_mat n (b + 1) g g' h
  have h3 := alike_tick h2.toAlikeW
  unfold drawAff
  simp only [h1, h3.st, true_and]
  exact alike_st h3 _

theorem same_perm (N : Nat) : Same clock clock' Eq 0 (drawPerm N) (drawPerm N) := by
  intro b g g' h
  unfold drawPerm
  simp only [h.st, true_and]
  exact alike_st h _

theorem same_draw1 : Same clock clock' Eq 0 draw1 draw1 := by
  intro b g g' h
  unfold draw1
  simp only [h.st, true_and]
  exact alike_st h _

theorem same_mask : SameW clock clock' Eq 1 (drawMask clock) (drawMask clock') := by
  intro b g g' h
  have h1 := alike_time h
  unfold drawMask
  simp only [h1.st, true_and]
  exact alike_st h1 _

theorem same_pair {α β : Type} {R : α → α → Prop} {S : β → β → Prop} {c d : Nat} {a a' : Rng → α × Rng} {b b' : Rng → β × Rng}
    (ha : Same clock clock' R c a a') (hb : Same clock clock' S d b b') :
    Same clock clock' (RelP R S) (c + d) (drawPair a b) (drawPair a' b') := by
  intro n g g' h
  obtain ⟨h1, h2⟩ := ha (n + d) g g' (by rwa [Nat.add_assoc, Nat.add_comm d])
  obtain ⟨h3, h4⟩ := hb _ _ _ h2
  exact ⟨⟨h1, h3⟩, h4⟩

theorem sameW_pair {α β : Type} {R : α → α → Prop} {S : β → β → Prop} {c d : Nat} {a a' : Rng → α × Rng} {b b' : Rng → β × Rng}
    (ha : SameW clock clock' R c a a') (hb : Same clock clock' S d b b') :
    SameW clock clock' (RelP R S) (c + d) (drawPair a b) (drawPair a' b') := by
  intro n g g' h
  obtain ⟨h1, h2⟩ := ha (n + d) g g' (by rwa [Nat.add_assoc, Nat.add_comm d])
  obtain ⟨h3, h4⟩ := hb _ _ _ h2
  exact ⟨⟨h1, h3⟩, h4⟩

theorem same_iter {α : Type} {R : α → α → Prop} {c : Nat} {a a' : Rng → α × Rng} (ha : Same clock clock' R c a a') (k : Nat) :
    ∀ n g g', Alike clock clock' (n + k * c) g g' → Alike clock clock' n (rngIter a k g) (rngIter a' k g') := by
  induction k with
  | zero => intro n g g' h; rw [Nat.zero_mul] at h; exact h
  | succ k ih =>
    intro n g g' h
    exact ih _ _ _ (ha (n + k * c) g g' (by rwa [Nat.add_assoc, ← Nat.succ_mul])).2

theorem Alike.mono {m n : Nat} {g g' : Rng} (h : Alike clock clock' n g g') (hm : m ≤ n) : Alike clock clock' m g g' :=
  ⟨⟨h.seed, fun k hk => h.time k (by omega)⟩, h.st⟩

theorem same_N {α : Type} {R : α → α → Prop} {c : Nat} {a a' : Rng → α × Rng} (ha : Same clock clock' R c a a') (k : Nat) :
    Same clock clock' (RelN k R) (k * c) (drawN k a) (drawN k a') := by
  intro n g g' h
  refine ⟨?_, same_iter ha k n g g' h⟩
  intro j hj
  refine (ha n _ _ (same_iter ha j (n + c) g g' (h.mono ?_))).1
  have := Nat.mul_le_mul_right c (show j + 1 ≤ k from hj)
  rw [Nat.succ_mul] at this
  omega

theorem sameW_N {α : Type} {R : α → α → Prop} {c : Nat} {a a' : Rng → α × Rng} (ha : SameW clock clock' R c a a') (k : Nat)
    (hk : k ≠ 0) : SameW clock clock' (RelN k R) (k * c) (drawN k a) (drawN k a') := by
  obtain ⟨k, rfl⟩ := Nat.exists_eq_succ_of_ne_zero hk
  intro n g g' h
  obtain ⟨h1, h2⟩ := ha (n + k * c) g g' (by rwa [Nat.add_assoc, ← Nat.succ_mul])
  obtain ⟨h3, h4⟩ := same_N ha.same k n _ _ h2
  refine ⟨?_, h4⟩
  intro j hj
  cases j with
  | zero => exact h1
  | succ j => exact h3 j (by omega)

theorem relP_eq {α β : Type} {x x' : α × β} (h : RelP Eq Eq x x') : x = x' := Prod.ext h.1 h.2

/-- The generators: equal numbers, but for the memory that was not initialised. -/
theorem same_round (jp jp' : Vector (Fin 16) 16) (jk jk' : Nat → Byte) :
    SameW clock clock' (fun r r' => r = { r' with junkPerm := jp, junkKey := jk }) 425
      (roundDraw clock jp jk) (roundDraw clock' jp' jk') := by
  intro n g g' h
  obtain ⟨a1, b1⟩ := sameW_N (same_mat 8) 144 (by decide) (n + 137) g g' h
  obtain ⟨a2, b2⟩ := same_N (same_mat 32).same 36 (n + 65) _ _ b1
  obtain ⟨a3, b3⟩ := same_N (same_pair (same_mat 8).same (same_mat 8).same) 16 (n + 1) _ _ b2
  obtain ⟨a4, b4⟩ := same_N (same_pair (same_perm 16) (same_perm 16)) 1152 n _ _ (alike_time b3.toAlikeW)
  obtain ⟨a5, b5⟩ := same_N (same_pair (same_perm 16) (same_perm 16)) 576 n _ _ b4
  obtain ⟨a6, b6⟩ := same_N (same_pair (same_perm 16) (same_perm 16)) 288 n _ _ b5
  unfold roundDraw
  dsimp only
  refine ⟨?_, b6⟩
  simp only [WbaesRnd.mk.injEq, and_true]
  refine ⟨?_, ?_, ?_, ?_, ?_, ?_, ?_, ?_, ?_, ?_⟩
  · funext i j; exact a1 _ (by omega)
  · funext i j; exact a2 _ (by omega)
  · funext i; exact (a3 _ (by omega)).1
  · funext i; exact (a3 _ (by omega)).2
  · funext i j k; exact (a4 _ (by omega)).1
  · funext i j k; exact (a4 _ (by omega)).2
  · funext i j k; exact (a5 _ (by omega)).1
  · funext i j k; exact (a5 _ (by omega)).2
  · funext i j k; exact (a6 _ (by omega)).1
  · funext i j k; exact (a6 _ (by omega)).2

theorem same_wbaes (jp jp' : Vector (Fin 16) 16) (jk jk' : Nat → Byte) :
    SameW clock clock' (fun r r' => r = ({ r'.1 with junkPerm := jp, junkKey := jk }, r'.2)) 425
      (wbaesDraw clock jp jk) (wbaesDraw clock' jp' jk') := by
  intro n g g' h
  obtain ⟨a1, b1⟩ := same_round jp jp' jk jk' n g g' h
  obtain ⟨a2, b2⟩ := same_N (same_pair (same_perm 16) (same_perm 16)) 32 n _ _ b1
  unfold wbaesDraw
  refine ⟨?_, b2⟩
  simp only [a1, Prod.mk.injEq, WbaesRnd.mk.injEq, true_and, and_true]
  refine ⟨?_, ?_⟩
  · funext i j; exact (a2 _ (by omega)).1
  · funext i j; exact (a2 _ (by omega)).2

theorem same_ee (jp jp' : Vector (Fin 16) 16) (jk jk' : Nat → Byte) :
    SameW clock clock' (fun r r' => r = ({ r'.1 with junkPerm := jp, junkKey := jk }, r'.2)) 425
      (eeDraw clock jp jk) (eeDraw clock' jp' jk') := by
  intro n g g' h
  obtain ⟨a1, b1⟩ := same_round jp jp' jk jk' n g g' h
  obtain ⟨a2, b2⟩ := same_N (same_perm 16) 32 n _ _ b1
  obtain ⟨a3, b3⟩ := same_N (same_pair (same_perm 256) (same_perm 256)) 16 n _ _ b2
  unfold eeDraw
  refine ⟨?_, b3⟩
  simp only [a1, Prod.mk.injEq, WbaesRnd.mk.injEq, true_and, and_true]
  refine ⟨?_, ?_, ?_⟩
  · funext i j; exact a2 _ (by omega)
  · funext i; exact (a3 _ (by omega)).1
  · funext i; exact (a3 _ (by omega)).2

theorem same_maskDraw (junk junk' : Vector (Fin 256) 256) :
    SameW clock clock' (fun r r' => r = { r' with junk := junk }) 98 (maskDraw clock junk) (maskDraw clock' junk') := by
  intro n g g' h
  obtain ⟨a1, b1⟩ := sameW_N (sameW_pair (same_mat 8) (same_pair (same_mat 8).same (same_mat 8).same)) 16 (by decide) (n + 2) _ _ h
  obtain ⟨a2, b2⟩ := same_N (same_pair (same_pair (same_perm 256) (same_perm 256)) (same_pair (same_perm 256) (same_perm 256)))
    16 (n + 2) _ _ b1
  obtain ⟨a3, b3⟩ := same_mask.same (n + 1) _ _ b2
  obtain ⟨a4, b4⟩ := same_mask.same n _ _ b3
  unfold maskDraw
  refine ⟨?_, b4⟩
  simp only [WbMaskRnd.mk.injEq, true_and]
  refine ⟨?_, ?_, ?_, ?_, ?_, ?_, ?_, ?_, ?_⟩
  · funext i; exact (a1 _ (by omega)).1
  · funext i; exact (a1 _ (by omega)).2.1
  · funext i; exact (a1 _ (by omega)).2.2
  · funext i; exact (a2 _ (by omega)).1.1
  · funext i; exact (a2 _ (by omega)).1.2
  · funext i; exact (a2 _ (by omega)).2.1
  · funext i; exact (a2 _ (by omega)).2.2
  · exact a3
  · exact a4

end

/-! ### memory that was not initialised -/

theorem genPermutation_junk {N : Nat} (rnd : Nat → BitVec 32) (junk junk' : Vector (Fin N) N) :
    genPermutation rnd junk = genPermutation rnd junk' := by
  have h1 := (genPermutation_spec rnd junk).2
  have h2 := (genPermutation_spec rnd junk').1
  refine Prod.ext rfl ?_
  apply Vector.ext
  intro i hi
  have a := h2 ((genPermutation rnd junk).2[(⟨i, hi⟩ : Fin N)])
  have b := h1 ⟨i, hi⟩
  have c : (genPermutation rnd junk').1[(genPermutation rnd junk).2[(⟨i, hi⟩ : Fin N)]] = ⟨i, hi⟩ := b
  simp only [c] at a
  exact a.symm

theorem genNib_junk (rnd : Nat → BitVec 32) (junk junk' : Vector (Fin 16) 16) : genNib rnd junk = genNib rnd junk' := by
  unfold genNib
  rw [genPermutation_junk rnd junk junk']

theorem genByte_junk (rnd : Nat → BitVec 32) (junk junk' : Vector (Fin 256) 256) : genByte rnd junk = genByte rnd junk' := by
  unfold genByte
  rw [genPermutation_junk rnd junk junk']

theorem enc_junk (r : WbaesRnd) (jp : Vector (Fin 16) 16) (jk : Nat → Byte) :
    ({ r with junkPerm := jp, junkKey := jk } : WbaesRnd).enc = r.enc := by
  unfold WbaesRnd.enc
  simp only [genNib_junk _ jp r.junkPerm]

theorem tables_junk (E : WbaesEnc) (jk jk' : Nat → Byte) (key : Block) (last : Fin 16 → Byte → Byte) :
    E.tables (shiftKeys (expandKey jk key)) last = E.tables (shiftKeys (expandKey jk' key)) last := by
  unfold WbaesEnc.tables
  simp only [WbaesTables.mk.injEq, and_true]
  refine ⟨?_, ?_⟩
  · funext i j x
    simp only [shiftKeys_spec jk key i.1 (by omega) j, shiftKeys_spec jk' key i.1 (by omega) j]
  · funext j x
    have h1 := shiftKeys_spec jk key 9 (by omega) j
    have h2 := shiftKeys_spec jk' key 9 (by omega) j
    have h3 := shiftKeys_last jk key j
    have h4 := shiftKeys_last jk' key j
    simp only [show 16 * 9 = 144 from rfl, show 16 * 10 = 160 from rfl] at *
    simp only [h1, h2, h3, h4]

theorem wbaes_junk (r : WbaesRnd) (jp : Vector (Fin 16) 16) (jk : Nat → Byte) (ro : Fin 16 → Fin 2 → Nat → BitVec 32) (key : Block) :
    wbaesGenTable { r with junkPerm := jp, junkKey := jk } ro key = wbaesGenTable r ro key := by
  unfold wbaesGenTable
  rw [enc_junk]
  simp only [genNib_junk _ jp r.junkPerm]
  rw [tables_junk _ jk r.junkKey]

theorem ee_junk (r : WbaesRnd) (jp : Vector (Fin 16) 16) (jk : Nat → Byte) (r1 r2 : Fin 16 → Nat → BitVec 32)
    (junk junk' : Vector (Fin 256) 256) (key : Block) :
    wbEeGenTable { r with junkPerm := jp, junkKey := jk } r1 r2 junk key = wbEeGenTable r r1 r2 junk' key := by
  unfold wbEeGenTable
  rw [enc_junk]
  simp only [genByte_junk _ junk junk']
  rw [tables_junk _ jk r.junkKey]

/-! ### C89 -/

/-- C89: the white-box AES context is determined by the key, the counter and the 425 readings of the clock; the state of the
generator and the memory before the call do not enter. -/
theorem C89_wbaes_clock (clock clock' : Nat → BitVec 32) (g g' : Rng) (jp jp' : Vector (Fin 16) 16) (jk jk' : Nat → Byte) (key : Block)
    (hs : g.seed = g'.seed) (hc : ∀ k < 425, clock (g.now + k) = clock' (g'.now + k)) :
    (wbaesSeeded clock jp jk g key).1 = (wbaesSeeded clock' jp' jk' g' key).1 := by
  have h := (same_wbaes jp jp' jk jk' 0 g g' ⟨hs, by simpa using hc⟩).1
  unfold wbaesSeeded
  simp only [h]
  exact wbaes_junk _ _ _ _ _

/-- C89: likewise the context of the white-box GCM with external encodings. -/
theorem C89_ee_clock (clock clock' : Nat → BitVec 32) (g g' : Rng) (jp jp' : Vector (Fin 16) 16) (junk junk' : Vector (Fin 256) 256)
    (jk jk' : Nat → Byte) (key : Block) (hs : g.seed = g'.seed) (hc : ∀ k < 425, clock (g.now + k) = clock' (g'.now + k)) :
    (wbEeSeeded clock jp junk jk g key).1 = (wbEeSeeded clock' jp' junk' jk' g' key).1 := by
  have h := (same_ee jp jp' jk jk' 0 g g' ⟨hs, by simpa using hc⟩).1
  unfold wbEeSeeded
  simp only [h]
  exact ee_junk _ _ _ _ _ _ _ _

theorem maskEncKey_junk (c : WbaesCtx) (r : WbMaskRnd) (junk : Vector (Fin 256) 256) :
    wbMaskEncKey c { r with junk := junk } = wbMaskEncKey c r := by
  unfold wbMaskEncKey
  simp only [genByte_junk _ junk r.junk]

theorem maskDecKey_junk (c : WbaesCtx) (r : WbMaskRnd) (junk : Vector (Fin 256) 256) :
    wbMaskDecKey c { r with junk := junk } = wbMaskDecKey c r := by
  unfold wbMaskDecKey
  simp only [genByte_junk _ junk r.junk]

/-- C89: likewise both contexts of the white-box GCM with masks, with 948 readings. -/
theorem C89_mask_clock (clock clock' : Nat → BitVec 32) (g g' : Rng) (jp jp' : Vector (Fin 16) 16) (junk junk' : Vector (Fin 256) 256)
    (jk jk' : Nat → Byte) (key : Block) (hs : g.seed = g'.seed) (hc : ∀ k < 948, clock (g.now + k) = clock' (g'.now + k)) :
    (wbMaskSeeded clock jp junk jk g key).1 = (wbMaskSeeded clock' jp' junk' jk' g' key).1 := by
  obtain ⟨h1, k1⟩ := same_wbaes jp jp' jk jk' 523 g g' ⟨hs, by simpa using hc⟩
  obtain ⟨h2, k2⟩ := same_wbaes jp jp' jk jk' 98 _ _ k1.toAlikeW
  obtain ⟨h3, k3⟩ := same_maskDraw junk junk' 0 _ _ k2.toAlikeW
  unfold wbMaskSeeded wbMaskGenTable
  simp only [h1, h2, h3]
  exact congrArg₂ Prod.mk (by rw [wbaes_junk, maskEncKey_junk]) (by rw [wbaes_junk, maskDecKey_junk])

theorem se_congr (r r' : SeRnd) (mode : EncMode) (key : List Byte) (hp : ∀ i < 36, r.p i = r'.p i)
    (ha : ∀ i < 32, r.a i = r'.a i) (ht : ∀ i < 32, r.t i = r'.t i) : seGenTable r mode key = seGenTable r' mode key := by
  unfold seGenTable
  simp only [SeCtx.mk.injEq]
  refine ⟨?_, ?_, ?_, ?_, ?_⟩
  · funext i k
    simp only [SeRnd.AA, SeRnd.idx, SeRnd.Pinv, ha i.1 i.2, hp (i.1 + 1 + k.1) (by omega)]
  · funext i
    simp only [SeRnd.P, SeRnd.Pinv, ht i.1 i.2, hp (i.1 + 4) (by omega), hp i.1 (by omega)]
  · funext i
    simp only [SeRnd.P, SeRnd.BB, SeRnd.idx, ha i.1 i.2, ht i.1 i.2, hp (i.1 + 4) (by omega)]
  · funext i
    simp only [SeRnd.P, hp i.1 (by omega)]
  · funext i
    simp only [SeRnd.Pinv, hp (35 - i.1) (by omega)]

/-- C89: likewise the context of white-box SM4 from self-equivalences, with 109 readings. -/
theorem C89_se_clock (clock clock' : Nat → BitVec 32) (g g' : Rng) (mode : EncMode) (key : List Byte)
    (hs : g.seed = g'.seed) (hc : ∀ k < 109, clock (g.now + k) = clock' (g'.now + k)) :
    (seSeeded clock g mode key).1 = (seSeeded clock' g' mode key).1 := by
  have h0 : Alike clock clock' 108 (rngTime clock g) (rngTime clock' g') := alike_time ⟨hs, hc⟩
  obtain ⟨a1, b1⟩ := same_N (same_aff 32).same 36 0 _ _ h0
  obtain ⟨a2, b2⟩ := same_N (same_N same_draw1 5) 32 0 _ _ b1
  unfold seSeeded seDraw
  dsimp only
  apply se_congr
  · exact fun i hi => a1 i hi
  · exact fun i hi => funext fun j => a2 i hi j.1 (by omega)
  · exact fun i hi => a2 i hi 4 (by omega)

theorem rounds_congr (r r' : Wbsm4Rnd) (rk : Sm4Ctx) (junk : Nat → WbRound) (hp : ∀ i < 36, r.p i = r'.p i)
    (he : ∀ i < 32, r.e i = r'.e i) (hq : ∀ i < 32, r.q i = r'.q i) (ht : ∀ i < 32, r.t i = r'.t i) :
    ∀ (ds : List Byte) (i point : Nat) (flag : Bool),
      (∀ k, ds[k]? = some 0 → r.q1 (i + k) = r'.q1 (i + k) ∧ r.q2 (i + k) = r'.q2 (i + k) ∧ r.q3 (i + k) = r'.q3 (i + k)) →
      genRounds r rk junk ds i point flag = genRounds r' rk junk ds i point flag := by
  intro ds
  induction ds with
  | nil => intros; rfl
  | cons d ds ih =>
    intro i point flag hd
    have hd' : ∀ k, ds[k]? = some 0 → r.q1 (i + 1 + k) = r'.q1 (i + 1 + k) ∧ r.q2 (i + 1 + k) = r'.q2 (i + 1 + k) ∧
        r.q3 (i + 1 + k) = r'.q3 (i + 1 + k) := by
      intro k hk
      have := hd (k + 1) (by simpa using hk)
      rwa [show i + (k + 1) = i + 1 + k by omega] at this
    have hr : ∀ p : Fin 32, d = 0 → realRound r rk i p = realRound r' rk i p := by
      intro p h0
      obtain ⟨e1, e2, e3⟩ := hd 0 (by simp [h0])
      rw [Nat.add_zero] at e1 e2 e3
      unfold realRound
      simp only [WbRound.mk.injEq]
      refine ⟨?_, ?_, ?_, ?_⟩
      · funext k
        simp only [e1, Wbsm4Rnd.M, Wbsm4Rnd.EiInv, Wbsm4Rnd.Einv, Wbsm4Rnd.Pinv, he p.1 p.2, hp (p.1 + 1 + k.1) (by omega)]
      · simp only [e2, Wbsm4Rnd.C, Wbsm4Rnd.P, Wbsm4Rnd.Pinv, ht p.1 p.2, hp (p.1 + 4) (by omega), hp p.1 (by omega)]
      · simp only [e2, Wbsm4Rnd.D, Wbsm4Rnd.P, Wbsm4Rnd.Qinv, ht p.1 p.2, hp (p.1 + 4) (by omega), hq p.1 p.2]
      · rw [e3, show r.E p.1 = r'.E p.1 from funext fun j => by simp only [Wbsm4Rnd.E, he p.1 p.2],
          show r.Q p.1 = r'.Q p.1 by simp only [Wbsm4Rnd.Q, hq p.1 p.2]]
    unfold genRounds
    by_cases h0 : d = 0
    · simp only [h0, if_true, ih _ _ _ hd', fun p => hr p h0]
    · simp only [h0, if_false]
      rw [ih _ _ _ hd']

theorem count_take_lt (da : List Byte) (k : Nat) (h : da[k]? = some 0) : (da.take k).count 0 < da.count 0 := by
  have h1 : (da.take (k + 1)).count 0 = (da.take k).count 0 + 1 := by
    rw [List.take_add_one, h, List.count_append]
    simp
  have h2 : (da.take (k + 1)).count 0 ≤ da.count 0 := (List.take_sublist _ _).count_le _
  omega

theorem wbsm4Draw_shuf (clock : Nat → BitVec 32) (shuf : RStream) (da : List Byte) (g : Rng) :
    (wbsm4Draw clock shuf da g).1.shuf = shuf := by unfold wbsm4Draw; rfl

theorem same_wbsm4 (clock clock' : Nat → BitVec 32) (g g' : Rng) (shuf : RStream) (da : List Byte)
    (h0 : Alike clock clock' 588 (rngTime clock g) (rngTime clock' g')) (r r' : Wbsm4Rnd)
    (hr : r = (wbsm4Draw clock shuf da g).1) (hr' : r' = (wbsm4Draw clock' shuf da g').1) :
    (∀ i < 36, r.p i = r'.p i) ∧ (∀ i < 32, r.e i = r'.e i) ∧ (∀ i < 32, r.q i = r'.q i) ∧ (∀ i < 32, r.t i = r'.t i) ∧
      (∀ k, da[k]? = some 0 → r.q1 k = r'.q1 k ∧ r.q2 k = r'.q2 k ∧ r.q3 k = r'.q3 k) ∧ r.qx = r'.qx := by
  obtain ⟨a1, b1⟩ := same_N (same_aff 32).same 36 480 _ _ h0
  obtain ⟨a2, b2⟩ := same_N (same_pair (same_N (same_aff 8).same 4) (same_pair (same_aff 32).same same_draw1)) 32 0 _ _ b1
  obtain ⟨a3, b3⟩ := same_N same_draw1 (9 * da.count 0 + 3) 0 _ _ b2
  unfold wbsm4Draw at hr hr'
  dsimp only at hr hr'
  subst hr hr'
  dsimp only
  refine ⟨fun i hi => a1 i hi, fun i hi => funext fun j => (a2 i hi).1 j.1 j.2, fun i hi => (a2 i hi).2.1, fun i hi => (a2 i hi).2.2,
    ?_, funext fun j => a3 _ (by omega)⟩
  intro k hk
  have := count_take_lt da k hk
  exact ⟨funext fun j => a3 _ (by omega), funext fun j => a3 _ (by omega), funext fun j => a3 _ (by omega)⟩

theorem wbsm4_congr (r r' : Wbsm4Rnd) (junk : Nat → WbRound) (mode : EncMode) (key : List Byte) (da : List Byte)
    (h : (∀ i < 36, r.p i = r'.p i) ∧ (∀ i < 32, r.e i = r'.e i) ∧ (∀ i < 32, r.q i = r'.q i) ∧ (∀ i < 32, r.t i = r'.t i) ∧
      (∀ k, da[k]? = some 0 → r.q1 k = r'.q1 k ∧ r.q2 k = r'.q2 k ∧ r.q3 k = r'.q3 k) ∧ r.qx = r'.qx) :
    genTableWith r junk mode key da = genTableWith r' junk mode key da := by
  obtain ⟨hp, he, hq, ht, hd, hx⟩ := h
  unfold genTableWith
  rw [rounds_congr r r' (sm4InitKey key mode) junk hp he hq ht da 0 0 false
    (fun k hk => by rw [Nat.zero_add]; exact hd k hk)]
  have h1 : (fun i : Fin 4 => affTab r.qx (r.P i.1)) = fun i : Fin 4 => affTab r'.qx (r'.P i.1) := by
    funext i
    rw [hx, Wbsm4Rnd.P, Wbsm4Rnd.P, hp i.1 (by omega)]
  have h2 : (fun i : Fin 4 => affTab r.qx (r.Pinv (35 - i.1))) = fun i : Fin 4 => affTab r'.qx (r'.Pinv (35 - i.1)) := by
    funext i
    rw [hx, Wbsm4Rnd.Pinv, Wbsm4Rnd.Pinv, hp (35 - i.1) (by omega)]
  rw [h1, h2]

/-- C89: likewise the context of white-box SM4 for a given order of the dummy rounds, with 589 readings; `MM` and `DD` of the
dummy rounds are memory that was not initialised. -/
theorem C89_wbsm4_clock (clock clock' : Nat → BitVec 32) (g g' : Rng) (shuf : RStream) (junk : Nat → WbRound) (mode : EncMode) (d : Nat)
    (key : List Byte) (hs : g.seed = g'.seed) (hc : ∀ k < 589, clock (g.now + k) = clock' (g'.now + k)) :
    (wbsm4Seeded clock shuf junk g mode d key).1 = (wbsm4Seeded clock' shuf junk g' mode d key).1 := by
  unfold wbsm4Seeded wbsm4GenTable
  dsimp only
  rw [wbsm4Draw_shuf, wbsm4Draw_shuf]
  rcases hd : dummyArray shuf d with _ | da
  · rw [Option.bind_none, Option.bind_none]
  · rw [Option.bind_some, Option.bind_some, Option.getD_some]
    exact wbsm4_congr _ _ _ _ _ _ (same_wbsm4 clock clock' g g' shuf da (alike_time ⟨hs, hc⟩) _ _ rfl rfl)

/-- C89: within one second a context is a function of the key, the counter and that second, so a process that has just
started makes one of at most `2^32` contexts for a key. -/
theorem C89_one_second : ∃ f : Block → BitVec 32 → BitVec 32 → WbaesCtx,
    ∀ (clock : Nat → BitVec 32) (g : Rng) (jp : Vector (Fin 16) 16) (jk : Nat → Byte) (key : Block) (t : BitVec 32),
      (∀ k < 425, clock (g.now + k) = t) → (wbaesSeeded clock jp jk g key).1 = f key g.seed t := by
  refine ⟨fun key s t => (wbaesSeeded (fun _ => t) (Vector.replicate 16 0) (fun _ => 0) ⟨⟨0, 0⟩, s, 0⟩ key).1, ?_⟩
  intro clock g jp jk key t h
  exact C89_wbaes_clock _ _ _ _ _ _ _ _ _ rfl h

/-! ### which reading of the clock goes where -/

theorem mat_now (n : Nat) [WSize n] (clock : Nat → BitVec 32) (g : Rng) : (drawMat n clock g).2.now = g.now + 2 := rfl
theorem mat_seed (n : Nat) [WSize n] (clock : Nat → BitVec 32) (g : Rng) : (drawMat n clock g).2.seed = g.seed + 2 := by
  show g.seed + 1 + 1 = g.seed + 2
  rw [BitVec.add_assoc]
  rfl

theorem iter_now {α : Type} (a : Rng → α × Rng) (c : Nat) (h : ∀ g, (a g).2.now = g.now + c) (k : Nat) :
    ∀ g, (rngIter a k g).now = g.now + k * c := by
  induction k with
  | zero => intro g; rw [Nat.zero_mul]; rfl
  | succ k ih => intro g; rw [rngIter, ih, h, Nat.succ_mul]; omega

theorem iter_seed {α : Type} (a : Rng → α × Rng) (c : Nat) (h : ∀ g, (a g).2.seed = g.seed + BitVec.ofNat 32 c) (k : Nat) :
    ∀ g, (rngIter a k g).seed = g.seed + BitVec.ofNat 32 (k * c) := by
  induction k with
  | zero => intro g; rw [Nat.zero_mul]; exact (BitVec.add_zero _).symm
  | succ k ih =>
    intro g
    rw [rngIter, ih, h, BitVec.add_assoc, Nat.succ_mul, Nat.add_comm, BitVec.ofNat_add]

/-- Draws that only use the generator state. -/
def SameS {α : Type} (a : Rng → α × Rng) : Prop := ∀ g g' : Rng, g.st = g'.st → (a g).1 = (a g').1 ∧ (a g).2.st = (a g').2.st

theorem sameS_perm (N : Nat) : SameS (drawPerm N) := by
  intro g g' h
  unfold drawPerm
  simp only [h, and_self]

theorem sameS_pair {α β : Type} {a : Rng → α × Rng} {b : Rng → β × Rng} (ha : SameS a) (hb : SameS b) : SameS (drawPair a b) := by
  intro g g' h
  obtain ⟨h1, h2⟩ := ha g g' h
  obtain ⟨h3, h4⟩ := hb _ _ h2
  exact ⟨Prod.ext h1 h3, h4⟩

theorem sameS_iter {α : Type} {a : Rng → α × Rng} (ha : SameS a) (k : Nat) :
    ∀ g g', g.st = g'.st → (rngIter a k g).st = (rngIter a k g').st := by
  induction k with
  | zero => exact fun _ _ h => h
  | succ k ih => exact fun g g' h => ih _ _ (ha g g' h).2

theorem sameS_N {α : Type} {a : Rng → α × Rng} (ha : SameS a) (k : Nat) : SameS (drawN k a) :=
  fun g g' h => ⟨funext fun j => (ha _ _ (sameS_iter ha j g g' h)).1, sameS_iter ha k g g' h⟩

/-- The state before the nibble encodings are drawn: 424 readings of the clock later. -/
theorem mats_now (clock : Nat → BitVec 32) (g : Rng) :
    (drawN 16 (drawPair (drawMat 8 clock) (drawMat 8 clock))
      (drawN 36 (drawMat 32 clock) (drawN 144 (drawMat 8 clock) g).2).2).2.now = g.now + 424 := by
  unfold drawN
  rw [iter_now _ 4 (fun _ => rfl), iter_now _ 2 (fun g => mat_now 32 clock g), iter_now _ 2 (fun g => mat_now 8 clock g)]

theorem round_nibbles (clock clock' : Nat → BitVec 32) (g g' : Rng) (jp jp' : Vector (Fin 16) 16) (jk jk' : Nat → Byte)
    (hc : clock (g.now + 424) = clock' (g'.now + 424)) (r r' : WbaesRnd × Rng) (hr : r = roundDraw clock jp jk g)
    (hr' : r' = roundDraw clock' jp' jk' g') :
    (r.1.outII = r'.1.outII ∧ r.1.outIII = r'.1.outIII ∧ r.1.outIVII1 = r'.1.outIVII1 ∧ r.1.outIVIII1 = r'.1.outIVIII1 ∧
      r.1.outIVII2 = r'.1.outIVII2 ∧ r.1.outIVIII2 = r'.1.outIVIII2) ∧ r.2.st = r'.2.st := by
  have h0 : (rngTime clock (drawN 16 (drawPair (drawMat 8 clock) (drawMat 8 clock))
      (drawN 36 (drawMat 32 clock) (drawN 144 (drawMat 8 clock) g).2).2).2).st =
      (rngTime clock' (drawN 16 (drawPair (drawMat 8 clock') (drawMat 8 clock'))
      (drawN 36 (drawMat 32 clock') (drawN 144 (drawMat 8 clock') g').2).2).2).st := by
    unfold rngTime
    simp only [mats_now, hc]
  have hp := sameS_pair (sameS_perm 16) (sameS_perm 16)
  obtain ⟨a4, b4⟩ := sameS_N hp 1152 _ _ h0
  obtain ⟨a5, b5⟩ := sameS_N hp 576 _ _ b4
  obtain ⟨a6, b6⟩ := sameS_N hp 288 _ _ b5
  unfold roundDraw at hr hr'
  dsimp only at hr hr'
  subst hr hr'
  dsimp only
  simp only [a4, a5, a6, and_self, true_and]
  exact b6

/-- C89: the tables that xor encoded nibbles (`TypeIV_II`, `TypeIV_III`, 1728 of the tables of a context) depend on nothing but
the second in which line 82 of wbaes.c runs: not on the key, the counter, the seconds before, or the memory. -/
theorem C89_typeIV_second (clock clock' : Nat → BitVec 32) (g g' : Rng) (jp jp' : Vector (Fin 16) 16) (jk jk' : Nat → Byte)
    (key key' : Block) (hc : clock (g.now + 424) = clock' (g'.now + 424)) :
    (wbaesSeeded clock jp jk g key).1.tab.typeIVII = (wbaesSeeded clock' jp' jk' g' key').1.tab.typeIVII ∧
      (wbaesSeeded clock jp jk g key).1.tab.typeIVIII = (wbaesSeeded clock' jp' jk' g' key').1.tab.typeIVIII := by
  obtain ⟨⟨h1, h2, h3, h4, h5, h6⟩, -⟩ := round_nibbles clock clock' g g' jp jp' jk jk' hc _ _ rfl rfl
  unfold wbaesSeeded wbaesGenTable wbaesDraw WbaesEnc.tables WbaesRnd.enc
  dsimp only
  simp only [genNib_junk _ _ (Vector.replicate 16 0), h1, h2, h3, h4, h5, h6, and_self]

/-- C89: matrix `L[i][j]` of a context is the one for the seed `(counter + 2 (16 i + j) + 1) ^ second`. -/
theorem C89_L_seed (clock : Nat → BitVec 32) (g : Rng) (jp : Vector (Fin 16) 16) (jk : Nat → Byte) (i : Fin 9) (j : Fin 16) :
    (wbaesDraw clock jp jk g).1.1.enc.L i j = genM 8 (randNth (initRandom
      ((g.seed + BitVec.ofNat 32 (2 * (16 * i.1 + j.1) + 1)) ^^^ clock (g.now + (2 * (16 * i.1 + j.1) + 1))))) := by
  have h1 : (wbaesDraw clock jp jk g).1.1.L i j = (drawMat 8 clock (rngIter (drawMat 8 clock) (16 * i.1 + j.1) g)).1 := by
    unfold wbaesDraw roundDraw drawN
    rfl
  show genM 8 ((wbaesDraw clock jp jk g).1.1.L i j) = _
  rw [h1]
  generalize 16 * i.1 + j.1 = k
  show genM 8 (randNth (initRandom (((rngIter (drawMat 8 clock) k g).seed + 1) ^^^
    clock ((rngIter (drawMat 8 clock) k g).now + 1)))) = _
  rw [iter_now _ 2 (fun g => mat_now 8 clock g), iter_seed _ 2 (fun g => mat_seed 8 clock g), Nat.mul_comm k 2, BitVec.add_assoc,
    Nat.add_assoc, BitVec.ofNat_add]
  rfl

/-- C89: two processes that have just started and make a context in the seconds `t` and `t ^ 2m`, `m < 16` (at most 30
seconds apart) use in every round the same sixteen matrices `L`, in another order. -/
theorem C89_L_shift (t : BitVec 32) (m : Fin 16) (jp jp' : Vector (Fin 16) 16) (jk jk' : Nat → Byte) (i : Fin 9) (j : Fin 16) :
    (wbaesDraw (fun _ => t ^^^ BitVec.ofNat 32 (2 * m.1)) jp jk rngFresh).1.1.enc.L i j =
      (wbaesDraw (fun _ => t) jp' jk' rngFresh).1.1.enc.L i (j ^^^ m) := by
  rw [C89_L_seed, C89_L_seed]
  have h : BitVec.ofNat 32 (2 * (16 * i.1 + j.1) + 1) ^^^ BitVec.ofNat 32 (2 * m.1) =
      BitVec.ofNat 32 (2 * (16 * i.1 + (j ^^^ m).1) + 1) := by
    revert i j m
    decide +kernel
  rw [← h, show rngFresh.seed = 0#32 from rfl, BitVec.zero_add, BitVec.zero_add, BitVec.xor_comm t, ← BitVec.xor_assoc]

/-- C89: if the clock does not advance between the two calls of `genRandomMask`, both masks are the same block, and that block is
a function of the second. -/
theorem C89_masks (clock : Nat → BitVec 32) (junk : Vector (Fin 256) 256) (g : Rng)
    (hc : clock (g.now + 96) = clock (g.now + 97)) :
    (maskDraw clock junk g).1.maskEnc = (maskDraw clock junk g).1.maskDec ∧
      (maskDraw clock junk g).1.maskEnc = Vector.ofFn fun i => (randNth (initRandom (clock (g.now + 96))) i.1).truncate 8 := by
  have hn : ∀ k (g : Rng), (rngIter (drawPair (drawPair (drawPerm 256) (drawPerm 256)) (drawPair (drawPerm 256) (drawPerm 256))) k
      (rngIter (drawPair (drawMat 8 clock) (drawPair (drawMat 8 clock) (drawMat 8 clock))) 16 g)).now = g.now + 96 := by
    intro k g
    rw [iter_now _ 0 (fun _ => rfl), iter_now _ 6 (fun _ => rfl), Nat.mul_zero]
  unfold maskDraw drawN drawMask rngTime
  dsimp only
  rw [hn, hc]
  exact ⟨rfl, rfl⟩

theorem perm_seed {α : Type} (a : Rng → α × Rng) (h : ∀ g, (a g).2.seed = g.seed) (k : Nat) : ∀ g, (rngIter a k g).seed = g.seed := by
  induction k with
  | zero => exact fun _ => rfl
  | succ k ih => intro g; rw [rngIter, ih, h]

theorem pairmat_seed (n : Nat) [WSize n] (clock : Nat → BitVec 32) (g : Rng) :
    (drawPair (drawMat n clock) (drawMat n clock) g).2.seed = g.seed + BitVec.ofNat 32 4 := by
  show (drawMat n clock (drawMat n clock g).2).2.seed = _
  rw [mat_seed, mat_seed, BitVec.add_assoc]
  rfl

/-- A table of white-box AES takes 424 steps of the counter. -/
theorem wbaes_seed (clock : Nat → BitVec 32) (g : Rng) (jp : Vector (Fin 16) 16) (jk : Nat → Byte) :
    (wbaesDraw clock jp jk g).2.seed = g.seed + 424#32 := by
  have hp : ∀ g, (drawPair (drawPerm 16) (drawPerm 16) g).2.seed = g.seed := by
    intro g
    unfold drawPair drawPerm
    dsimp only
  unfold wbaesDraw roundDraw drawN rngTime
  dsimp only
  simp only [perm_seed _ hp]
  rw [iter_seed _ 4 (fun g => pairmat_seed 8 clock g), iter_seed _ 2 (fun g => mat_seed 32 clock g),
    iter_seed _ 2 (fun g => mat_seed 8 clock g), BitVec.add_assoc, BitVec.add_assoc]
  rfl

theorem mask_L1 (clock : Nat → BitVec 32) (junk : Vector (Fin 256) 256) (g : Rng) :
    (maskDraw clock junk g).1.L1 0 = randNth (initRandom ((g.seed + 1) ^^^ clock (g.now + 1))) := by
  unfold maskDraw drawN
  dsimp only
  rw [show ((0 : Fin 16).1) = 0 from rfl, rngIter]
  unfold drawPair drawMat rngTick
  dsimp only

/-- C89: with the library's own random numbers the tags of the mode with masks differ too: key 0, IV 0, one byte of AAD, in a
process started at second 1700000000 in which that second lasts, whatever memory was not initialised. -/
theorem C89_mask_tags_differ (jp : Vector (Fin 16) 16) (junk : Vector (Fin 256) 256) (jk : Nat → Byte) :
    (wbSeal (wbMaskInit (wbMaskSeeded (fun _ => 1700000000) jp junk jk rngFresh zeroBlock).1.1) (List.replicate 12 0) [0] [] [] 0
        16).map (·.2.2) ≠
      (wbOpen (wbMaskInit (wbMaskSeeded (fun _ => 1700000000) jp junk jk rngFresh zeroBlock).1.2) (List.replicate 12 0) [0] [] [] 0
        16).map (·.2.2) := by
  intro h
  unfold wbMaskSeeded at h
  dsimp only at h
  have hL := mask_L1 (fun _ => 1700000000) junk (wbaesDraw (fun _ => 1700000000) jp jk
    (wbaesDraw (fun _ => 1700000000) jp jk rngFresh).2).2
  rw [wbaes_seed, wbaes_seed] at hL
  generalize (maskDraw (fun _ => 1700000000) junk (wbaesDraw (fun _ => 1700000000) jp jk
    (wbaesDraw (fun _ => 1700000000) jp jk rngFresh).2).2).1 = r at h hL
  have hi := (C43_mask_tags_agree_iff _ _ _ _ r zeroBlock (List.replicate 12 0) [0] [] [] [] 0 0
    (by decide) (by decide) (by decide) (by decide) (by decide) (by decide) (by decide) (by decide)).mp h 0
  rw [show ofBV (ghash (hashKey (aes128 zeroBlock)) ((chunks [0]).map padBV ++
    (chunks (layer (maskL r) (gcmCipher (aes128 zeroBlock) (List.replicate 12 0) []))).map padBV ++
    [lenBlock [0] (layer (maskL r) (gcmCipher (aes128 zeroBlock) (List.replicate 12 0) []))])) =
    gcmHash (aes128 zeroBlock) [0] [] from rfl, witness_hash, witness_base] at hi
  unfold maskL maskLinv at hi
  rw [hL] at hi
  revert hi
  decide +kernel

/- Hypotheses of C89: two processes, the second with other variables left over, whose clocks stand at the same second. -/
example : (⟨⟨0, 0⟩, 5, 0⟩ : Rng).seed = (⟨⟨8, 9⟩, 5, 100⟩ : Rng).seed ∧
    ∀ k < 948, (fun _ => (1700000000 : BitVec 32)) (0 + k) = (fun n => if n < 100 then 3 else 1700000000) (100 + k) := by
  refine ⟨rfl, fun k _ => ?_⟩
  show (1700000000 : BitVec 32) = if 100 + k < 100 then 3 else 1700000000
  rw [if_neg (by omega)]

/- The clock may move between other calls: C89_typeIV_second with different seconds before and after reading 424. -/
example : (fun n : Nat => BitVec.ofNat 32 (1700000000 + n / 100)) (0 + 424) =
    (fun n : Nat => if n < 424 then 7 else (1700000004 : BitVec 32)) (0 + 424) := by decide

end Verif.Props
