import Verif.Spec.Ownership
import Verif.Spec.WbExtract
import Verif.Model.Heap
import Verif.Props.WbExtract
import Verif.Props.Cbc
import Verif.Props.Gcm

/-! Properties C87 (which objects are given back) and C88 (what stays readable in memory). -/
set_option autoImplicit false

namespace Verif.Props
open Verif Verif.Model Verif.Spec

/-- Objects allocated. -/
def liveCount (h : Heap) : Nat := h.countP (·.live)

theorem liveCount_append (a b : Heap) : liveCount (a ++ b) = liveCount a + liveCount b := List.countP_append

/-! ### the format preserving encryption contexts -/

/-- A program's view: the heap and the pointers it was given. -/
structure OwnProg where
  heap : Heap
  handles : List (Bool × Option Nat)

/-- One call of the library. -/
def ownOp (s : OwnProg) : OwnOp → Option OwnProg
  | .init mac tweak radix =>
    let r := if mac then fpeMacInitH s.heap tweak radix else fpeInitH s.heap tweak radix
    some ⟨r.2, s.handles ++ [(mac, r.1)]⟩
  | .free i =>
    match s.handles[i]? with
    | none => none
    | some (mac, p) => (if mac then fpeMacFreeH s.heap p else fpeFreeH s.heap p).map fun h => ⟨h, s.handles⟩

def ownProg (s : OwnProg) : List OwnOp → Option OwnProg
  | [] => some s
  | o :: os => (ownOp s o).bind fun s => ownProg s os

/-- A making call and whether its context was released. -/
structure Made where
  mac : Bool
  tweak : List Byte
  radix : Nat
  gone : Bool

def Made.ok (g : Made) : Bool := decide (2 ≤ g.radix ∧ g.radix ≤ 36)

/-- The objects of a making call that starts at address `b`. -/
def Made.seg (b : Nat) (g : Made) : Heap :=
  if g.ok then
    if g.mac then [⟨.fpeMac (some (b + 1)), !g.gone⟩, ⟨.fpe (b + 2) g.tweak.length g.radix, !g.gone⟩, ⟨.bytes g.tweak, !g.gone⟩]
    else [⟨.fpe (b + 1) g.tweak.length g.radix, !g.gone⟩, ⟨.bytes g.tweak, !g.gone⟩]
  else [⟨.other, true⟩]

def Made.size (g : Made) : Nat := if g.ok then ctxObjects g.mac else 1

theorem Made.length_seg (b : Nat) (g : Made) : (g.seg b).length = g.size := by
  unfold Made.seg Made.size ctxObjects
  split
  · split <;> rfl
  · rfl

def madeHeap (b : Nat) : List Made → Heap
  | [] => []
  | g :: gs => g.seg b ++ madeHeap (b + g.size) gs

def madeHandles (b : Nat) : List Made → List (Bool × Option Nat)
  | [] => []
  | g :: gs => (g.mac, if g.ok then some b else none) :: madeHandles (b + g.size) gs

def madeSt (g : Made) : OwnSt := if g.ok then (if g.gone then .released else .inUse (ctxObjects g.mac)) else .null

theorem madeHeap_append (b : Nat) (l1 l2 : List Made) :
    madeHeap b (l1 ++ l2) = madeHeap b l1 ++ madeHeap (b + (madeHeap b l1).length) l2 := by
  induction l1 generalizing b with
  | nil => rfl
  | cons g gs ih =>
    simp only [List.cons_append, madeHeap, ih, List.append_assoc, List.length_append, Made.length_seg, Nat.add_assoc]

theorem madeHandles_append (b : Nat) (l1 l2 : List Made) :
    madeHandles b (l1 ++ l2) = madeHandles b l1 ++ madeHandles (b + (madeHeap b l1).length) l2 := by
  induction l1 generalizing b with
  | nil => rfl
  | cons g gs ih =>
    simp only [List.cons_append, madeHandles, madeHeap, ih, List.length_append, Made.length_seg, Nat.add_assoc]

theorem length_madeHandles (b : Nat) (l : List Made) : (madeHandles b l).length = l.length := by
  induction l generalizing b with
  | nil => rfl
  | cons g gs ih => simp [madeHandles, ih]

theorem init_seg (h : Heap) (mac : Bool) (tweak : List Byte) (radix : Nat) :
    (if mac then fpeMacInitH h tweak radix else fpeInitH h tweak radix) =
      (if (Made.mk mac tweak radix false).ok then some h.length else none, h ++ (Made.mk mac tweak radix false).seg h.length) := by
  have hc : (radix < 2 ∨ 36 < radix) ↔ ¬(2 ≤ radix ∧ radix ≤ 36) := by omega
  by_cases hr : 2 ≤ radix ∧ radix ≤ 36
  · cases mac <;>
      simp [fpeMacInitH, fpeInitH, hAlloc, Made.ok, Made.seg, hr, hc]
  · cases mac <;>
      simp [fpeMacInitH, fpeInitH, hAlloc, Made.ok, Made.seg, hr, hc]

/-- Releasing a context. -/
theorem free_seg (A B : Heap) (g : Made) (hok : g.ok = true) :
    (if g.mac then fpeMacFreeH (A ++ (g.seg A.length ++ B)) (some A.length)
      else fpeFreeH (A ++ (g.seg A.length ++ B)) (some A.length)) =
      if g.gone then none else some (A ++ ({ g with gone := true }.seg A.length ++ B)) := by
  obtain ⟨mac, tweak, radix, gone⟩ := g
  have hok' : ∀ b, (Made.mk mac tweak radix b).ok = true := fun _ => hok
  cases mac
  · simp only [Made.seg, hok', if_true, Bool.false_eq_true, if_false]
    cases gone
    · simp [fpeFreeH, hLoad, hFree]
    · simp [fpeFreeH, hLoad]
  · simp only [Made.seg, hok', if_true]
    cases gone
    · simp [fpeMacFreeH, fpeFreeH, hLoad, hFree]
    · simp [fpeMacFreeH, hLoad]

/-- Objects in use in the part of the heap made by the calls. -/
theorem live_madeHeap (b : Nat) (l : List Made) :
    liveCount (madeHeap b l) = inUseObjects (l.map madeSt) + (l.filter (!·.ok)).length := by
  induction l generalizing b with
  | nil => rfl
  | cons g gs ih =>
    obtain ⟨mac, tweak, radix, gone⟩ := g
    rw [madeHeap, liveCount_append, ih]
    by_cases hok : (Made.mk mac tweak radix gone).ok = true
    · cases mac <;> cases gone <;>
        simp [Made.seg, madeSt, hok, liveCount, inUseObjects, ctxObjects] <;> omega
    · simp [Made.seg, madeSt, hok, liveCount, inUseObjects]
      omega

/-- The calls made so far, the program's view and the specification's. -/
structure OwnRel (h0 : Heap) (gs : List Made) (s : OwnProg) (t : List OwnSt × Nat) : Prop where
  heap : s.heap = h0 ++ madeHeap h0.length gs
  handles : s.handles = madeHandles h0.length gs
  st : t.1 = gs.map madeSt
  refused : t.2 = (gs.filter (!·.ok)).length

/-- One call does what is expected, or is undefined exactly when it is an error. -/
theorem own_step (h0 : Heap) (gs : List Made) (s : OwnProg) (t : List OwnSt × Nat) (R : OwnRel h0 gs s t) (o : OwnOp) :
    (ownOp s o = none ∧ ownStep t o = none) ∨
      ∃ gs' s' t', ownOp s o = some s' ∧ ownStep t o = some t' ∧ OwnRel h0 gs' s' t' := by
  obtain ⟨hp, hd⟩ := s
  obtain ⟨st, rf⟩ := t
  obtain ⟨r1, r2, r3, r4⟩ := R
  simp only at r1 r2 r3 r4
  subst r1 r2 r3 r4
  cases o with
  | init mac tweak radix =>
    right
    refine ⟨gs ++ [⟨mac, tweak, radix, false⟩], _, ((gs ++ [Made.mk mac tweak radix false]).map madeSt,
      ((gs ++ [Made.mk mac tweak radix false]).filter (!·.ok)).length), rfl, ?_, ?_⟩
    · by_cases hr : 2 ≤ radix ∧ radix ≤ 36
      · simp [ownStep, hr, madeSt, Made.ok, List.filter_append]
      · have hb : (Made.mk mac tweak radix false).ok = false := by simp only [Made.ok, hr, decide_false]
        simp [ownStep, hr, madeSt, hb, List.filter_append]
    · refine ⟨?_, ?_, rfl, rfl⟩
      · simp only [init_seg]
        rw [madeHeap_append, List.append_assoc, List.length_append]
        simp [madeHeap]
      · simp only [init_seg]
        rw [madeHandles_append, List.length_append]
        simp [madeHandles]
  | free i =>
    by_cases hi : i < gs.length
    · obtain ⟨l1, g, l2, hl, hn⟩ : ∃ l1 g l2, gs = l1 ++ g :: l2 ∧ l1.length = i :=
        ⟨gs.take i, gs[i], gs.drop (i + 1), by simp, by simp; omega⟩
      subst hl
      have hh : (madeHandles h0.length (l1 ++ g :: l2))[i]? =
          some (g.mac, if g.ok then some (h0.length + (madeHeap h0.length l1).length) else none) := by
        rw [madeHandles_append, List.getElem?_append_right (by rw [length_madeHandles]; omega), length_madeHandles, hn,
          Nat.sub_self]
        rfl
      have hs : ((l1 ++ g :: l2).map madeSt)[i]? = some (madeSt g) := by
        rw [List.getElem?_map, List.getElem?_append_right (by omega), hn, Nat.sub_self]
        rfl
      by_cases hok : g.ok = true
      · have hA : h0.length + (madeHeap h0.length l1).length = (h0 ++ madeHeap h0.length l1).length := by
          rw [List.length_append]
        have hheap : h0 ++ madeHeap h0.length (l1 ++ g :: l2) =
            (h0 ++ madeHeap h0.length l1) ++ (g.seg (h0 ++ madeHeap h0.length l1).length ++
              madeHeap ((h0 ++ madeHeap h0.length l1).length + g.size) l2) := by
          rw [madeHeap_append, hA, List.append_assoc]
          rfl
        have hf := free_seg (h0 ++ madeHeap h0.length l1) (madeHeap ((h0 ++ madeHeap h0.length l1).length + g.size) l2) g hok
        rw [← hheap] at hf
        simp only [ownOp, hh, hok, if_true, hA, hf, ownStep, hs]
        cases hgone : g.gone
        · right
          refine ⟨l1 ++ { g with gone := true } :: l2, _,
            (((l1 ++ g :: l2).map madeSt).set i .released, ((l1 ++ g :: l2).filter (!·.ok)).length), rfl, ?_, ?_, ?_, ?_, ?_⟩
          · simp [madeSt, hok, hgone]
          · simp only
            rw [madeHeap_append, hA, List.append_assoc]
            rfl
          · simp only
            rw [madeHandles_append, madeHandles_append]
            rfl
          · simp only [List.map_append, List.map_cons]
            rw [List.set_append_right _ _ (by simp; omega), List.length_map, hn, Nat.sub_self]
            have : ({ g with gone := true } : Made).ok = true := hok
            simp [madeSt, this]
          · have : ({ g with gone := true } : Made).ok = true := hok
            simp [List.filter_append, hok, this]
        · left
          simp [madeSt, hok, hgone]
      · right
        refine ⟨l1 ++ g :: l2, ⟨h0 ++ madeHeap h0.length (l1 ++ g :: l2), madeHandles h0.length (l1 ++ g :: l2)⟩,
          ((l1 ++ g :: l2).map madeSt, ((l1 ++ g :: l2).filter (!·.ok)).length), ?_, ?_, ?_⟩
        · simp only [ownOp, hh, hok, Bool.false_eq_true, if_false]
          split <;> rfl
        · simp only [ownStep, hs]
          simp [madeSt, hok]
        · exact ⟨rfl, rfl, rfl, rfl⟩
    · left
      constructor
      · simp only [ownOp]
        rw [List.getElem?_eq_none (by rw [length_madeHandles]; omega)]
      · simp only [ownStep]
        rw [List.getElem?_eq_none (by simp; omega)]

/-- C87. Programs over the format preserving encryption contexts, with and without MAC: from any heap, a sequence of `init` and
`free` calls is defined exactly when no context is released twice and none is released that was not made; afterwards the
objects of the contexts in use are allocated, and one more for each `init` call that was refused for its radix. -/
theorem C87_fpe_programs (h0 : Heap) (ops : List OwnOp) :
    (ownProg ⟨h0, []⟩ ops).map (fun s => (liveCount s.heap, s.handles.map fun p => p.2.isSome)) =
      (ownRun ([], 0) ops).map fun t =>
        (liveCount h0 + inUseObjects t.1 + t.2, t.1.map fun o => decide (o ≠ .null)) := by
  have key : ∀ (ops : List OwnOp) (gs : List Made) (s : OwnProg) (t : List OwnSt × Nat), OwnRel h0 gs s t →
      (ownProg s ops).map (fun s => (liveCount s.heap, s.handles.map fun p => p.2.isSome)) =
      (ownRun t ops).map fun t => (liveCount h0 + inUseObjects t.1 + t.2, t.1.map fun o => decide (o ≠ .null)) := by
    intro ops
    induction ops with
    | nil =>
      intro gs s t R
      simp only [ownProg, ownRun, Option.map_some, R.heap, R.handles, R.st, R.refused, liveCount_append, live_madeHeap,
        Nat.add_assoc, Option.some.injEq, Prod.mk.injEq, true_and]
      generalize h0.length = b
      clear R
      induction gs generalizing b with
      | nil => rfl
      | cons g gs ih =>
        simp only [madeHandles, List.map_cons, ih, List.cons.injEq, and_true]
        simp only [madeSt]
        by_cases h1 : g.ok = true <;> by_cases h2 : g.gone = true <;> simp [h1, h2]
    | cons o ops ih =>
      intro gs s t R
      rcases own_step h0 gs s t R o with ⟨h1, h2⟩ | ⟨gs', s', t', h1, h2, R'⟩
      · simp [ownProg, ownRun, h1, h2]
      · simp only [ownProg, ownRun, h1, h2, Option.bind_some]
        exact ih gs' s' t' R'
  exact key ops [] _ _ ⟨by simp [madeHeap], rfl, rfl, rfl⟩

/-- A context with MAC and one without, a refused call, both released, the refused one as well: one object is lost. -/
example : ownRun ([], 0) [.init true [1#8] 10, .init false [] 36, .init false [] 37, .free 1, .free 0, .free 2] =
    some ([.released, .released, .null], 1) := by decide

/-- Releasing a context twice. -/
example : ownRun ([], 0) [.init true [1#8] 10, .free 0, .free 0] = none := by decide

/-! ### contexts that are one structure -/

/-- An SM4 context used once: made, given a key, released. -/
def sm4LifeH (h : Heap) (k : List Byte × EncMode) : Option Heap :=
  let (p, h) := ctxInitH h
  (sm4InitKeyH h false p k.1 k.2).bind fun h => ctxFreeH h p

theorem sm4Life_eq (h : Heap) (k : List Byte × EncMode) :
    sm4LifeH h k = some (h ++ [⟨.zeros, true⟩, ⟨.bytes (keyPaddingPkcs7 k.1), false⟩]) := by
  simp [sm4LifeH, ctxInitH, sm4InitKeyH, hAlloc, hStore, hFree, ctxFreeH]

theorem foldlM_append {α : Type} (f : Heap → α → Option Heap) (g : α → Heap) (hf : ∀ h a, f h a = some (h ++ g a)) (l : List α)
    (h : Heap) : l.foldlM f h = some (h ++ l.flatMap g) := by
  induction l generalizing h with
  | nil => simp
  | cons a l ih => simp [hf, ih, List.append_assoc]

theorem liveCount_flatMap {α : Type} (g : α → Heap) (n : Nat) (hg : ∀ a, liveCount (g a) = n) (l : List α) :
    liveCount (l.flatMap g) = n * l.length := by
  induction l with
  | nil => rfl
  | cons a l ih => rw [List.flatMap_cons, liveCount_append, hg, ih, List.length_cons, Nat.mul_succ, Nat.add_comm]

/-- C87, SM4 contexts: `context_free` clears the structure and keeps it allocated, so every context is lost for good. -/
theorem C87_sm4_contexts (h : Heap) (ks : List (List Byte × EncMode)) :
    ∃ h', ks.foldlM sm4LifeH h = some h' ∧ liveCount h' = liveCount h + ks.length ∧
      ∀ o ∈ h'.drop h.length, o.live = true → o.cell = .zeros := by
  refine ⟨_, foldlM_append _ _ sm4Life_eq ks h, ?_, ?_⟩
  · rw [liveCount_append, liveCount_flatMap _ 1 (fun _ => rfl), Nat.one_mul]
  · intro o ho hl
    rw [List.drop_left, List.mem_flatMap] at ho
    obtain ⟨k, -, hk⟩ := ho
    simp only [List.mem_cons, List.not_mem_nil, or_false] at hk
    rcases hk with rfl | rfl
    · rfl
    · exact absurd hl (by simp)

example : sm4LifeH [] ([1, 2, 3], .decrypt) ≠ none := by rw [sm4Life_eq]; simp

/-- C87, AES contexts: the same. -/
theorem C87_aes_context (h : Heap) (key : List Byte) (keylen : Nat) (k : AesSched) (hk : aesInitKey key keylen = some k) :
    ((aesInitKeyH (ctxInitH h).2 (ctxInitH h).1 key keylen).bind fun h' => ctxFreeH h' (ctxInitH h).1) =
      some (h ++ [⟨.zeros, true⟩]) := by
  simp [aesInitKeyH, hk, ctxInitH, hAlloc, hStore, ctxFreeH]

example : ∃ k, aesInitKey (List.replicate 16 7) 16 = some k := ⟨_, rfl⟩

/-- C87, the white-box GCM contexts: `ee_free`, `mask_free` clear the structure and give it back; `NULL` is undefined
behaviour. -/
theorem C87_wbgcm_contexts (h : Heap) (c : Cell) :
    wbgcmFreeH (hAlloc h c).2 (some (hAlloc h c).1) = some (h ++ [⟨.zeros, false⟩]) ∧ wbgcmFreeH h none = none := by
  constructor
  · simp [wbgcmFreeH, hAlloc, hStore, hFree]
  · rfl

theorem liveCount_replicate (n : Nat) (c : Cell) : liveCount (List.replicate n ⟨c, true⟩) = n := by
  simp [liveCount, List.countP_replicate]

theorem wbsm4Init_eq (h : Heap) (n : Nat) :
    wbsm4ContextInitH h n = (h.length, h ++ [⟨.other, true⟩] ++ List.replicate (4 + 31 * n) ⟨.other, true⟩) := by
  simp only [wbsm4ContextInitH, hAlloc, hAllocs, List.append_assoc, List.replicate_append_replicate]
  rw [show 4 + 4 * n + 3 * n + 12 * n + 12 * n = 4 + 31 * n by omega]

theorem wbsm4Free_eq (h : Heap) (n : Nat) (l : Heap) :
    ctxFreeH ((wbsm4ContextInitH h n).2 ++ l) (wbsm4ContextInitH h n).1 =
      some (h ++ [⟨.zeros, true⟩] ++ List.replicate (4 + 31 * n) ⟨.other, true⟩ ++ l) := by
  rw [wbsm4Init_eq]
  simp [ctxFreeH, hStore]

/-- C87, white-box SM4: making and releasing a context of `n` rounds loses all its arrays and the structure. -/
theorem C87_wbsm4_context (h : Heap) (n : Nat) :
    ∃ h', ctxFreeH (wbsm4ContextInitH h n).2 (wbsm4ContextInitH h n).1 = some h' ∧ liveCount h' = liveCount h + 5 + 31 * n := by
  have h1 := wbsm4Free_eq h n []
  rw [List.append_nil] at h1
  refine ⟨_, h1, ?_⟩
  simp only [liveCount_append, liveCount_replicate]
  have : liveCount [⟨.zeros, true⟩] = 1 := rfl
  have : liveCount [] = 0 := rfl
  omega

/-- C87, the parallel mode: each call loses the pointer array and one block for every started piece of sixteen bytes. -/
theorem C87_parallel (h : Heap) (y : Block) (len : Nat) (hl : 0 < len) :
    liveCount (gcmParallelH h y len) = liveCount h + 1 + (len + 15) / 16 := by
  have hy : ∀ (n : Nat) (y : Block), (yArr y n).1.length = n := by
    intro n
    induction n with
    | zero => intro y; rfl
    | succ n ih => intro y; simp [yArr, ih]
  have hc : ∀ l : List Block, liveCount (l.map fun b => ⟨.bytes b.toList, true⟩) = l.length := by
    intro l
    induction l with
    | nil => rfl
    | cons a l ih => rw [List.map_cons, List.length_cons, ← ih]; simp [liveCount]
  rw [gcmParallelH, liveCount_append, hc, hy, parBlocks, if_neg (by omega)]
  simp only [hAlloc, liveCount_append]
  have : liveCount [⟨.other, true⟩] = 1 := rfl
  omega

example : (0 : Nat) < 17 := by decide

/-- C87/C88, CBC: every call on non-empty input, also one that is refused, loses one object, and this object holds the message.
-/
theorem C87_cbc_encrypt (h h' : Heap) (E : Block → Block) (moved : Bool) (inp out : List Byte) (maxOlen : Nat) (ivec : Block)
    (r : CbcResult) (_hi : inp ≠ []) (hr : cbcEncryptH h E moved inp out maxOlen ivec = some (r, h')) :
    liveCount h' = liveCount h + 1 ∧
      ∃ o ∈ h'.drop h.length, o.live = true ∧ ∃ pad, o.cell = .bytes (inp ++ pad) := by
  have hp : ∃ pad, pkcs7Merge inp = some (inp ++ pad) := by
    unfold cbcEncryptH Model.cbcEncrypt at hr
    cases hm : pkcs7Merge inp with
    | none =>
      exfalso
      cases moved <;> simp [hm, hAlloc, hFree] at hr
    | some p =>
      unfold pkcs7Merge at hm
      simp only [List.take_left'] at hm
      split at hm
      · split at hm
        · exact ⟨_, hm.symm⟩
        · exact ⟨_, hm.symm⟩
      · exact absurd hm (by simp)
  obtain ⟨pad, hp⟩ := hp
  unfold cbcEncryptH at hr
  rw [hp, Option.getD_some] at hr
  cases moved
  · simp only [Bool.false_eq_true, if_false, hAlloc, Option.bind_some] at hr
    obtain ⟨r', -, hr'⟩ := Option.map_eq_some_iff.1 hr
    obtain ⟨-, rfl⟩ := Prod.mk.inj hr'
    refine ⟨by rw [liveCount_append]; rfl, ⟨.bytes (inp ++ pad), true⟩, ?_, rfl, pad, rfl⟩
    simp
  · simp only [if_true, hAlloc, hFree] at hr
    simp only [List.length_append, List.length_cons, List.length_nil, Nat.zero_add, Nat.add_sub_cancel, List.getElem?_concat_length,
      Option.map_some, Option.bind_some] at hr
    obtain ⟨r', -, hr'⟩ := Option.map_eq_some_iff.1 hr
    obtain ⟨-, rfl⟩ := Prod.mk.inj hr'
    refine ⟨?_, ⟨.bytes (inp ++ pad), true⟩, ?_, rfl, pad, rfl⟩
    · simp [liveCount]
    · simp

/-- A call that is refused for lack of room. -/
example : ∃ r h', cbcEncryptH [] (fun x => x) false [1, 2, 3] [] 15 zeroBlock = some (r, h') := ⟨_, _, rfl⟩

/-! ### C88 -/

/-- The round keys of a plain SM4 context give the key. -/
theorem sm4ReadKey_eq (key : List Byte) (mode : EncMode) : sm4ReadKey mode (sm4InitKey key mode) = padKey key := by
  have hk := initKey_eq key
  generalize padKey key = pk at hk ⊢
  have ht : ∀ (c : Sm4Ctx), [c[0], c[1], c[2], c[3]] = c.toList.take 4 := by
    intro c
    apply List.ext_getElem
    · simp
    · intro i h1 h2
      simp only [List.getElem_take, Vector.getElem_toList]
      have : i = 0 ∨ i = 1 ∨ i = 2 ∨ i = 3 := by simp at h1; omega
      rcases this with rfl | rfl | rfl | rfl <;> rfl
  cases mode with
  | encrypt =>
    have h1 := ht (sm4InitKey key .encrypt)
    rw [hk.1, show (sm4RoundKeys (quadOf pk)).take 4 = [sm4Rk (quadOf pk) 0, sm4Rk (quadOf pk) 1, sm4Rk (quadOf pk) 2, sm4Rk (quadOf pk) 3] from rfl] at h1
    simp only [List.cons.injEq, and_true] at h1
    rw [sm4ReadKey, h1.1, h1.2.1, h1.2.2.1, h1.2.2.2]
    show (unschedule 4 (sm4KeyWindow (quadOf pk) 4)).toBlock = pk
    rw [unschedule_eq, toBlock_quadOf]
  | decrypt =>
    have h1 := ht (sm4InitKey key .decrypt)
    rw [hk.2, show (sm4RoundKeys (quadOf pk)).reverse.take 4 = [sm4Rk (quadOf pk) 31, sm4Rk (quadOf pk) 30, sm4Rk (quadOf pk) 29, sm4Rk (quadOf pk) 28] from rfl] at h1
    simp only [List.cons.injEq, and_true] at h1
    rw [sm4ReadKey, h1.1, h1.2.1, h1.2.2.1, h1.2.2.2]
    show (unschedule 32 (sm4KeyWindow (quadOf pk) 32)).toBlock = pk
    rw [unschedule_eq, toBlock_quadOf]

/-- White-box SM4 used once: `context_init`, `gen_table`, `context_free`. -/
def wbsm4LifeH (h : Heap) (n : Nat) (key : List Byte) (mode : EncMode) : Option Heap :=
  let (ctx, h) := wbsm4ContextInitH h n
  (genTableH h 3 key mode).bind fun h => ctxFreeH h ctx

/-- White-box SM4 from self-equivalences used once. -/
def seLifeH (h : Heap) (key : List Byte) (mode : EncMode) : Option Heap :=
  let (ctx, h) := ctxInitH h
  (genTableH h 0 key mode).bind fun h => ctxFreeH h ctx

theorem hFree_append (h l : Heap) (i : Nat) : hFree (h ++ l) (h.length + i) = (hFree l i).map (h ++ ·) := by
  unfold hFree
  rw [List.getElem?_append_right (by omega), Nat.add_sub_cancel_left]
  rcases hl : l[i]? with _ | ⟨c, _ | _⟩
  · rfl
  · rfl
  · simp only [Option.map_some]
    rw [List.set_append_right _ _ (by omega), Nat.add_sub_cancel_left]

theorem genTable0_eq (h : Heap) (key : List Byte) (mode : EncMode) :
    genTableH h 0 key mode = some (h ++ [⟨.sm4 (sm4InitKey key mode), true⟩, ⟨.bytes (keyPaddingPkcs7 key), false⟩]) := by
  simp [genTableH, hAllocs, ctxInitH, sm4InitKeyH, hAlloc, hStore, hFree]

theorem genTable3_eq (h : Heap) (key : List Byte) (mode : EncMode) :
    genTableH h 3 key mode = some (h ++ [⟨.sm4 (sm4InitKey key mode), true⟩, ⟨.bytes (keyPaddingPkcs7 key), false⟩,
      ⟨.other, false⟩, ⟨.other, false⟩, ⟨.other, false⟩]) := by
  have h0 : (sm4InitKeyH (ctxInitH h).2 false (ctxInitH h).1 key mode) =
      some (h ++ [⟨.sm4 (sm4InitKey key mode), true⟩, ⟨.bytes (keyPaddingPkcs7 key), false⟩]) := by
    simp [ctxInitH, sm4InitKeyH, hAlloc, hStore, hFree]
  unfold genTableH
  simp only [h0, Option.bind_some]
  rw [hAllocs, List.append_assoc]
  simp only [show List.range 3 = [0, 1, 2] from rfl, List.foldl_cons, List.foldl_nil, Option.bind_some, ctxInitH, hAlloc,
    Nat.add_assoc, hFree_append, List.replicate, List.cons_append, List.nil_append]
  simp [hFree]

/-- C88, white-box SM4: after `context_init`, `gen_table` and `context_free` one allocated object, to which no pointer is left,
holds round keys that give away the key; besides, everything else of the context is lost too. -/
theorem C88_wbsm4_key_in_memory (h : Heap) (n : Nat) (key : List Byte) (mode : EncMode) :
    ∃ h', wbsm4LifeH h n key mode = some h' ∧ liveCount h' = liveCount h + 6 + 31 * n ∧
      ∃ o ∈ h'.drop h.length, o.live = true ∧ ∃ c, o.cell = .sm4 c ∧ sm4ReadKey mode c = padKey key := by
  refine ⟨h ++ [⟨.zeros, true⟩] ++ List.replicate (4 + 31 * n) ⟨.other, true⟩ ++ [⟨.sm4 (sm4InitKey key mode), true⟩,
    ⟨.bytes (keyPaddingPkcs7 key), false⟩, ⟨.other, false⟩, ⟨.other, false⟩, ⟨.other, false⟩], ?_, ?_,
    ⟨.sm4 (sm4InitKey key mode), true⟩, ?_, rfl, _, rfl, sm4ReadKey_eq key mode⟩
  · unfold wbsm4LifeH
    simp only [genTable3_eq, Option.bind_some]
    exact wbsm4Free_eq h n _
  · simp only [liveCount_append, liveCount_replicate]
    have : liveCount [⟨.zeros, true⟩] = 1 := rfl
    have : liveCount [⟨.sm4 (sm4InitKey key mode), true⟩, ⟨.bytes (keyPaddingPkcs7 key), false⟩, ⟨.other, false⟩,
      ⟨.other, false⟩, ⟨.other, false⟩] = 1 := rfl
    omega
  · rw [List.append_assoc, List.append_assoc, List.drop_left]
    simp

/-- C88, white-box SM4 from self-equivalences: the same. -/
theorem C88_se_key_in_memory (h : Heap) (key : List Byte) (mode : EncMode) :
    ∃ h', seLifeH h key mode = some h' ∧ liveCount h' = liveCount h + 2 ∧
      ∃ o ∈ h'.drop h.length, o.live = true ∧ ∃ c, o.cell = .sm4 c ∧ sm4ReadKey mode c = padKey key := by
  refine ⟨h ++ [⟨.zeros, true⟩, ⟨.sm4 (sm4InitKey key mode), true⟩, ⟨.bytes (keyPaddingPkcs7 key), false⟩], ?_, ?_,
    ⟨.sm4 (sm4InitKey key mode), true⟩, ?_, rfl, _, rfl, sm4ReadKey_eq key mode⟩
  · unfold seLifeH
    simp only [genTable0_eq, Option.bind_some]
    simp [ctxInitH, hAlloc, ctxFreeH, hStore]
  · rw [liveCount_append]
    rfl
  · simp

/-- C88, plain SM4: releasing the context clears the round keys, yet the freed copy of the (padded) key keeps its contents. -/
theorem C88_sm4_key_in_freed_memory (h : Heap) (ks : List (List Byte × EncMode)) :
    ∃ h', ks.foldlM sm4LifeH h = some h' ∧
      ∀ k ∈ ks, ∃ o ∈ h'.drop h.length, o.live = false ∧ o.cell = .bytes (keyPaddingPkcs7 k.1) := by
  refine ⟨_, foldlM_append _ _ sm4Life_eq ks h, ?_⟩
  intro k hk
  refine ⟨⟨.bytes (keyPaddingPkcs7 k.1), false⟩, ?_, rfl, rfl⟩
  rw [List.drop_left, List.mem_flatMap]
  exact ⟨k, hk, by simp⟩

/-- C88, a sixteen byte key is there as it is. -/
theorem C88_sm4_key_verbatim (h : Heap) (key : Block) (mode : EncMode) :
    ∃ h', sm4LifeH h (key.toList, mode) = some h' ∧
      ∃ o ∈ h'.drop h.length, o.live = false ∧ o.cell = .bytes key.toList := by
  refine ⟨_, sm4Life_eq h _, ⟨.bytes key.toList, false⟩, ?_, rfl, rfl⟩
  simp [keyPaddingPkcs7]

/-- C88, GCM over a file: `gcmfile_free` clears the outer structure; the inner context stays allocated and its tables give the
hash key, with which tags can be forged. -/
theorem C88_gcmfile_hash_key (h : Heap) (junk : Vector Byte 12) (E : Block → Block) :
    ∃ h', ctxFreeH (gcmfileInitH h junk E).2 (gcmfileInitH h junk E).1 = some h' ∧ liveCount h' = liveCount h + 2 ∧
      ∃ o ∈ h'.drop h.length, o.live = true ∧ ∃ c, o.cell = .gcm c ∧ gcmReadHashKey c = hashKey E := by
  refine ⟨h ++ [⟨.zeros, true⟩, ⟨.gcm (gcmInit E), true⟩], ?_, ?_, ⟨.gcm (gcmInit E), true⟩, ?_, rfl, _, rfl, ?_⟩
  · simp [gcmfileInitH, gcmInitH, hAlloc, ctxFreeH, hStore]
  · rw [liveCount_append]
    rfl
  · simp
  · have h1 := init_ok E 8#4
    have h2 : nibVal (hashKey (gcmInit E).block) 8#4 = hashKey E := by
      rw [show (gcmInit E).block = E from rfl, nibVal, show nibBits 8#4 = [true, false, false, false] by decide]
      simp [horner, mulx, sel]
    rw [h2] at h1
    exact h1

/-- One row. -/
theorem udfRow_eq (h : Heap) (key : Block) (tweak : List Byte) (radix : Nat) (hr : 2 ≤ radix ∧ radix ≤ 36) :
    udfRowH h key tweak radix = some (h ++ [⟨.sm4 (sm4InitKey key.toList .encrypt), true⟩, ⟨.bytes key.toList, false⟩,
      ⟨.fpe (h.length + 3) tweak.length radix, false⟩, ⟨.bytes tweak, false⟩]) := by
  have h0 : appInitSm4H h key =
      some (h.length, h ++ [⟨.sm4 (sm4InitKey key.toList .encrypt), true⟩, ⟨.bytes key.toList, false⟩]) := by
    simp [appInitSm4H, ctxInitH, sm4InitKeyH, hAlloc, hStore, hFree, keyPaddingPkcs7]
  unfold udfRowH
  rw [h0]
  simp only [Option.bind_some]
  have h1 := init_seg (h ++ [⟨.sm4 (sm4InitKey key.toList .encrypt), true⟩, ⟨.bytes key.toList, false⟩]) false tweak radix
  have h2 := free_seg (h ++ [⟨.sm4 (sm4InitKey key.toList .encrypt), true⟩, ⟨.bytes key.toList, false⟩]) []
    ⟨false, tweak, radix, false⟩ (by simp [Made.ok, hr])
  simp only [Bool.false_eq_true, if_false, List.append_nil] at h1 h2
  rw [h1]
  simp only [Made.ok, hr, and_self, decide_true, if_true]
  rw [h2]
  simp [Made.seg, Made.ok, hr]

theorem udfRows_eq (key : Block) (rows : List (List Byte × Nat)) (hr : ∀ r ∈ rows, 2 ≤ r.2 ∧ r.2 ≤ 36) (h : Heap) :
    ∃ l, rows.foldlM (fun h r => udfRowH h key r.1 r.2) h = some (h ++ l) ∧ liveCount l = rows.length ∧
      ∀ o ∈ l, o.live = true → ∃ c, o.cell = .sm4 c ∧ sm4ReadKey .encrypt c = key := by
  induction rows generalizing h with
  | nil => exact ⟨[], by simp, rfl, by simp⟩
  | cons r rows ih =>
    obtain ⟨l, h1, h2, h3⟩ := ih (fun q hq => hr q (List.mem_cons_of_mem _ hq)) (h ++
      [⟨.sm4 (sm4InitKey key.toList .encrypt), true⟩, ⟨.bytes key.toList, false⟩,
      ⟨.fpe (h.length + 3) r.1.length r.2, false⟩, ⟨.bytes r.1, false⟩])
    refine ⟨[⟨.sm4 (sm4InitKey key.toList .encrypt), true⟩, ⟨.bytes key.toList, false⟩,
      ⟨.fpe (h.length + 3) r.1.length r.2, false⟩, ⟨.bytes r.1, false⟩] ++ l, ?_, ?_, ?_⟩
    · rw [List.foldlM_cons, udfRow_eq h key r.1 r.2 (hr r List.mem_cons_self)]
      rw [← List.append_assoc]
      exact h1
    · rw [liveCount_append, h2, List.length_cons, Nat.add_comm]
      rfl
    · intro o ho hl
      rcases List.mem_append.1 ho with ho | ho
      · simp only [List.mem_cons, List.not_mem_nil, or_false] at ho
        rcases ho with rfl | rfl | rfl | rfl
        · exact ⟨_, rfl, by rw [sm4ReadKey_eq, padKey_16]⟩
        · exact absurd hl (by simp)
        · exact absurd hl (by simp)
        · exact absurd hl (by simp)
      · exact h3 o ho hl

/-- C88, the MySQL function: a query over any number of rows leaves one allocated SM4 context for each row, with the round keys
of the key used. -/
theorem C88_udf_rows (h : Heap) (key : Block) (rows : List (List Byte × Nat)) (hr : ∀ r ∈ rows, 2 ≤ r.2 ∧ r.2 ≤ 36) :
    ∃ h', rows.foldlM (fun h r => udfRowH h key r.1 r.2) h = some h' ∧ liveCount h' = liveCount h + rows.length ∧
      ∀ o ∈ h'.drop h.length, o.live = true → ∃ c, o.cell = .sm4 c ∧ sm4ReadKey .encrypt c = key := by
  obtain ⟨l, h1, h2, h3⟩ := udfRows_eq key rows hr h
  refine ⟨h ++ l, h1, by rw [liveCount_append, h2], ?_⟩
  rw [List.drop_left]
  exact h3

/-- Three rows: two telephone numbers and a Chinese name. -/
example : ∀ r ∈ [([1#8, 2#8], 10), ([3#8], 10), (([] : List Byte), 12)], 2 ≤ r.2 ∧ r.2 ≤ 36 := by decide

end Verif.Props
