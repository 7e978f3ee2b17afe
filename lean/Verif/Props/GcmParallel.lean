import Verif.Model.GcmParallel
import Verif.Props.Gcm

/-! Properties C20-C23 of `/repo/src/modes/gcm_parallel.c`. -/
set_option autoImplicit false

namespace Verif.Props
open Verif Spec Model

/-- A distribution of the loop iterations `0 .. nb-1` over threads: each iteration to exactly one thread, once
(what any OpenMP `for` schedule guarantees). -/
structure ValidAssign (nb : Nat) (assign : Nat → List Nat) : Prop where
  cover : ∀ i, i < nb → ∃ t, i ∈ assign t
  range : ∀ t, ∀ i ∈ assign t, i < nb
  unique : ∀ t u i, i ∈ assign t → i ∈ assign u → t = u
  nodup : ∀ t, (assign t).Nodup

theorem useLen_pos (nb len i : Nat) : 1 ≤ useLen nb len i ∧ useLen nb len i ≤ 16 := by
  unfold useLen; split <;> (try split) <;> omega

/-- Byte `j` of block `i` lies inside a message of `len > 0` bytes. -/
theorem useLen_bound {len i j : Nat} (hl : 0 < len) (hi : i < parBlocks len)
    (hj : j < useLen (parBlocks len) len i) : 16 * i + j < len := by
  have h0 : ¬ len = 0 := by omega
  unfold useLen parBlocks at *
  simp only [h0, if_false] at *
  split at hj
  · split at hj <;> omega
  · omega

theorem useLen_cover {len k : Nat} (hk : k < len) :
    k / 16 < parBlocks len ∧ k % 16 < useLen (parBlocks len) len (k / 16) := by
  unfold useLen parBlocks
  rw [if_neg (by omega)]
  constructor
  · omega
  · split
    · split <;> omega
    · omega

/-- The byte that belongs at position `j` of block `i`. -/
def byteVal (g : ParCfg) (i j : Nat) : Byte := (g.ectr i).toList.getD j 0 ^^^ g.inp.getD (16 * i + j) 0

/-- Invariant of the region with private `j`. -/
structure ParInv (g : ParCfg) (out0 : List Byte) (assign : Nat → List Nat) (s : PState) : Prop where
  length : s.out.length = out0.length
  suffix : ∀ t, (s.threads t).blocks <:+ assign t
  jle : ∀ t i rest, (s.threads t).blocks = i :: rest → (s.threads t).pc ≠ .start →
    (s.threads t).j ≤ useLen g.nb g.len i
  jlt : ∀ t i rest, (s.threads t).blocks = i :: rest → (s.threads t).pc = .write ∨ (s.threads t).pc = .incr →
    (s.threads t).j < useLen g.nb g.len i
  rest : ∀ k, g.len ≤ k → s.out[k]? = out0[k]?
  done : ∀ t i, i ∈ assign t → i ∉ (s.threads t).blocks → ∀ j, j < useLen g.nb g.len i →
    s.out[16 * i + j]? = some (byteVal g i j)
  cur : ∀ t i rest, (s.threads t).blocks = i :: rest → (s.threads t).pc ≠ .start → ∀ j,
    (j < (s.threads t).j ∨ (j = (s.threads t).j ∧ (s.threads t).pc = .incr)) →
    s.out[16 * i + j]? = some (byteVal g i j)

theorem suffix_head_notin {l : List Nat} {i : Nat} {rest : List Nat} (h : (i :: rest) <:+ l) (hn : l.Nodup) :
    i ∉ rest := by
  obtain ⟨p, rfl⟩ := h
  have := (List.nodup_append.mp hn).2.1
  exact (List.nodup_cons.mp this).1

theorem parStep_inv {g : ParCfg} {out0 : List Byte} {assign : Nat → List Nat}
    (hsh : g.shared = false) (va : ValidAssign g.nb assign) (hnb : g.nb = parBlocks g.len) (hl : 0 < g.len)
    (hin : g.len ≤ g.inp.length) (hout : g.len ≤ out0.length)
    {s : PState} (inv : ParInv g out0 assign s) (t : Nat) :
    ∃ s', parStep g s t = some s' ∧ ParInv g out0 assign s' := by
  unfold parStep
  split
  · exact ⟨s, rfl, inv⟩
  · next i rest hb =>
    have hi : i ∈ assign t := (inv.suffix t).subset (by rw [hb]; exact List.mem_cons_self)
    have hir : i ∉ rest := suffix_head_notin (hb ▸ inv.suffix t) (va.nodup t)
    have hiu : ∀ u, u ≠ t → i ∉ assign u := fun u hu h => hu (va.unique u t i h hi)
    have hnbi : i < parBlocks g.len := hnb ▸ va.range t i hi
    split
    · next hpc =>
      refine ⟨_, rfl, ?_⟩
      simp only [PState.setJ, hsh, PState.setThread]
      constructor
      · exact inv.length
      · intro u; by_cases hu : u = t
        · subst hu; simpa [hb] using inv.suffix u
        · simpa [hu] using inv.suffix u
      · intro u i' r'; by_cases hu : u = t
        · subst hu; simp
        · simpa [hu] using inv.jle u i' r'
      · intro u i' r'; by_cases hu : u = t
        · subst hu; simp
        · simpa [hu] using inv.jlt u i' r'
      · exact inv.rest
      · intro u i'; by_cases hu : u = t
        · subst hu; simpa [hb] using inv.done u i'
        · simpa [hu] using inv.done u i'
      · intro u i' r'; by_cases hu : u = t
        · subst hu; simp
        · simpa [hu] using inv.cur u i' r'
    · next hpc =>
      simp only [PState.getJ, hsh, Bool.false_eq_true, if_false]
      split
      · next hlt =>
        refine ⟨_, rfl, ?_⟩
        simp only [PState.setThread]
        have hlt' : (s.threads t).j < useLen g.nb g.len i := by simpa using hlt
        constructor
        · exact inv.length
        · intro u; by_cases hu : u = t
          · subst hu; simpa [hb] using inv.suffix u
          · simpa [hu] using inv.suffix u
        · intro u i' r'; by_cases hu : u = t
          · subst hu; simp; rintro rfl _; omega
          · simpa [hu] using inv.jle u i' r'
        · intro u i' r'; by_cases hu : u = t
          · subst hu; simp; rintro rfl _; omega
          · simpa [hu] using inv.jlt u i' r'
        · exact inv.rest
        · intro u i'; by_cases hu : u = t
          · subst hu; simpa [hb] using inv.done u i'
          · simpa [hu] using inv.done u i'
        · intro u i' r'; by_cases hu : u = t
          · subst hu; simp
            rintro rfl rfl j hj
            exact inv.cur u _ _ hb (by simp [hpc]) j (Or.inl hj)
          · simpa [hu] using inv.cur u i' r'
      · next hge =>
        refine ⟨_, rfl, ?_⟩
        simp only [PState.setThread]
        have hge' : useLen g.nb g.len i ≤ (s.threads t).j := by simpa using hge
        constructor
        · exact inv.length
        · intro u; by_cases hu : u = t
          · subst hu
            have := inv.suffix u
            rw [hb] at this
            simpa using (List.suffix_cons i rest).trans this
          · simpa [hu] using inv.suffix u
        · intro u i' r'; by_cases hu : u = t
          · subst hu; simp
          · simpa [hu] using inv.jle u i' r'
        · intro u i' r'; by_cases hu : u = t
          · subst hu; simp
          · simpa [hu] using inv.jlt u i' r'
        · exact inv.rest
        · intro u i'; by_cases hu : u = t
          · subst hu
            simp only [if_true]
            intro h1 h2 j hj
            by_cases hii : i' = i
            · subst hii
              exact inv.cur u _ _ hb (by simp [hpc]) j (Or.inl (by omega))
            · exact inv.done u i' h1 (by rw [hb]; simp [hii, h2]) j hj
          · simpa [hu] using inv.done u i'
        · intro u i' r'; by_cases hu : u = t
          · subst hu; simp
          · simpa [hu] using inv.cur u i' r'
    · next hpc =>
      simp only [PState.getJ, hsh]
      have hj := inv.jlt t i rest hb (Or.inl hpc)
      have hlt := useLen_bound hl hnbi (hnb ▸ hj)
      have h16 := (useLen_pos g.nb g.len i).2
      have hsl := inv.length
      have hcond : (s.threads t).j < 16 ∧ 16 * i + (s.threads t).j < g.inp.length ∧
          16 * i + (s.threads t).j < s.out.length := ⟨by omega, by omega, by omega⟩
      simp only [Bool.false_eq_true, if_false]
      rw [dif_pos hcond]
      refine ⟨_, rfl, ?_⟩
      simp only [PState.setThread]
      have other : ∀ u i' j', u ≠ t → i' ∈ assign u → j' < 16 → ¬ 16 * i + (s.threads t).j = 16 * i' + j' := by
        intro u i' j' hu hi' hj' h
        have : i' = i := by omega
        subst this
        exact hiu u hu hi'
      constructor
      · simp [inv.length]
      · intro u; by_cases hu : u = t
        · subst hu; simpa [hb] using inv.suffix u
        · simpa [hu] using inv.suffix u
      · intro u i' r'; by_cases hu : u = t
        · subst hu; simp; rintro rfl _; omega
        · simpa [hu] using inv.jle u i' r'
      · intro u i' r'; by_cases hu : u = t
        · subst hu; simp; rintro rfl _; omega
        · simpa [hu] using inv.jlt u i' r'
      · intro k hk
        rw [List.getElem?_set_ne (by omega)]
        exact inv.rest k hk
      · intro u i'
        intro h1 h2 j' hj'
        have h16' := (useLen_pos g.nb g.len i').2
        by_cases hu : u = t
        · subst hu
          simp only [if_true] at h2
          have hne : i' ≠ i := fun h => h2 (by rw [h]; exact List.mem_cons_self)
          simp only []
          rw [List.getElem?_set_ne (by omega)]
          exact inv.done u i' h1 (by rw [hb]; exact h2) j' hj'
        · simp only [hu, if_false] at h2
          simp only []
          rw [List.getElem?_set_ne (other u i' j' hu h1 (by omega))]
          exact inv.done u i' h1 h2 j' hj'
      · intro u i' r'
        by_cases hu : u = t
        · subst hu
          simp only [if_true]
          intro h1 _ j' hj'
          cases h1
          by_cases he : j' = (s.threads u).j
          · subst he
            rw [List.getElem?_set_self (by omega)]
            unfold byteVal
            congr 2
            · rw [List.getD_eq_getElem?_getD, List.getElem?_eq_getElem (by simp; omega)]; simp
            · rw [List.getD_eq_getElem?_getD, List.getElem?_eq_getElem (by omega)]; simp
          · rw [List.getElem?_set_ne (by omega)]
            exact inv.cur u _ _ hb (by simp [hpc]) j' (Or.inl (by rcases hj' with h | h <;> omega))
        · simp only [hu, if_false]
          intro h1 h2 j' hj'
          have hi' : i' ∈ assign u := (inv.suffix u).subset (by rw [h1]; exact List.mem_cons_self)
          have hle := inv.jle u i' r' h1 h2
          have h16' := (useLen_pos g.nb g.len i').2
          have : j' < 16 := by
            rcases hj' with h | ⟨h, hp⟩
            · omega
            · have := inv.jlt u i' r' h1 (Or.inr hp); omega
          rw [List.getElem?_set_ne (other u i' j' hu hi' this)]
          exact inv.cur u i' r' h1 h2 j' hj'
    · next hpc =>
      refine ⟨_, rfl, ?_⟩
      simp only [PState.getJ, PState.setJ, hsh, PState.setThread]
      have hj := inv.jlt t i rest hb (Or.inr hpc)
      constructor
      · exact inv.length
      · intro u; by_cases hu : u = t
        · subst hu; simpa [hb] using inv.suffix u
        · simpa [hu] using inv.suffix u
      · intro u i' r'; by_cases hu : u = t
        · subst hu; simp; rintro rfl _; omega
        · simpa [hu] using inv.jle u i' r'
      · intro u i' r'; by_cases hu : u = t
        · subst hu; simp
        · simpa [hu] using inv.jlt u i' r'
      · exact inv.rest
      · intro u i'; by_cases hu : u = t
        · subst hu; simpa [hb] using inv.done u i'
        · simpa [hu] using inv.done u i'
      · intro u i' r'; by_cases hu : u = t
        · subst hu; simp
          rintro rfl rfl j' hj'
          apply inv.cur u _ _ hb (by simp [hpc]) j'
          rcases Nat.lt_or_ge j' (s.threads u).j with h | h
          · exact Or.inl h
          · exact Or.inr ⟨by omega, hpc⟩
        · simpa [hu] using inv.cur u i' r'

theorem parRun_inv {g : ParCfg} {out0 : List Byte} {assign : Nat → List Nat}
    (hsh : g.shared = false) (va : ValidAssign g.nb assign) (hnb : g.nb = parBlocks g.len) (hl : 0 < g.len)
    (hin : g.len ≤ g.inp.length) (hout : g.len ≤ out0.length) (sched : List Nat) :
    ∀ {s : PState}, ParInv g out0 assign s → ∃ s', parRun g s sched = some s' ∧ ParInv g out0 assign s' := by
  induction sched with
  | nil => intro s inv; exact ⟨s, rfl, inv⟩
  | cons t ts ih =>
    intro s inv
    obtain ⟨s1, h1, inv1⟩ := parStep_inv hsh va hnb hl hin hout inv t
    obtain ⟨s2, h2, inv2⟩ := ih inv1
    exact ⟨s2, by simp [parRun, h1, h2], inv2⟩

theorem parInit_inv (g : ParCfg) (out0 : List Byte) (j0 : Nat) (assign : Nat → List Nat) :
    ParInv g out0 assign (parInit out0 j0 assign) := by
  constructor <;> simp [parInit]
  intro t i h1 h2
  exact absurd h1 h2

theorem yArr_eq (n : Nat) : ∀ y : Block, yArr y n = (ctrBlocks y n, ofBV (incN n (toBV y))) := by
  induction n with
  | zero => intro y; simp [yArr, ctrBlocks, incN, ofBV_toBV]
  | succ n ih =>
    intro y
    simp only [yArr, ih, incCtr_eq, ← incN_succ']
    rw [Prod.mk.injEq]
    refine ⟨?_, rfl⟩
    simp only [ctrBlocks, List.range_succ_eq_map, List.map_cons, List.map_map]
    rw [incCtr_eq_ofBV, List.cons.injEq]
    refine ⟨rfl, ?_⟩
    apply List.map_congr_left
    intro i _
    simp only [Function.comp]
    rw [toBV_ofBV, ← incN_succ']

/-- Byte `k` of counter-mode output. -/
theorem gctr_getElem? (E : Block → Block) (x : List Byte) : ∀ (y : Block) (k : Nat), k < x.length →
    (gctr E (inc32 (toBV y)) x)[k]? =
      some ((E (ofBV (incN (k / 16 + 1) (toBV y)))).toList.getD (k % 16) 0 ^^^ x.getD k 0) := by
  induction x using chunks_induction with
  | nil => intro y k hk; simp at hk
  | step x hx ih =>
    intro y k hk
    rw [gctr_step E _ _ hx]
    rcases Nat.lt_or_ge k 16 with h | h
    · rw [List.getElem?_append_left (by simp; omega)]
      rw [List.getElem?_zipWith]
      have h1 : k / 16 = 0 := by omega
      have h2 : k % 16 = k := by omega
      simp [h, hk, h1, h2, incN, BitVec.xor_comm]
    · rw [List.getElem?_append_right (by simp; omega)]
      have hlen : (List.zipWith (fun a b => a ^^^ b) (x.take 16) (E (ofBV (inc32 (toBV y)))).toList).length = 16 := by
        simp; omega
      rw [hlen]
      have := ih (ofBV (inc32 (toBV y))) (k - 16) (by simp; omega)
      rw [toBV_ofBV] at this
      rw [this]
      have h1 : (k - 16) % 16 = k % 16 := by omega
      have h2 : k / 16 + 1 = (k - 16) / 16 + 1 + 1 := by omega
      have h3 : 16 + (k - 16) = k := by omega
      rw [h1, h2, ← incN_succ']
      simp [h3]

/-- The pieces hashed by the sequential tail are the pieces of the first `len` output bytes. -/
theorem chunks_range (l : List Byte) (hl : 0 < l.length) (out : List Byte) (hpre : out.take l.length = l) :
    (List.range (parBlocks l.length)).map
      (fun i => (out.drop (16 * i)).take (useLen (parBlocks l.length) l.length i)) = chunks l := by
  have hle : l.length ≤ out.length := by
    have := congrArg List.length hpre; simp at this; omega
  apply List.ext_getElem?
  intro i
  have hc : ∀ (m : List Byte) (i : Nat), (chunks m)[i]? =
      if 16 * i < m.length then some ((m.drop (16 * i)).take 16) else none := by
    intro m
    induction m using chunks_induction with
    | nil => intro i; simp
    | step m hm ih =>
      intro i
      have := List.length_pos_iff.mpr hm
      rw [chunks_of_ne_nil hm]
      cases i with
      | zero => simp [this]
      | succ i =>
        simp only [List.getElem?_cons_succ, ih, List.length_drop, List.drop_drop]
        have e : 16 + 16 * i = 16 * (i + 1) := by omega
        by_cases h : 16 * (i + 1) < m.length
        · rw [if_pos (by omega), if_pos h, e]
        · rw [if_neg (by omega), if_neg h]
  rw [hc]
  have h0 : ¬ l.length = 0 := by omega
  by_cases h : 16 * i < l.length
  · have hi : i < parBlocks l.length := by unfold parBlocks; simp only [h0, if_false]; omega
    rw [if_pos h, List.getElem?_map, List.getElem?_range hi]
    simp only [Option.map_some]
    congr 1
    have e : (l.drop (16 * i)).take 16 = ((out.drop (16 * i)).take (l.length - 16 * i)).take 16 := by
      conv => lhs; rw [← hpre]
      rw [List.drop_take]
    rw [e, List.take_take]
    congr 1
    unfold useLen parBlocks
    simp only [h0, if_false]
    split
    · split <;> omega
    · omega
  · have hi : parBlocks l.length ≤ i := by unfold parBlocks; simp only [h0, if_false]; omega
    rw [if_neg h, List.getElem?_eq_none (by simpa using hi)]

/-- State of the region when all threads are done: the first `len` bytes are the counter-mode output. -/
theorem par_out {c : GcmCtx} {inbuf out : List Byte} {len : Nat} {assign : Nat → List Nat} {s : PState}
    (hin : len ≤ inbuf.length) (va : ValidAssign (parBlocks len) assign)
    (inv : ParInv (parCfg false c inbuf len) out assign s) (hd : s.Done) :
    s.out = gctr c.block (inc32 (toBV c.y)) (inbuf.take len) ++ out.drop len := by
  have hg : (gctr c.block (inc32 (toBV c.y)) (inbuf.take len)).length = len := by
    rw [length_gctr]; simp; omega
  apply List.ext_getElem?
  intro k
  rcases Nat.lt_or_ge k len with hk | hk
  · rw [List.getElem?_append_left (by omega), gctr_getElem? _ _ _ _ (by simp; omega)]
    obtain ⟨h1, h2⟩ := useLen_cover hk
    obtain ⟨t, ht⟩ := va.cover (k / 16) h1
    have := inv.done t (k / 16) ht (by rw [hd t]; simp) (k % 16) h2
    have e : 16 * (k / 16) + k % 16 = k := by omega
    rw [e] at this
    rw [this]
    congr 1
    unfold byteVal
    have e2 : (parCfg false c inbuf len).ectr (k / 16) = c.block (ofBV (incN (k / 16 + 1) (toBV c.y))) := by
      simp only [parCfg, yArr_eq, ctrBlocks]
      rw [List.getD_eq_getElem?_getD, List.getElem?_map, List.getElem?_range h1]
      rfl
    rw [e2, e]
    congr 1
    simp only [parCfg, List.getD_eq_getElem?_getD, List.getElem?_take, hk, if_true]
  · rw [inv.rest k hk, List.getElem?_append_right (by omega), hg, List.getElem?_drop]
    congr 1; omega

theorem parTail_eq (c : GcmCtx) (len : Nat) (x out : List Byte) (hx : x.length = len) (hl : 0 < len) :
    parTail c len (x ++ out) =
      { ret := 1
        ctx := { c with
          len := c.len + BitVec.ofNat 64 len
          y := ofBV (incN (parBlocks len) (toBV c.y))
          buf := absorb c.HL c.HH c.buf x }
        out := x ++ out } := by
  subst hx
  unfold parTail absorb
  rw [yArr_eq, ← chunks_range x hl (x ++ out) (by simp), List.foldl_map]

theorem enc_buf_absorb (c : GcmCtx) (x : List Byte) : ∀ (y buf : Block) (o : List Byte),
    ((chunks x).foldl (encPiece c) (y, buf, o)).2.1 =
      absorb c.HL c.HH buf (gctr c.block (inc32 (toBV y)) x) := by
  induction x using chunks_induction with
  | nil => intro y buf o; rfl
  | step x hx ih =>
    intro y buf o
    rw [absorb, chunks_gctr_step _ _ _ hx, chunks_of_ne_nil hx, List.foldl_cons, List.foldl_cons]
    simp only [encPiece]
    rw [ih, incCtr_eq, incCtr_eq_ofBV, zipWith_xor_comm]
    rfl

theorem dec_buf_absorb (c : GcmCtx) (ps : List (List Byte)) : ∀ (y buf : Block) (o : List Byte),
    (ps.foldl (decPiece c) (y, buf, o)).2.1 =
      ps.foldl (fun b p => gcmMult c.HL c.HH (xorInto b p)) buf := by
  induction ps with
  | nil => intro y buf o; rfl
  | cons p ps ih => intro y buf o; simp only [List.foldl_cons, decPiece]; exact ih _ _ _

theorem length_chunks_parBlocks {len : Nat} (hl : 0 < len) : parBlocks len = (len + 15) / 16 := by
  unfold parBlocks; rw [if_neg (by omega)]; omega

theorem enc_y (c : GcmCtx) (x : List Byte) (hl : 0 < x.length) (y buf : Block) (o : List Byte) :
    ((chunks x).foldl (encPiece c) (y, buf, o)).1 = ofBV (incN (parBlocks x.length) (toBV y)) := by
  apply toBV_injective
  rw [(fold_y c _ _ _ _).1, foldl_inc, toBV_ofBV, length_chunks, length_chunks_parBlocks hl]

/-- C20: if the inner index were private, every schedule of the worker threads is free of out-of-bounds accesses, and every schedule
that runs all threads to completion yields exactly the output and context of the sequential function. -/
theorem C20_parallel_private (c : GcmCtx) (inbuf out : List Byte) (len j0 : Nat) (assign : Nat → List Nat)
    (hl : 0 < len) (hlt : len < 2 ^ 31) (hin : len ≤ inbuf.length) (hout : len ≤ out.length)
    (va : ValidAssign (parBlocks len) assign) (sched : List Nat) :
    ∃ s, parRun (parCfg false c inbuf len) (parInit out j0 assign) sched = some s ∧
      (s.Done → some (parTail c len s.out) = gcmEncrypt c (inbuf.take len) out len) := by
  obtain ⟨s, hs, inv⟩ := parRun_inv (g := parCfg false c inbuf len) (out0 := out) (assign := assign) rfl va rfl hl
    hin hout sched (parInit_inv _ out j0 assign)
  refine ⟨s, hs, fun hd => ?_⟩
  have hx : (inbuf.take len).length = len := by simp; omega
  have hg : (gctr c.block (inc32 (toBV c.y)) (inbuf.take len)).length = len := by rw [length_gctr, hx]
  rw [par_out hin va inv hd, parTail_eq _ _ _ _ hg hl,
    gcmEncrypt_eq c _ out len (by omega) (by omega) (by omega)]
  rw [enc_buf_absorb, enc_y _ _ (by omega), hx]

/-- C22: parallel decryption without the race recovers the right plaintext, but absorbs the recovered plaintext
(not the ciphertext) into the hash state. -/
theorem C22_parallel_decrypt (c : GcmCtx) (inbuf out : List Byte) (len j0 : Nat) (assign : Nat → List Nat)
    (hl : 0 < len) (hlt : len < 2 ^ 31) (hin : len ≤ inbuf.length) (hout : len ≤ out.length)
    (va : ValidAssign (parBlocks len) assign) (sched : List Nat) :
    ∃ s, parRun (parCfg false c inbuf len) (parInit out j0 assign) sched = some s ∧
      (s.Done → ∃ r, gcmDecrypt c (inbuf.take len) out len = some r ∧
        (parTail c len s.out).out = r.out ∧ (parTail c len s.out).ctx.y = r.ctx.y ∧
        (parTail c len s.out).ctx.len = r.ctx.len ∧
        r.ctx.buf = absorb c.HL c.HH c.buf (inbuf.take len) ∧
        (parTail c len s.out).ctx.buf = absorb c.HL c.HH c.buf (r.out.take len)) := by
  obtain ⟨s, hs, inv⟩ := parRun_inv (g := parCfg false c inbuf len) (out0 := out) (assign := assign) rfl va rfl hl
    hin hout sched (parInit_inv _ out j0 assign)
  refine ⟨s, hs, fun hd => ?_⟩
  have hx : (inbuf.take len).length = len := by simp; omega
  have hg : (gctr c.block (inc32 (toBV c.y)) (inbuf.take len)).length = len := by rw [length_gctr, hx]
  refine ⟨_, gcmDecrypt_eq c _ out len (by omega) (by omega) (by omega), ?_⟩
  rw [par_out hin va inv hd, parTail_eq _ _ _ _ hg hl, hx]
  refine ⟨rfl, ?_, rfl, ?_, ?_⟩
  · simp only []
    rw [(fold_y c _ _ _ _).2, enc_y _ _ (by omega), hx]
  · rw [dec_buf_absorb]; rfl
  · simp only []
    rw [List.take_left' hg]

/-! ### schedules that run one thread at a time -/

theorem parRun_append (g : ParCfg) (a b : List Nat) : ∀ s, parRun g s (a ++ b) = (parRun g s a).bind fun s' => parRun g s' b := by
  induction a with
  | nil => intro s; rfl
  | cons t a ih =>
    intro s
    simp only [List.cons_append, parRun, Option.bind_eq_bind]
    cases parStep g s t with
    | none => rfl
    | some s1 => simp [ih]

/-- `s'` is reachable from `s`, only thread `t` having been scheduled, with blocks other than those in `bs` untouched. -/
def Alone (g : ParCfg) (t : Nat) (bs : List Nat) (s s' : PState) : Prop :=
  (∃ sched, parRun g s sched = some s') ∧ s'.out.length = s.out.length ∧
  (∀ u, u ≠ t → (s'.threads u).blocks = (s.threads u).blocks ∧ (s'.threads u).pc = (s.threads u).pc) ∧
  (∀ k, k / 16 ∉ bs → s'.out[k]? = s.out[k]?)

theorem Alone.trans {g t bs s s' s''} (h1 : Alone g t bs s s') (h2 : Alone g t bs s' s'') : Alone g t bs s s'' := by
  obtain ⟨⟨a, ha⟩, b1, c1, d1⟩ := h1
  obtain ⟨⟨a', ha'⟩, b2, c2, d2⟩ := h2
  refine ⟨⟨a ++ a', by rw [parRun_append, ha]; exact ha'⟩, b2.trans b1, ?_, ?_⟩
  · intro u hu; exact ⟨(c2 u hu).1.trans (c1 u hu).1, (c2 u hu).2.trans (c1 u hu).2⟩
  · intro k hk; exact (d2 k hk).trans (d1 k hk)

theorem Alone.step {g t bs s s'} (h : parStep g s t = some s') (ho : s'.out.length = s.out.length)
    (ht : ∀ u, u ≠ t → (s'.threads u).blocks = (s.threads u).blocks ∧ (s'.threads u).pc = (s.threads u).pc)
    (hb : ∀ k, k / 16 ∉ bs → s'.out[k]? = s.out[k]?) : Alone g t bs s s' :=
  ⟨⟨[t], by simp [parRun, h]⟩, ho, ht, hb⟩

theorem getJ_setThread (sh : Bool) (s : PState) (t : Nat) (b : List Nat) (p : Pc) :
    (s.setThread t b p).getJ sh t = s.getJ sh t := by
  unfold PState.getJ PState.setThread; cases sh <;> simp

theorem getJ_setJ (sh : Bool) (s : PState) (t v : Nat) : (s.setJ sh t v).getJ sh t = v := by
  unfold PState.getJ PState.setJ; cases sh <;> simp

theorem setThread_self (s : PState) (t : Nat) (b : List Nat) (p : Pc) :
    ((s.setThread t b p).threads t).blocks = b ∧ ((s.setThread t b p).threads t).pc = p := by
  simp [PState.setThread]

theorem setThread_other (s : PState) (t u : Nat) (b : List Nat) (p : Pc) (h : u ≠ t) :
    (s.setThread t b p).threads u = s.threads u := by
  simp [PState.setThread, h]

theorem setJ_other (sh : Bool) (s : PState) (t u v : Nat) (h : u ≠ t) : (s.setJ sh t v).threads u = s.threads u := by
  unfold PState.setJ; cases sh <;> simp [h]

theorem setJ_out (sh : Bool) (s : PState) (t v : Nat) : (s.setJ sh t v).out = s.out := by
  unfold PState.setJ; cases sh <;> simp

/-- A thread in the inner loop can run the rest of its block. -/
theorem run_inner (g : ParCfg) (hnb : g.nb = parBlocks g.len) (hl : 0 < g.len) (hin : g.len ≤ g.inp.length)
    (t i : Nat) (rest : List Nat) (hi : i < g.nb) (n : Nat) : ∀ s : PState,
    g.len ≤ s.out.length → (s.threads t).blocks = i :: rest → (s.threads t).pc = .test →
    useLen g.nb g.len i - s.getJ g.shared t = n →
    ∃ s', Alone g t [i] s s' ∧ (s'.threads t).blocks = rest ∧ (s'.threads t).pc = .start ∧
      s'.getJ g.shared t = max (s.getJ g.shared t) (useLen g.nb g.len i) := by
  induction n with
  | zero =>
    intro s hout hb hp hn
    refine ⟨s.setThread t rest .start, ?_, (setThread_self ..).1, (setThread_self ..).2, ?_⟩
    · apply Alone.step
      · unfold parStep; simp only [hb, hp]; rw [if_neg (by omega)]
      · rfl
      · intro u hu; rw [setThread_other _ _ _ _ _ hu]; exact ⟨rfl, rfl⟩
      · intro k _; rfl
    · rw [getJ_setThread]; omega
  | succ n ih =>
    intro s hout hb hp hn
    have hjlt : s.getJ g.shared t < useLen g.nb g.len i := by omega
    have hpos := useLen_bound hl (hnb ▸ hi) (hnb ▸ hjlt)
    have h16 := (useLen_pos g.nb g.len i).2
    -- test
    let s1 := s.setThread t (i :: rest) .write
    have a1 : Alone g t [i] s s1 := by
      apply Alone.step
      · unfold parStep; simp only [hb, hp]; rw [if_pos hjlt]
      · rfl
      · intro u hu; rw [setThread_other _ _ _ _ _ hu]; exact ⟨rfl, rfl⟩
      · intro k _; rfl
    have j1 : s1.getJ g.shared t = s.getJ g.shared t := getJ_setThread ..
    have b1 : (s1.threads t).blocks = i :: rest := (setThread_self ..).1
    have p1 : (s1.threads t).pc = .write := (setThread_self ..).2
    have o1 : s1.out = s.out := rfl
    -- write
    have hcond : s1.getJ g.shared t < 16 ∧ 16 * i + s1.getJ g.shared t < g.inp.length ∧
        16 * i + s1.getJ g.shared t < s1.out.length := by rw [j1, o1]; omega
    let o2 := s1.out.set (16 * i + s1.getJ g.shared t) ((g.ectr i)[s1.getJ g.shared t] ^^^ g.inp[16 * i + s1.getJ g.shared t])
    let s2 := { s1 with out := o2 }.setThread t (i :: rest) .incr
    have a2 : Alone g t [i] s1 s2 := by
      apply Alone.step
      · unfold parStep; simp only [b1, p1]; rw [dif_pos hcond]
      · simp [s2, o2, PState.setThread]
      · intro u hu; simp only [s2]; rw [setThread_other _ _ _ _ _ hu]; exact ⟨rfl, rfl⟩
      · intro k hk
        show (s1.out.set _ _)[k]? = _
        rw [List.getElem?_set_ne]
        intro he
        apply hk
        have : k / 16 = i := by omega
        simp [this]
    have j2 : s2.getJ g.shared t = s.getJ g.shared t := by
      have : s2.getJ g.shared t = s1.getJ g.shared t := getJ_setThread ..
      rw [this, j1]
    have b2 : (s2.threads t).blocks = i :: rest := (setThread_self ..).1
    have p2 : (s2.threads t).pc = .incr := (setThread_self ..).2
    -- incr
    let s3 := (s2.setJ g.shared t (s2.getJ g.shared t + 1)).setThread t (i :: rest) .test
    have a3 : Alone g t [i] s2 s3 := by
      apply Alone.step
      · unfold parStep; simp only [b2, p2]; rfl
      · show (s2.setJ _ _ _).out.length = _; rw [setJ_out]
      · intro u hu; simp only [s3]; rw [setThread_other _ _ _ _ _ hu, setJ_other _ _ _ _ _ hu]; exact ⟨rfl, rfl⟩
      · intro k _; show (s2.setJ _ _ _).out[k]? = _; rw [setJ_out]
    have j3 : s3.getJ g.shared t = s.getJ g.shared t + 1 := by
      simp only [s3]; rw [getJ_setThread, getJ_setJ, j2]
    have a123 := (a1.trans a2).trans a3
    obtain ⟨s', ha, hb', hp', hj'⟩ := ih s3 (by rw [a123.2.1]; exact hout) (setThread_self ..).1 (setThread_self ..).2 (by omega)
    exact ⟨s', a123.trans ha, hb', hp', by rw [hj', j3]; omega⟩

/-- A thread at the start of a block can run the whole block. -/
theorem run_block (g : ParCfg) (hnb : g.nb = parBlocks g.len) (hl : 0 < g.len) (hin : g.len ≤ g.inp.length)
    (t i : Nat) (rest : List Nat) (hi : i < g.nb) (s : PState) (hout : g.len ≤ s.out.length)
    (hb : (s.threads t).blocks = i :: rest) (hp : (s.threads t).pc = .start) :
    ∃ s', Alone g t [i] s s' ∧ (s'.threads t).blocks = rest ∧ (s'.threads t).pc = .start ∧
      s'.getJ g.shared t = useLen g.nb g.len i := by
  let s1 := (s.setJ g.shared t 0).setThread t (i :: rest) .test
  have a1 : Alone g t [i] s s1 := by
    apply Alone.step
    · unfold parStep; simp only [hb, hp]; rfl
    · show (s.setJ _ _ _).out.length = _; rw [setJ_out]
    · intro u hu; simp only [s1]; rw [setThread_other _ _ _ _ _ hu, setJ_other _ _ _ _ _ hu]; exact ⟨rfl, rfl⟩
    · intro k _; show (s.setJ _ _ _).out[k]? = _; rw [setJ_out]
  have j1 : s1.getJ g.shared t = 0 := by simp only [s1]; rw [getJ_setThread, getJ_setJ]
  obtain ⟨s', h1, h2, h3, h4⟩ := run_inner g hnb hl hin t i rest hi _ s1 (by rw [a1.2.1]; exact hout)
    (setThread_self ..).1 (setThread_self ..).2 rfl
  exact ⟨s', a1.trans h1, h2, h3, by rw [h4, j1]; omega⟩

theorem Alone.mono {g t bs bs' s s'} (h : Alone g t bs s s') (hs : ∀ x ∈ bs, x ∈ bs') : Alone g t bs' s s' :=
  ⟨h.1, h.2.1, h.2.2.1, fun k hk => h.2.2.2 k (fun hm => hk (hs _ hm))⟩

/-- A thread can run all its blocks. -/
theorem run_thread (g : ParCfg) (hnb : g.nb = parBlocks g.len) (hl : 0 < g.len) (hin : g.len ≤ g.inp.length)
    (t : Nat) (bs : List Nat) : ∀ (s : PState), (∀ i ∈ bs, i < g.nb) → g.len ≤ s.out.length →
    (s.threads t).blocks = bs → (s.threads t).pc = .start →
    ∃ s', Alone g t bs s s' ∧ (s'.threads t).blocks = [] ∧ (s'.threads t).pc = .start := by
  induction bs with
  | nil => 
    intro s _ _ hb hp
    exact ⟨s, ⟨⟨[], rfl⟩, rfl, fun u _ => ⟨rfl, rfl⟩, fun k _ => rfl⟩, hb, hp⟩
  | cons i bs ih =>
    intro s hr hout hb hp
    obtain ⟨s1, a1, b1, p1, _⟩ := run_block g hnb hl hin t i bs (hr i List.mem_cons_self) s hout hb hp
    obtain ⟨s2, a2, b2, p2⟩ := ih s1 (fun j hj => hr j (List.mem_cons_of_mem _ hj)) (by rw [a1.2.1]; exact hout) b1 p1
    exact ⟨s2, (a1.mono (by simp)).trans (a2.mono (fun x hx => List.mem_cons_of_mem _ hx)), b2, p2⟩

/-- From a state in which all threads are between blocks, some schedule finishes threads `0 .. T-1`, touching only
their blocks. -/
theorem run_all (g : ParCfg) (hnb : g.nb = parBlocks g.len) (hl : 0 < g.len) (hin : g.len ≤ g.inp.length)
    (T : Nat) : ∀ (s : PState), (∀ t, ∀ i ∈ (s.threads t).blocks, i < g.nb) → g.len ≤ s.out.length →
    (∀ t, (s.threads t).pc = .start) →
    ∃ s' sched, parRun g s sched = some s' ∧ s'.out.length = s.out.length ∧
      (∀ t, t < T → (s'.threads t).blocks = []) ∧
      (∀ t, T ≤ t → (s'.threads t).blocks = (s.threads t).blocks) ∧
      (∀ k, (∀ t, k / 16 ∉ (s.threads t).blocks) → s'.out[k]? = s.out[k]?) := by
  induction T with
  | zero => intro s _ _ _; exact ⟨s, [], rfl, rfl, by simp, fun _ _ => rfl, fun _ _ => rfl⟩
  | succ T ih =>
    intro s hr hout hp
    obtain ⟨s1, ⟨⟨sc1, h1⟩, l1, o1, k1⟩, b1, p1⟩ := run_thread g hnb hl hin T _ s (hr T) hout rfl (hp T)
    obtain ⟨s2, sc2, h2, l2, d2, r2, k2⟩ := ih s1
      (by
        intro t i hi
        by_cases ht : t = T
        · subst ht; rw [b1] at hi; simp at hi
        · rw [(o1 t ht).1] at hi; exact hr t i hi)
      (by omega)
      (by
        intro t
        by_cases ht : t = T
        · subst ht; exact p1
        · rw [(o1 t ht).2]; exact hp t)
    refine ⟨s2, sc1 ++ sc2, by rw [parRun_append, h1]; exact h2, by omega, ?_, ?_, ?_⟩
    · intro t ht
      by_cases hT : t < T
      · exact d2 t hT
      · have : t = T := by omega
        subst this
        rw [r2 t (Nat.le_refl _)]; exact b1
    · intro t ht
      rw [r2 t (by omega), (o1 t (by omega)).1]
    · intro k hk
      rw [k2 k ?_, k1 k (hk T)]
      intro t
      by_cases ht : t = T
      · subst ht; rw [b1]; simp
      · rw [(o1 t ht).1]; exact hk t

/-- C20, not vacuous: complete schedules exist for every distribution over finitely many threads. -/
theorem C20_complete_schedule_exists (c : GcmCtx) (inbuf out : List Byte) (len j0 T : Nat) (assign : Nat → List Nat)
    (hl : 0 < len) (hin : len ≤ inbuf.length) (hout : len ≤ out.length)
    (va : ValidAssign (parBlocks len) assign) (hT : ∀ t, T ≤ t → assign t = []) (sh : Bool) :
    ∃ sched s, parRun (parCfg sh c inbuf len) (parInit out j0 assign) sched = some s ∧ s.Done := by
  obtain ⟨s, sched, h1, _, h2, h3, _⟩ := run_all (parCfg sh c inbuf len) rfl hl hin T (parInit out j0 assign)
    va.range hout (fun _ => rfl)
  refine ⟨sched, s, h1, fun t => ?_⟩
  by_cases ht : t < T
  · exact h2 t ht
  · rw [h3 t (by omega)]; exact hT t (by omega)

/-- Core of C21: with the shared index, thread `a` (block `ia`) loses its whole block if thread `b` runs a full block between
`a`'s initialisation of `j` and its first test. -/
theorem C21_block_lost (c : GcmCtx) (inbuf out : List Byte) (len j0 T : Nat) (assign : Nat → List Nat)
    (hl : 0 < len) (hin : len ≤ inbuf.length) (hout : len ≤ out.length)
    (va : ValidAssign (parBlocks len) assign) (hT : ∀ t, T ≤ t → assign t = [])
    (a b ia ib : Nat) (as bs : List Nat) (hab : a ≠ b) (ha : assign a = ia :: as) (hb : assign b = ib :: bs)
    (hfull : ib ≠ parBlocks len - 1) :
    ∃ sched s, parRun (parCfg true c inbuf len) (parInit out j0 assign) sched = some s ∧ s.Done ∧
      s.out.length = out.length ∧ ∀ j, j < 16 → s.out[16 * ia + j]? = out[16 * ia + j]? := by
  let g := parCfg true c inbuf len
  let s0 := parInit out j0 assign
  let s1 := (s0.setJ true a 0).setThread a (ia :: as) .test
  have h1 : parStep g s0 a = some s1 := by
    unfold parStep
    simp only [s0, parInit, ha]
    rfl
  have hib : ib < g.nb := va.range b ib (by rw [hb]; exact List.mem_cons_self)
  have hne : ia ≠ ib := by
    intro h
    exact hab (va.unique a b ia (by rw [ha]; exact List.mem_cons_self) (by rw [h, hb]; exact List.mem_cons_self))
  obtain ⟨s2, ⟨⟨sc2, h2⟩, l2, o2, k2⟩, b2, p2, j2⟩ := run_block g rfl hl hin b ib bs hib s1 hout
    (by simp [s1, s0, parInit, PState.setThread, PState.setJ, hb, Ne.symm hab])
    (by simp [s1, s0, parInit, PState.setThread, PState.setJ, Ne.symm hab])
  have hu16 : useLen g.nb g.len ib = 16 := by
    unfold useLen; rw [if_neg]; exact hfull
  let s3 := s2.setThread a as .start
  have h3 : parStep g s2 a = some s3 := by
    unfold parStep
    have e1 : (s2.threads a).blocks = ia :: as := by
      rw [(o2 a hab).1]; simp [s1, PState.setThread]
    have e2 : (s2.threads a).pc = .test := by
      rw [(o2 a hab).2]; simp [s1, PState.setThread]
    simp only [e1, e2]
    rw [if_neg]
    have j2' : s2.j = 16 := by
      have : s2.getJ true b = s2.j := by simp [PState.getJ]
      rw [← this]; exact j2.trans hu16
    have : s2.getJ g.shared a = 16 := by
      have : g.shared = true := rfl
      rw [this]; simp [PState.getJ, j2']
    rw [this]
    have := (useLen_pos g.nb g.len ia).2
    omega
  have hpc : ∀ t, (s3.threads t).pc = .start := by
    intro t
    by_cases hta : t = a
    · subst hta; simp [s3, PState.setThread]
    · rw [show s3.threads t = s2.threads t from setThread_other _ _ _ _ _ hta]
      by_cases htb : t = b
      · subst htb; exact p2
      · rw [(o2 t htb).2]; simp [s1, s0, parInit, PState.setThread, PState.setJ, hta]
  have hbl : ∀ t, (s3.threads t).blocks <:+ assign t := by
    intro t
    by_cases hta : t = a
    · subst hta; simp [s3, PState.setThread, ha]
    · rw [show s3.threads t = s2.threads t from setThread_other _ _ _ _ _ hta]
      by_cases htb : t = b
      · subst htb; rw [b2, hb]; exact List.suffix_cons _ _
      · rw [(o2 t htb).1]; simp [s1, s0, parInit, PState.setThread, PState.setJ, hta]
  have hl3 : s3.out.length = out.length := l2
  obtain ⟨s4, sc4, h4, l4, d4, r4, k4⟩ := run_all g rfl hl hin T s3
    (fun t i hi => va.range t i ((hbl t).subset hi)) (by rw [hl3]; exact hout) hpc
  refine ⟨a :: (sc2 ++ a :: sc4), s4, ?_, ?_, by omega, ?_⟩
  · show parRun g s0 (a :: (sc2 ++ a :: sc4)) = some s4
    simp only [parRun, h1, Option.bind_eq_bind, Option.bind_some, parRun_append, h2, h3, h4]
  · intro t
    by_cases ht : t < T
    · exact d4 t ht
    · have hs := hbl t
      rw [hT t (by omega)] at hs
      rw [r4 t (by omega)]
      exact List.eq_nil_of_suffix_nil hs
  · intro j hj
    have hdiv : (16 * ia + j) / 16 = ia := by omega
    rw [k4 _ ?_]
    · show s2.out[16 * ia + j]? = _
      rw [k2 _ (by rw [hdiv]; simp [hne])]
      rfl
    · intro t hm
      rw [hdiv] at hm
      by_cases hta : t = a
      · subst hta
        have : ia ∉ as := by
          have := va.nodup t; rw [ha] at this; exact (List.nodup_cons.mp this).1
        apply this
        simpa [s3, PState.setThread] using hm
      · exact hta (va.unique t a ia ((hbl t).subset hm) (by rw [ha]; exact List.mem_cons_self))

/-- C21: as written (shared index), for every input of at least two blocks whose first blocks `ia`, `ib` are given to two
different threads there is a schedule, and an initial content of the output buffer, such that the call
reports success but its output is not the ciphertext. -/
theorem C21_shared_index_race (c : GcmCtx) (inbuf : List Byte) (len j0 T : Nat) (assign : Nat → List Nat)
    (hl : 0 < len) (hlt : len < 2 ^ 31) (hin : len ≤ inbuf.length)
    (va : ValidAssign (parBlocks len) assign) (hT : ∀ t, T ≤ t → assign t = [])
    (a b ia ib : Nat) (as bs : List Nat) (hab : a ≠ b) (ha : assign a = ia :: as) (hb : assign b = ib :: bs) :
    ∃ out sched s r, out.length = len ∧
      parRun (parCfg true c inbuf len) (parInit out j0 assign) sched = some s ∧ s.Done ∧
      gcmEncrypt c (inbuf.take len) out len = some r ∧
      (parTail c len s.out).ret = 1 ∧ (parTail c len s.out).out ≠ r.out := by
  -- one of the two blocks is not the last one; swap names if necessary
  have key : ∀ (a b ia ib : Nat) (as bs : List Nat), a ≠ b → assign a = ia :: as → assign b = ib :: bs →
      ib ≠ parBlocks len - 1 → ∃ out sched s r, out.length = len ∧
      parRun (parCfg true c inbuf len) (parInit out j0 assign) sched = some s ∧ s.Done ∧
      gcmEncrypt c (inbuf.take len) out len = some r ∧
      (parTail c len s.out).ret = 1 ∧ (parTail c len s.out).out ≠ r.out := by
    intro a b ia ib as bs hab ha hb hfull
    have hx : (inbuf.take len).length = len := by simp; omega
    have hg : (gctr c.block (inc32 (toBV c.y)) (inbuf.take len)).length = len := by rw [length_gctr, hx]
    have hia : ia < parBlocks len := va.range a ia (by rw [ha]; exact List.mem_cons_self)
    have hpos : 16 * ia < len := useLen_bound (j := 0) hl hia (by have := (useLen_pos (parBlocks len) len ia).1; omega)
    let ct := gctr c.block (inc32 (toBV c.y)) (inbuf.take len)
    let out := ct.map (fun x => x + 1)
    have hol : out.length = len := by simp [out, ct, hg]
    obtain ⟨sched, s, h1, h2, h3, h4⟩ := C21_block_lost c inbuf out len j0 T assign hl hin (by omega) va hT a b ia ib as bs
      hab ha hb hfull
    refine ⟨out, sched, s, _, hol, h1, h2, gcmEncrypt_eq c _ out len (by omega) (by omega) (by omega), rfl, ?_⟩
    intro he
    have he' : s.out = ct ++ out.drop (inbuf.take len).length := he
    have := h4 0 (by omega)
    rw [he', Nat.add_zero, List.getElem?_append_left (by simp only [ct, hg]; exact hpos)] at this
    rw [List.getElem?_eq_getElem (by simp only [ct, hg]; exact hpos), List.getElem?_eq_getElem (by omega)] at this
    simp only [out, List.getElem_map, Option.some.injEq] at this
    generalize ct[16 * ia]'(by simp only [ct, hg]; exact hpos) = z at this
    revert z; decide
  have hne : ia ≠ ib := by
    intro h
    exact hab (va.unique a b ia (by rw [ha]; exact List.mem_cons_self) (by rw [h, hb]; exact List.mem_cons_self))
  by_cases h : ib = parBlocks len - 1
  · exact key b a ib ia bs as (Ne.symm hab) hb ha (by omega)
  · exact key a b ia ib as bs hab ha hb h

/- Two full blocks on two threads satisfy the hypotheses on the distribution. -/
example : ValidAssign (parBlocks 32) (fun t => if t = 0 then [0] else if t = 1 then [1] else []) := by
  constructor
  · intro i hi
    have : i = 0 ∨ i = 1 := by simp [parBlocks] at hi; omega
    rcases this with rfl | rfl
    · exact ⟨0, by simp⟩
    · exact ⟨1, by simp⟩
  · intro t i hi
    have h2 : parBlocks 32 = 2 := by decide
    rw [h2]

    split at hi
    · simp at hi; omega
    · split at hi
      · simp at hi; omega
      · simp at hi
  · intro t u i h1 h2
    by_cases t0 : t = 0 <;> by_cases u0 : u = 0 <;> by_cases t1 : t = 1 <;> by_cases u1 : u = 1 <;>
      simp_all
  · intro t

    split
    · decide
    · split <;> decide

/-- C22, consequence: in an honest exchange of one byte the tag computed after parallel decryption (even without the
race, output `s.out` being the right plaintext) differs from the tag of the sender. -/
theorem C22_tags_differ :
    ∃ (E : Block → Block) (p : List Byte) (r : GcmResult) (sout : List Byte),
      gcmEncrypt (gcmSetiv (gcmInit E) []) p [0] 1 = some r ∧
      (∃ rd, gcmDecrypt (gcmSetiv (gcmInit E) []) r.out [0] 1 = some rd ∧ rd.out = sout ∧ sout = p ∧
        ((gcmFinish rd.ctx 16).map Prod.fst = (gcmFinish r.ctx 16).map Prod.fst)) ∧
      ((gcmFinish (parTail (gcmSetiv (gcmInit E) []) 1 sout).ctx 16).map Prod.fst ≠
        (gcmFinish r.ctx 16).map Prod.fst) := by
  obtain ⟨r, h1, _, h2⟩ := C11_gcm_roundtrip (gcmSetiv (gcmInit xorCipher) []) [5] [0] [0] 1 1 (by decide) (by decide)
    (by decide) (by decide) (by decide)
  have hout : r.out.length = 1 := by
    obtain ⟨r', h', _, hl, _⟩ := (C17_in_bounds (gcmSetiv (gcmInit xorCipher) []) [5] [0] 1 (by decide) (by decide) (by decide)).1
    rw [h1] at h'; cases h'; exact hl
  have ht : r.out.take [(5 : Byte)].length = r.out := List.take_of_length_le (by simp [hout])
  rw [ht] at h2
  refine ⟨xorCipher, [5], r, [5], h1, ⟨_, h2, rfl, rfl, rfl⟩, ?_⟩
  have he : ((gcmEncrypt (gcmSetiv (gcmInit xorCipher) []) [5] [0] 1).bind
      (fun r => (gcmFinish r.ctx 16).map Prod.fst)) = (gcmFinish r.ctx 16).map Prod.fst := by
    rw [h1]; rfl
  rw [← he]
  decide +kernel

/-- C23: with `inlen = 0` the parallel functions process one whole block: the counter advances and one block of the
(16 byte) output object is hashed, whereas the sequential function leaves everything as it was. -/
theorem C23_empty_input (c : GcmCtx) (out : List Byte) (assign : Nat → List Nat) (j0 : Nat) (sh : Bool) :
    (parTail c 0 out).ctx.y = incCtr c.y 4 (by decide) ∧
    (parTail c 0 out).ctx.buf = gcmMult c.HL c.HH (xorInto c.buf (out.take 16)) ∧
    gcmEncrypt c [] out 0 = some { ret := 1, ctx := c, out := out } ∧
    (assign 0 = [0] → parRun (parCfg sh c [] 0) (parInit out j0 assign) [0, 0, 0] = none) := by
  refine ⟨rfl, ?_, ?_, ?_⟩
  · simp [parTail, parBlocks, useLen]
  · have : intLen 0 = 0 := by decide
    simp [gcmEncrypt, gcmCrypt, this]
  · intro h
    cases sh <;>
    simp [parRun, parStep, parInit, h, parCfg, PState.setJ, PState.setThread, PState.getJ, useLen, parBlocks]

end Verif.Props
