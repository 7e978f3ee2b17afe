import Verif.Props.WbTrace
import Verif.Props.Endian

/-! Property C125, continued: the scheme from self-equivalences, the order of the lookups, dummy rounds. -/
set_option autoImplicit false

namespace Verif.Props
open Verif Spec Model

/-! ### The scheme from self-equivalences -/

/-- The word with which a round goes into the S-box. -/
def seIn (ctx : SeCtx) (s : B4) (i : Fin 32) : BitVec 32 :=
  affineU (ctx.M i 0) s.b1 ^^^ affineU (ctx.M i 1) s.b2 ^^^ affineU (ctx.M i 2) s.b3

theorem seStepTr_val (ctx : SeCtx) (s : B4) (i : Fin 32) : (seStepTr ctx s i).val = seStep ctx s i := rfl

theorem seStepTr_log (ctx : SeCtx) (s : B4) (i : Fin 32) : (seStepTr ctx s i).log = bytes4 (seIn ctx s i) := by
  unfold seStepTr
  simp only [wl_log, wl_pure_log, List.append_nil]
  rfl

theorem seFold_val (ctx : SeCtx) (l : List (Fin 32)) (s : B4) : (l.foldlM (seStepTr ctx) s).val = l.foldl (seStep ctx) s := by
  induction l generalizing s with
  | nil => rfl
  | cons i l ih => rw [List.foldlM_cons, wl_val, ih, seStepTr_val, List.foldl_cons]

theorem seTr_val (c : SeCtx) (x : Block) : (seEncryptTr c x).val = seEncrypt c x := by
  unfold seEncryptTr seEncrypt
  simp only [wl_val, wl_pure_val, seFold_val]

theorem seFold_len (ctx : SeCtx) (l : List (Fin 32)) (s : B4) : (l.foldlM (seStepTr ctx) s).log.length = 4 * l.length := by
  induction l generalizing s with
  | nil => rfl
  | cons i l ih =>
    rw [List.foldlM_cons, wl_log, List.length_append, ih, seStepTr_log, List.length_cons]
    simp only [bytes4, List.length_cons, List.length_nil]
    omega

theorem seFold_log (ctx : SeCtx) (l : List (Fin 32)) (s : B4) (m : Nat) (hm : m < l.length) :
    ((l.foldlM (seStepTr ctx) s).log.drop (4 * m)).take 4 = bytes4 (seIn ctx ((l.take m).foldl (seStep ctx) s) l[m]) := by
  induction l generalizing s m with
  | nil => simp at hm
  | cons i l ih =>
    rw [List.foldlM_cons, wl_log, seStepTr_log, seStepTr_val]
    cases m with
    | zero => rfl
    | succ m =>
      have := ih (seStep ctx s i) m (by simpa using hm)
      rw [show 4 * (m + 1) = (bytes4 (seIn ctx s i)).length + 4 * m by simp only [bytes4, List.length_cons, List.length_nil]; omega,
        List.drop_append, List.drop_eq_nil_of_le (by omega), List.nil_append, Nat.add_sub_cancel_left, this]
      rfl

theorem seIn_gen (r : SeRnd) (mode : EncMode) (key : List Byte) (i : Fin 32) (X : Quad) (s : B4) (h : SeEnc r i.1 X s) :
    seIn (seGenTable r mode key) s i = affineU (r.AA i.1) (X.b ^^^ X.c ^^^ X.d ^^^ (sm4InitKey key mode)[i]) := by
  obtain ⟨-, h1, h2, h3⟩ := h
  simp only [seIn, seGenTable]
  generalize (sm4InitKey key mode)[i] = rk
  have hM : ∀ (k : Fin 3) x, affineU (affinemix (r.AA i.1) (affinemix ⟨identityM 32, rk⟩ (r.Pinv (i.1 + 1 + k.1))))
      (affineU (r.P (i.1 + 1 + k.1)) x) = affineU (r.AA i.1) (x ^^^ rk) := by
    intro k x
    rw [affineU_affinemix, affineU_affinemix, (se_P_inv r _).1]
    congr 1
    unfold affineU
    simp only [matMulNum_identity]
  rw [h1, h2, h3]
  have e0 := hM 0 X.b
  have e1 := hM 1 X.c
  have e2 := hM 2 X.d
  rw [show i.1 + 1 + (0 : Fin 3).1 = i.1 + 1 from rfl] at e0 ⊢
  rw [show i.1 + 1 + (1 : Fin 3).1 = i.1 + 2 from rfl] at e1 ⊢
  rw [show i.1 + 1 + (2 : Fin 3).1 = i.1 + 3 from rfl] at e2 ⊢
  rw [e0, e1, e2, affineU_xor3]
  congr 1
  simp only [BitVec.xor_comm, xor_left_comm32, xor_cancel]

theorem seSee_eq (g : Byte → Byte) (c : SeCtx) (n : Nat) (hn : n + 1 < 32) (x : Block) :
    seSee g (fun x => (seEncryptTr c x).log) n x =
      seeWord (fun _ => g) (seIn c (((List.finRange 32).take (n + 1)).foldl (seStep c) ⟨affineU (c.SE 0) (get32 x 0), affineU (c.SE 1) (get32 x 1),
        affineU (c.SE 2) (get32 x 2), affineU (c.SE 3) (get32 x 3)⟩) ⟨n + 1, hn⟩) := by
  unfold seSee seEncryptTr
  simp only [wl_log, wl_pure_log, List.append_nil]
  rw [seFold_log _ _ _ (n + 1) (by simpa using hn), List.getElem_finRange]
  rfl

theorem seA_inj (k : Nat) (hk : k < 2039) (x y : Byte) (h : affineU (seA k) x = affineU (seA k) y) : x = y := by
  have e := se_selfEq k hk
  apply sm4Sbox_inj
  rw [← seS_eq, ← seS_eq, ← e x, ← e y, h]

theorem se_shows (g : Byte → Byte) (r : SeRnd) (mode : EncMode) (key : List Byte) (n : Nat) (hn : n < 31) :
    Shows (sm4InitKey key mode) n (fun x => seeWord (fun _ => g) (affineU (r.AA (n + 1)) (x ^^^ (sm4InitKey key mode)[n + 1])))
      (seSee g (fun x => (seEncryptTr (seGenTable r mode key) x).log) n) := by
  intro X hb0 hc0
  rw [seSee_eq g _ n (by omega)]
  simp only [get32_eq]
  have eS : ∀ i : Fin 4, (seGenTable r mode key).SE i = r.P i.1 := fun _ => rfl
  rw [eS, eS, eS, eS]
  have hq := load_eq X.toBlock
  rw [quadOf_toBlock] at hq
  simp only [B4.toQuad, B4.load] at hq
  have ha := congrArg Quad.a hq
  have hb := congrArg Quad.b hq
  have hc := congrArg Quad.c hq
  have hd := congrArg Quad.d hq
  simp only at ha hb hc hd
  rw [ha, hb, hc, hd]
  have hlen : ((List.finRange 32).take (n + 1)).length = n + 1 := by simp; omega
  have h := se_rounds r mode key ((List.finRange 32).take (n + 1)) 0 (by
      rw [hlen]
      apply List.ext_getElem (by simp; omega)
      intro i h1 h2
      simp) X
    ⟨affineU (r.P 0) X.a, affineU (r.P 1) X.b, affineU (r.P 2) X.c, affineU (r.P 3) X.d⟩ ⟨rfl, rfl, rfl, rfl⟩
  have hl : ((List.finRange 32).take (n + 1)).map (fun i => (sm4InitKey key mode)[i]) = (sm4InitKey key mode).toList.take (n + 1) := by
    generalize sm4InitKey key mode = v
    apply List.ext_getElem
    · simp
    · intro i h1 h2
      simp
  rw [hl, hlen, Nat.zero_add] at h
  have hs := seIn_gen r mode key ⟨n + 1, by omega⟩ _ _ h
  rw [hb0, hc0, show (0 : BitVec 32) ^^^ 0 = 0 from rfl, show ∀ x : Word, 0 ^^^ x = x from fun x => BitVec.zero_xor] at hs
  exact congrArg (seeWord fun _ => g) hs

/-- C125: the same for the scheme from self-equivalences, from the entries of the S-box. -/
theorem C125_se_key (r : SeRnd) (mode : EncMode) (key : List Byte) (g : Byte → Byte) (hg : Telling g) :
    lookKey mode (seSee g fun x => (seEncryptTr (seGenTable r mode key) x).log) = padKey key := by
  refine lookKey_eq mode key (fun n x => seeWord (fun _ => g) (affineU (r.AA (n + 1)) (x ^^^ (sm4InitKey key mode).getD (n + 1) 0)))
    (fun n => ?_) _ (fun n hn => ?_)
  · exact com_sharp (fun j => seA (r.idx (n + 1) j)) (fun j => seA_inj _ (idx_lt r (n + 1) j)) _ (fun _ => g) (fun _ => hg)
  · have := se_shows g r mode key n (by omega)
    have e : (sm4InitKey key mode).getD (n + 1) 0 = (sm4InitKey key mode)[n + 1] := by
      simp [Vector.getD, show n + 1 < 32 by omega]
    rw [e]
    exact this

/-! ### What the lookups do not show -/

/-- C125: recording the lookups changes nothing. -/
theorem C125_traced (c : Wbsm4Ctx) (c' : SeCtx) (x : Block) :
    (wbsm4EncryptTr c x).val = wbsm4Encrypt c x ∧ (seEncryptTr c' x).val = seEncrypt c' x :=
  ⟨wbTr_val c x, seTr_val c' x⟩

theorem look_shape (t : WbTab) (T : Tab4) (x : BitVec 32) :
    (lookTr t T x).log.map (fun e => (e.tab, e.j)) = [(t, 0), (t, 1), (t, 2), (t, 3)] := rfl

theorem look_len (t : WbTab) (T : Tab4) (x : BitVec 32) : (lookTr t T x).log.length = 4 := rfl

theorem shape_fold (l l' : List WbRound) (i : Nat) (s s' : B4) (h : l.length = l'.length) :
    ((l.zipIdx i).foldlM wbRoundStepTr s).log.map (fun e => (e.tab, e.j)) =
      ((l'.zipIdx i).foldlM wbRoundStepTr s').log.map (fun e => (e.tab, e.j)) := by
  induction l generalizing l' i s s' with
  | nil =>
    rw [List.eq_nil_of_length_eq_zero h.symm]
    rfl
  | cons T l ih =>
    cases l' with
    | nil => simp at h
    | cons T' l' =>
      rw [List.zipIdx_cons, List.zipIdx_cons, List.foldlM_cons, List.foldlM_cons, wl_log, wl_log, List.map_append, List.map_append,
        ih l' _ _ (wbRoundStepTr s' (T', i)).val (by simpa using h)]
      rfl

theorem shape_len (l : List WbRound) (i : Nat) (s : B4) : ((l.zipIdx i).foldlM wbRoundStepTr s).log.length = 24 * l.length := by
  induction l generalizing i s with
  | nil => rfl
  | cons T l ih =>
    rw [List.zipIdx_cons, List.foldlM_cons, wl_log, List.length_append, ih, List.length_cons]
    show 24 + _ = _
    omega

/-- C125: which tables are read, how often and in which order is the same for all texts and all contexts with as many rounds; only
the numbers of the entries differ. -/
theorem C125_order (c c' : Wbsm4Ctx) (hc : c.rnds.length = c'.rnds.length) (x x' : Block) (s : SeCtx) :
    (wbsm4EncryptTr c x).log.map (fun e => (e.tab, e.j)) = (wbsm4EncryptTr c' x').log.map (fun e => (e.tab, e.j)) ∧
    (wbsm4EncryptTr c x).log.length = 24 * c.rnds.length + 32 ∧ (seEncryptTr s x).log.length = 128 := by
  refine ⟨?_, ?_, ?_⟩
  · unfold wbsm4EncryptTr
    simp only [wl_log, wl_pure_log, List.map_append, look_shape]
    rw [shape_fold c.rnds c'.rnds 0 _ _ hc]
  · unfold wbsm4EncryptTr
    simp only [wl_log, wl_pure_log, List.length_append, shape_len, look_len, List.length_nil]
    omega
  · unfold seEncryptTr
    simp only [wl_log, wl_pure_log, List.append_nil, seFold_len, List.length_finRange]

/-! ### Dummy rounds -/

theorem entriesDD_step (s : B4) (T : WbRound) (i n : Nat) :
    entries (.dd n) (wbRoundStepTr s (T, i)).log = if i = n then bytes4 (T.table.look (sboxIn s T)) else [] := by
  unfold wbRoundStepTr
  simp only [wl_log, wl_pure_log, entries_append, entries_look]
  by_cases h : i = n <;> simp [h, entries, sboxIn, lookTr]

theorem entriesDD_fold (l : List WbRound) (i n : Nat) (s : B4) :
    entries (.dd n) ((l.zipIdx i).foldlM wbRoundStepTr s).log =
      if h : i ≤ n ∧ n < i + l.length then
        bytes4 ((l[n - i]'(by omega)).table.look (sboxIn ((l.take (n - i)).foldl wbRoundStep s) (l[n - i]'(by omega)))) else [] := by
  induction l generalizing i s with
  | nil =>
    rw [dif_neg (by simp)]
    rfl
  | cons T l ih =>
    rw [List.zipIdx_cons, List.foldlM_cons, wl_log, entries_append, ih, entriesDD_step, wbStep_val]
    by_cases h : i = n
    · subst h
      rw [if_pos rfl, dif_neg (by omega), dif_pos (by simp only [List.length_cons]; omega), List.append_nil]
      simp only [Nat.sub_self, List.take_zero, List.foldl_nil, List.getElem_cons_zero]
    · by_cases h2 : i + 1 ≤ n ∧ n < i + 1 + l.length
      · rw [if_neg h, dif_pos h2, dif_pos (by simp only [List.length_cons]; omega), List.nil_append]
        simp only [show n - i = (n - (i + 1)) + 1 by omega, List.take_succ_cons, List.foldl_cons, List.getElem_cons_succ]
      · rw [if_neg h, dif_neg h2, dif_neg (by simp only [List.length_cons]; omega), List.nil_append]

/-- The state before the first round. -/
def wbIn (c : Wbsm4Ctx) (x : Block) : B4 :=
  ⟨(c.se 0).look (get32 x 0), (c.se 1).look (get32 x 1), (c.se 2).look (get32 x 2), (c.se 3).look (get32 x 3)⟩

theorem wbSeeDD_eq (c : Wbsm4Ctx) (n : Nat) (hn : n < c.rnds.length) (x : Block) :
    wbSeeDD (fun x => (wbsm4EncryptTr c x).log) n x =
      bytes4 (c.rnds[n].table.look (sboxIn ((c.rnds.take n).foldl wbRoundStep (wbIn c x)) c.rnds[n])) := by
  show entries _ _ = _
  unfold wbsm4EncryptTr
  simp only [wl_log, wl_pure_log, entries_append, entriesDD_fold, entries_look]
  rw [dif_pos (by omega)]
  simp only [Nat.sub_zero, entries, List.filter_nil, List.map_nil, List.append_nil, List.nil_append, reduceCtorEq, if_false]
  rfl

/-- A round as `genRounds` makes it. -/
def IsRound (r : Wbsm4Rnd) (rk : Sm4Ctx) (d : Byte) (T : WbRound) : Prop :=
  if d = 0 then ∃ i p, T = realRound r rk i p else ∃ j, T = dummyRound j

theorem genRounds_each (r : Wbsm4Rnd) (rk : Sm4Ctx) (junk : Nat → WbRound) (ds : List Byte) : ∀ (i p : Nat) (flag : Bool)
    (rs : List WbRound), genRounds r rk junk ds i p flag = some rs → List.Forall₂ (IsRound r rk) ds rs := by
  induction ds with
  | nil => intro i p flag rs h; cases h; exact .nil
  | cons d ds ih =>
    intro i p flag rs h
    unfold genRounds at h
    by_cases hd : d = 0
    · rw [if_pos hd] at h
      by_cases hf : flag = true ∧ p < 4
      · rw [if_pos hf] at h; cases h
      · rw [if_neg hf] at h
        simp only at h
        generalize (if flag = true then p - 4 else p) = q at h
        by_cases h32 : q < 32
        · rw [dif_pos h32] at h
          obtain ⟨rs', h', rfl⟩ := Option.map_eq_some_iff.1 h
          exact .cons (by rw [IsRound, if_pos hd]; exact ⟨_, _, rfl⟩) (ih _ _ _ _ h')
        · rw [dif_neg h32] at h; cases h
    · rw [if_neg hd] at h
      obtain ⟨rs', h', rfl⟩ := Option.map_eq_some_iff.1 h
      exact .cons (by rw [IsRound, if_neg hd]; exact ⟨_, rfl⟩) (ih _ _ _ _ h')

def encQuad (r : Wbsm4Rnd) (p : Nat) (X : Quad) : B4 :=
  ⟨affineU (r.P p) X.a, affineU (r.P (p + 1)) X.b, affineU (r.P (p + 2)) X.c, affineU (r.P (p + 3)) X.d⟩

def decQuad (r : Wbsm4Rnd) (p : Nat) (s : B4) : Quad :=
  ⟨affineU (r.Pinv p) s.b0, affineU (r.Pinv (p + 1)) s.b1, affineU (r.Pinv (p + 2)) s.b2, affineU (r.Pinv (p + 3)) s.b3⟩

theorem enc_dec (r : Wbsm4Rnd) (p : Nat) (s : B4) : encQuad r p (decQuad r p s) = s := by
  simp only [encQuad, decQuad, (P_inv r _).2]

theorem enc_unique (r : Wbsm4Rnd) (p : Nat) (X : Quad) (s : B4) (h : Enc r p X s) : s = encQuad r p X := by
  obtain ⟨h0, h1, h2, h3⟩ := h
  cases s
  simp only at h0 h1 h2 h3
  rw [encQuad, h0, h1, h2, h3]

theorem step_onto (r : Wbsm4Rnd) (rk : Sm4Ctx) (d : Byte) (T : WbRound) (h : IsRound r rk d T) (t : B4) : ∃ s, wbRoundStep s T = t := by
  unfold IsRound at h
  by_cases hd : d = 0
  · rw [if_pos hd] at h
    obtain ⟨i, p, rfl⟩ := h
    refine ⟨encQuad r p.1 (sm4Unround rk[p] (decQuad r (p.1 + 1) t)), ?_⟩
    have h := real_step r rk i p (sm4Unround rk[p] (decQuad r (p.1 + 1) t)) (encQuad r p.1 (sm4Unround rk[p] (decQuad r (p.1 + 1) t)))
      ⟨rfl, rfl, rfl, rfl⟩
    rw [unround_round] at h
    rw [enc_unique r _ _ _ h, enc_dec]
  · rw [if_neg hd] at h
    obtain ⟨j, rfl⟩ := h
    refine ⟨⟨t.b3 ^^^ junkXor j, t.b0, t.b1, t.b2⟩, ?_⟩
    rw [dummy_step]
    simp only [BitVec.xor_assoc, BitVec.xor_self, BitVec.xor_zero]

theorem steps_onto (r : Wbsm4Rnd) (rk : Sm4Ctx) (ds : List Byte) (rs : List WbRound) (h : List.Forall₂ (IsRound r rk) ds rs) (n : Nat)
    (t : B4) : ∃ s, (rs.take n).foldl wbRoundStep s = t := by
  induction h generalizing n with
  | nil => exact ⟨t, by simp⟩
  | cons hT _ ih =>
    cases n with
    | zero => exact ⟨t, rfl⟩
    | succ n =>
      obtain ⟨s', hs'⟩ := ih n
      obtain ⟨s, hs⟩ := step_onto r rk _ _ hT s'
      exact ⟨s, by rw [List.take_succ_cons, List.foldl_cons, hs, hs']⟩

theorem wbIn_onto (r : Wbsm4Rnd) (c : Wbsm4Ctx) (hse : ∀ i : Fin 4, c.se i = affTab r.qx (r.P i.1)) (s : B4) : ∃ x, wbIn c x = s := by
  refine ⟨(decQuad r 0 s).toBlock, ?_⟩
  unfold wbIn
  rw [hse, hse, hse, hse]
  simp only [look_affTab, get32_eq]
  have hq := load_eq (decQuad r 0 s).toBlock
  rw [quadOf_toBlock] at hq
  simp only [B4.toQuad, B4.load] at hq
  have ha := congrArg Quad.a hq
  have hb := congrArg Quad.b hq
  have hc := congrArg Quad.c hq
  have hd := congrArg Quad.d hq
  simp only at ha hb hc hd
  rw [ha, hb, hc, hd]
  exact enc_dec r 0 s

/-- C125: the dummy rounds are exactly the rounds in which the entries looked up in `DD` are the same for all texts. -/
theorem C125_dummies (r : Wbsm4Rnd) (junk : Nat → WbRound) (mode : EncMode) (d : Nat) (key : List Byte) (ds : List Byte) (c : Wbsm4Ctx)
    (hds : dummyArray r.shuf d = some ds) (h : wbsm4GenTable r junk mode d key = some c) (i : Nat) (hi : i < ds.length) :
    (∀ x y, wbSeeDD (fun x => (wbsm4EncryptTr c x).log) i x = wbSeeDD (fun x => (wbsm4EncryptTr c x).log) i y) ↔ ds[i] ≠ 0 := by
  rw [wbsm4GenTable, hds, Option.bind_some, genTableWith] at h
  obtain ⟨rs, hrs, hc⟩ := Option.map_eq_some_iff.1 h
  have hse : ∀ i : Fin 4, c.se i = affTab r.qx (r.P i.1) := by rw [← hc]; exact fun _ => rfl
  have hr : c.rnds = rs := by rw [← hc]
  clear h hc
  subst hr
  have hf := genRounds_each _ _ _ _ _ _ _ _ hrs
  have hl : i < c.rnds.length := by rw [← hf.length_eq]; exact hi
  have hT : IsRound r (sm4InitKey key mode) ds[i] c.rnds[i] := (List.forall₂_iff_get.1 hf).2 i hi hl
  simp only [wbSeeDD_eq c i hl]
  generalize hTe : c.rnds[i] = T at hT
  generalize sm4InitKey key mode = rk at hf hT
  unfold IsRound at hT
  constructor
  · intro hxy hd
    rw [if_pos hd] at hT
    obtain ⟨i', p, rfl⟩ := hT
    have key : ∀ X : Quad, ∃ x : Block, (realRound r rk i' p).table.look (sboxIn ((c.rnds.take i).foldl wbRoundStep (wbIn c x))
        (realRound r rk i' p)) = affineU (r.Q p.1) (sm4T (X.b ^^^ X.c ^^^ X.d ^^^ rk[p])) := by
      intro X
      obtain ⟨s, hs⟩ := steps_onto r _ ds _ hf i (encQuad r p.1 X)
      obtain ⟨x, hx⟩ := wbIn_onto r c hse s
      refine ⟨x, ?_⟩
      rw [hx, hs, sboxIn_real r _ i' p X _ ⟨rfl, rfl, rfl, rfl⟩]
      exact look_sboxTab (r.q3 i') (r.E p.1) (r.Einv p.1) (E_inv r p.1) (r.Q p.1) _ _
    obtain ⟨x, hx⟩ := key ⟨0, 0, 0, 0⟩
    obtain ⟨y, hy⟩ := key ⟨0, 0, 0, 1⟩
    have e := hxy x y
    rw [hx, hy] at e
    have e := bytes4_inj _ _ e
    have e := congrArg (affineU (r.Qinv p.1)) e
    rw [(Q_inv r _).1, (Q_inv r _).1] at e
    have e := sm4T_inj _ _ e
    rw [BitVec.xor_left_inj] at e
    exact absurd e (by decide)
  · intro hd x y
    rw [if_neg hd] at hT
    obtain ⟨j, rfl⟩ := hT
    have ht : ∀ x, Tab4.look (fun _ _ => 0) x = 0 := fun x => by simp [Tab4.look]
    simp only [dummyRound, ht]

/-! ### Cases -/

/-- There are contexts without dummy rounds, and the key comes out of the cache lines. -/
example : ∃ c, wbsm4GenTable zeroStreams (fun _ => dummyRound ⟨fun _ _ _ => 1, fun _ _ => 2, fun _ _ => 3, fun _ _ => 4⟩) .encrypt 0
      [1, 2, 3, 4, 5, 6, 7, 8, 9, 10, 11, 12, 13, 14, 15, 16] = some c ∧
    lookKey .encrypt (wbSee (fun n j => cacheLine 4 (16 * ((n + j.1) % 4))) fun x => (wbsm4EncryptTr c x).log) =
      #v[1, 2, 3, 4, 5, 6, 7, 8, 9, 10, 11, 12, 13, 14, 15, 16] := by
  obtain ⟨c, hc, -⟩ := no_dummy zeroStreams (fun _ => dummyRound ⟨fun _ _ _ => 1, fun _ _ => 2, fun _ _ => 3, fun _ _ => 4⟩) .encrypt
    [1, 2, 3, 4, 5, 6, 7, 8, 9, 10, 11, 12, 13, 14, 15, 16]
  exact ⟨c, hc, (C125_wbsm4_key _ _ _ _ c hc _ (fun n j => (C125_cache_lines _ (by omega)).1)).trans (by decide +kernel)⟩

/-- A single bit is enough. -/
example (r : SeRnd) (mode : EncMode) (key : List Byte) :
    lookKey mode (seSee (· &&& 0x80) fun x => (seEncryptTr (seGenTable r mode key) x).log) = padKey key :=
  C125_se_key r mode key _ (telling_mask _ (by decide))

/-- Seeing nothing is not: then what comes out does not depend on the key. -/
example (r r' : SeRnd) (mode : EncMode) (key key' : List Byte) :
    lookKey mode (seSee (fun _ => 0) fun x => (seEncryptTr (seGenTable r mode key) x).log) =
      lookKey mode (seSee (fun _ => 0) fun x => (seEncryptTr (seGenTable r' mode key') x).log) := by
  have e : ∀ l : List Byte, see4 (fun _ _ => 0) l = 0 := by
    intro l
    unfold see4
    split
    · show ((0 : Byte) ++ (0 : Byte)) ++ ((0 : Byte) ++ (0 : Byte)) = (0 : Word)
      decide
    · rfl
  unfold seSee
  simp only [e]

/-- There are contexts with dummy rounds and with other rounds. -/
example : ∃ ds c, dummyArray zeroStreams.shuf 1 = some ds ∧ wbsm4GenTable zeroStreams (fun _ => dummyRound ⟨fun _ _ _ => 1, fun _ _ => 2, fun _ _ => 3, fun _ _ => 4⟩) .encrypt 1 [1, 2, 3] = some c ∧
    (∃ i, ∃ h : i < ds.length, ds[i] ≠ 0) ∧ ∃ i, ∃ h : i < ds.length, ds[i] = 0 := by
  obtain ⟨da, hperm, hdum, -, hok⟩ := C37_dummy_rounds zeroStreams (fun _ => dummyRound ⟨fun _ _ _ => 1, fun _ _ => 2, fun _ _ => 3, fun _ _ => 4⟩) .encrypt 1 [1, 2, 3]
  obtain ⟨c, hc, -⟩ := hok (by
    rintro ⟨pre, post, rfl, -⟩
    have := hperm.count_eq 1
    simp at this
    omega)
  have h1 : (1 : Byte) ∈ expandDummy da :=
    List.mem_flatMap.2 ⟨1, hperm.mem_iff.2 (by simp), by decide⟩
  have h0 : (0 : Byte) ∈ expandDummy da :=
    List.mem_flatMap.2 ⟨0, hperm.mem_iff.2 (by simp), by decide⟩
  obtain ⟨i, hi, ei⟩ := List.getElem_of_mem h1
  obtain ⟨k, hk, ek⟩ := List.getElem_of_mem h0
  exact ⟨_, c, hdum, hc, ⟨i, hi, by rw [ei]; decide⟩, ⟨k, hk, ek⟩⟩

end Verif.Props
