import Verif.Lemmas.Wb
import Verif.Props.Shuffle

/-! C36, C37, C38: white-box SM4 against the SM4 standard. -/
set_option autoImplicit false
set_option linter.unusedSimpArgs false

namespace Verif.Props
open Verif Spec Model

/-- The words of `s` are those of `X` under the encodings `P[p] .. P[p+3]`. -/
def Enc (r : Wbsm4Rnd) (p : Nat) (X : Quad) (s : B4) : Prop :=
  s.b0 = affineU (r.P p) X.a ∧ s.b1 = affineU (r.P (p + 1)) X.b ∧ s.b2 = affineU (r.P (p + 2)) X.c ∧
    s.b3 = affineU (r.P (p + 3)) X.d

theorem P_inv (r : Wbsm4Rnd) (i : Nat) : Inverse (affineU (r.P i)) (affineU (r.Pinv i)) := C33_affine_pairs 32 _ _
theorem Q_inv (r : Wbsm4Rnd) (i : Nat) : Inverse (affineU (r.Q i)) (affineU (r.Qinv i)) := C33_affine_pairs 32 _ _
theorem E_inv (r : Wbsm4Rnd) (i : Nat) (j : Fin 4) : Inverse (affineU (r.E i j)) (affineU (r.Einv i j)) :=
  C33_affine_pairs 8 _ _

/-- A real round performs one SM4 round under the encodings. -/
theorem real_step (r : Wbsm4Rnd) (rk : Sm4Ctx) (i : Nat) (p : Fin 32) (X : Quad) (s : B4) (h : Enc r p.1 X s) :
    Enc r (p.1 + 1) (sm4Round X rk[p]) (wbRoundStep s (realRound r rk i p)) := by
  obtain ⟨h0, h1, h2, h3⟩ := h
  refine ⟨h1, h2, h3, ?_⟩
  simp only [wbRoundStep, realRound, sm4Round, look_affTab]
  have hM : affineU (r.M p.1 0) s.b1 ^^^ affineU (r.M p.1 1) s.b2 ^^^ affineU (r.M p.1 2) s.b3 =
      affineU (r.EiInv p.1) (X.b ^^^ X.c ^^^ X.d) := by
    simp only [Wbsm4Rnd.M, affineU_affinemix, h1, h2, h3]
    rw [show p.1 + 1 + (0 : Fin 3).1 = p.1 + 1 from rfl, show p.1 + 1 + (1 : Fin 3).1 = p.1 + 2 from rfl,
      show p.1 + 1 + (2 : Fin 3).1 = p.1 + 3 from rfl, (P_inv r _).1, (P_inv r _).1, (P_inv r _).1, affineU_xor3]
  rw [hM]
  have hT := look_sboxTab (r.q3 i) (r.E p.1) (r.Einv p.1) (E_inv r p.1) (r.Q p.1) rk[p] (X.b ^^^ X.c ^^^ X.d)
  have hE : r.EiInv p.1 = affinecom8to32 (r.Einv p.1 0) (r.Einv p.1 1) (r.Einv p.1 2) (r.Einv p.1 3) := rfl
  rw [hE, hT]
  have := cd_sum (r.P (p.1 + 4)) (r.Pinv p.1) (r.Qinv p.1) (r.t p.1) s.b0 (affineU (r.Q p.1) (sm4T (X.b ^^^ X.c ^^^ X.d ^^^ rk[p])))
  rw [h0, (P_inv r _).1, (Q_inv r _).1] at this
  rw [h0]
  exact this

/-- What a dummy round adds to the word it moves: the xor of four never-written entries of `DD[i]`. -/
def junkXor (j : WbRound) : BitVec 32 := j.dd 0 0 ^^^ j.dd 1 0 ^^^ j.dd 2 0 ^^^ j.dd 3 0

theorem dummy_step (j : WbRound) (s : B4) :
    wbRoundStep s (dummyRound j) = ⟨s.b1, s.b2, s.b3, s.b0 ^^^ junkXor j⟩ := by
  have hcc : ∀ x, Tab4.look (fun j x => byteAt j x) x = x := byteAt_sum
  have ht : ∀ x, Tab4.look (fun _ _ => 0) x = 0 := fun x => by simp [Tab4.look]
  simp only [wbRoundStep, dummyRound, hcc, ht]
  rfl

theorem dummy_group (j0 j1 j2 j3 : WbRound) (s : B4) :
    [dummyRound j0, dummyRound j1, dummyRound j2, dummyRound j3].foldl wbRoundStep s =
      ⟨s.b0 ^^^ junkXor j0, s.b1 ^^^ junkXor j1, s.b2 ^^^ junkXor j2, s.b3 ^^^ junkXor j3⟩ := by
  simp only [List.foldl_cons, List.foldl_nil, dummy_step]

/-- Two dummy groups next to each other with a real round somewhere behind them. -/
def AdjacentBefore (da : List Byte) : Prop := ∃ pre post, da = pre ++ 1 :: 1 :: post ∧ (0 : Byte) ∈ post

theorem adj_cons (d : Byte) (da : List Byte) :
    AdjacentBefore (d :: da) ↔ (d = 1 ∧ ∃ post, da = 1 :: post ∧ (0 : Byte) ∈ post) ∨ AdjacentBefore da := by
  constructor
  · rintro ⟨pre, post, h, h0⟩
    cases pre with
    | nil =>
      rw [List.nil_append, List.cons.injEq] at h
      exact .inl ⟨h.1, post, h.2, h0⟩
    | cons a pre =>
      rw [List.cons_append, List.cons.injEq] at h
      exact .inr ⟨pre, post, h.2, h0⟩
  · rintro (⟨rfl, post, rfl, h0⟩ | ⟨pre, post, rfl, h0⟩)
    · exact ⟨[], post, rfl, h0⟩
    · exact ⟨d :: pre, post, rfl, h0⟩

theorem expand_zero (da : List Byte) : expandDummy (0 :: da) = 0 :: expandDummy da := by
  simp [expandDummy]

theorem expand_one (da : List Byte) : expandDummy (1 :: da) = 1 :: 1 :: 1 :: 1 :: expandDummy da := by
  simp [expandDummy]

section rounds
variable (r : Wbsm4Rnd) (rk : Sm4Ctx) (junk : Nat → WbRound)

theorem gen_zero (ds : List Byte) (i point : Nat) (flag : Bool) (hf : flag = true → 4 ≤ point) (p : Nat)
    (hp : p = if flag then point - 4 else point) (h : p < 32) :
    genRounds r rk junk (0 :: ds) i point flag =
      (genRounds r rk junk ds (i + 1) (p + 1) false).map (realRound r rk i ⟨p, h⟩ :: ·) := by
  subst hp
  rw [genRounds, if_pos rfl, if_neg (by rintro ⟨h1, h2⟩; have := hf h1; omega)]
  exact dif_pos h

theorem gen_zero_oob (ds : List Byte) (i point : Nat) (flag : Bool)
    (h : 32 ≤ if flag then point - 4 else point) :
    genRounds r rk junk (0 :: ds) i point flag = none := by
  rw [genRounds, if_pos rfl]
  split
  · rfl
  · exact dif_neg (by omega)

theorem gen_one4 (ds : List Byte) (i point : Nat) (flag : Bool) :
    genRounds r rk junk (1 :: 1 :: 1 :: 1 :: ds) i point flag =
      (genRounds r rk junk ds (i + 4) (point + 4) true).map fun rs =>
        [dummyRound (junk i), dummyRound (junk (i + 1)), dummyRound (junk (i + 2)), dummyRound (junk (i + 3))] ++ rs := by
  simp only [genRounds, show ¬ (1 : Byte) = 0 by decide, if_false]
  cases genRounds r rk junk ds (i + 1 + 1 + 1 + 1) (point + 1 + 1 + 1 + 1) true <;> rfl

/-- Rounds that find their material: the state follows the SM4 rounds. -/
theorem gen_ok (da : List Byte) (h01 : ∀ d ∈ da, d = 0 ∨ d = 1) (hadj : ¬ AdjacentBefore da) (i point : Nat) (flag : Bool)
    (p : Nat) (hp : p + da.count 0 = 32)
    (hst : (0 : Byte) ∉ da ∨ (flag = false ∧ point = p) ∨ (flag = true ∧ point = p + 4 ∧ da.head? ≠ some 1)) :
    ∃ rs, genRounds r rk junk (expandDummy da) i point flag = some rs ∧
      ((∀ k, (expandDummy da)[k]? = some 1 → junkXor (junk (i + k)) = 0) →
        ∀ X s, Enc r p X s → Enc r 32 ((rk.toList.drop p).foldl sm4Round X) (rs.foldl wbRoundStep s)) := by
  induction da generalizing i point flag p with
  | nil =>
    simp only [List.count_nil, Nat.add_zero] at hp
    subst hp
    refine ⟨[], rfl, fun _ X s h => ?_⟩
    rw [List.drop_eq_nil_of_le (by simp)]
    exact h
  | cons d da ih =>
    have h01' : ∀ d ∈ da, d = 0 ∨ d = 1 := fun d hd => h01 d (by simp [hd])
    rw [adj_cons] at hadj
    have hadj' : ¬ AdjacentBefore da := fun h => hadj (.inr h)
    rcases h01 d (by simp) with rfl | rfl
    · rw [List.count_cons_self] at hp
      have hp32 : p < 32 := by omega
      have hcase : (flag = true → 4 ≤ point) ∧ p = if flag then point - 4 else point := by
        rcases hst with h | ⟨rfl, rfl⟩ | ⟨rfl, rfl, _⟩
        · simp at h
        · simp
        · simp
      rw [expand_zero, gen_zero r rk junk _ i point flag hcase.1 p hcase.2 hp32]
      obtain ⟨rs, hrs, hstep⟩ := ih h01' hadj' (i + 1) (p + 1) false (p + 1) (by omega) (.inr (.inl ⟨rfl, rfl⟩))
      refine ⟨realRound r rk i ⟨p, hp32⟩ :: rs, by rw [hrs]; rfl, ?_⟩
      intro hj X s hX
      have hd : rk.toList.drop p = rk[(⟨p, hp32⟩ : Fin 32)] :: rk.toList.drop (p + 1) := by
        rw [List.drop_eq_getElem_cons (by simpa using hp32)]
        simp
      rw [hd, List.foldl_cons, List.foldl_cons]
      apply hstep _ _ _ (real_step r rk i ⟨p, hp32⟩ X s hX)
      intro k hk
      have := hj (k + 1) (by simpa using hk)
      rwa [show i + (k + 1) = i + 1 + k by omega] at this
    · rw [List.count_cons_of_ne (by decide)] at hp
      have hst' : (0 : Byte) ∉ da ∨ (true = false ∧ point + 4 = p) ∨
          (true = true ∧ point + 4 = p + 4 ∧ da.head? ≠ some 1) := by
        rcases hst with h | ⟨rfl, rfl⟩ | ⟨rfl, rfl, h⟩
        · exact .inl (fun h' => h (List.mem_cons_of_mem _ h'))
        · by_cases hh : da.head? = some 1
          · cases da with
            | nil => simp at hh
            | cons a da =>
              simp only [List.head?_cons, Option.some.injEq] at hh
              subst hh
              refine .inl fun h0 => hadj (.inl ⟨rfl, da, rfl, ?_⟩)
              simpa using h0
          · exact .inr (.inr ⟨rfl, rfl, hh⟩)
        · exact absurd rfl h
      obtain ⟨rs, hrs, hstep⟩ := ih h01' hadj' (i + 4) (point + 4) true p hp hst'
      rw [expand_one, gen_one4, hrs]
      refine ⟨_, rfl, ?_⟩
      intro hj X s hX
      rw [List.foldl_append, dummy_group]
      apply hstep
      · intro k hk
        have := hj (k + 4) (by simpa using hk)
        rwa [show i + (k + 4) = i + 4 + k by omega] at this
      · rw [show junk i = junk (i + 0) from rfl, hj 0 rfl, hj 1 rfl, hj 2 rfl, hj 3 rfl]
        simpa using hX

/-- Once the index is ahead, the last real round reads outside the arrays. -/
theorem gen_oob (da : List Byte) (h01 : ∀ d ∈ da, d = 0 ∨ d = 1) (i point : Nat) (flag : Bool) (p : Nat)
    (hp : p + da.count 0 = 32) (h0 : (0 : Byte) ∈ da)
    (hst : p < if flag then point - 4 else point) :
    genRounds r rk junk (expandDummy da) i point flag = none := by
  induction da generalizing i point flag p with
  | nil => simp at h0
  | cons d da ih =>
    have h01' : ∀ d ∈ da, d = 0 ∨ d = 1 := fun d hd => h01 d (by simp [hd])
    rcases h01 d (by simp) with rfl | rfl
    · rw [List.count_cons_self] at hp
      rw [expand_zero]
      by_cases h32 : (if flag then point - 4 else point) < 32
      · rw [gen_zero r rk junk _ i point flag (by intro h; rw [h] at hst; simp at hst; omega) _ rfl h32]
        have h0' : (0 : Byte) ∈ da := by
          apply List.count_pos_iff.mp
          omega
        rw [ih h01' _ _ false (p + 1) (by omega) h0' (by simp only [Bool.false_eq_true, if_false]; omega)]
        rfl
      · exact gen_zero_oob r rk junk _ _ _ _ (by omega)
    · rw [List.count_cons_of_ne (by decide)] at hp
      have h0' : (0 : Byte) ∈ da := by simpa using h0
      rw [expand_one, gen_one4, ih h01' _ _ true p hp h0' (by
        cases flag <;> simp at hst ⊢ <;> omega)]
      rfl

/-- Adjacent dummy groups before a real round: the generator reads outside its arrays. -/
theorem gen_adj (da : List Byte) (h01 : ∀ d ∈ da, d = 0 ∨ d = 1) (i point : Nat) (flag : Bool) (p : Nat)
    (hp : p + da.count 0 = 32) (hst : (flag = true → 4 ≤ point) ∧ p = if flag then point - 4 else point)
    (hadj : AdjacentBefore da ∨ (flag = true ∧ ∃ post, da = 1 :: post ∧ (0 : Byte) ∈ post)) :
    genRounds r rk junk (expandDummy da) i point flag = none := by
  induction da generalizing i point flag p with
  | nil =>
    rcases hadj with ⟨pre, post, h, _⟩ | ⟨_, post, h, _⟩
    · simp at h
    · simp at h
  | cons d da ih =>
    have h01' : ∀ d ∈ da, d = 0 ∨ d = 1 := fun d hd => h01 d (by simp [hd])
    rw [adj_cons] at hadj
    rcases h01 d (by simp) with rfl | rfl
    · rw [List.count_cons_self] at hp
      have had : AdjacentBefore da := by
        rcases hadj with (⟨h, _⟩ | h) | ⟨_, post, h, _⟩
        · simp at h
        · exact h
        · simp at h
      rw [expand_zero, gen_zero r rk junk _ i point flag hst.1 p hst.2 (by omega),
        ih h01' _ _ false (p + 1) (by omega) ⟨by simp, by simp⟩ (.inl had)]
      rfl
    · rw [List.count_cons_of_ne (by decide)] at hp
      rw [expand_one, gen_one4]
      by_cases hfl : flag = true ∧ (0 : Byte) ∈ da
      · obtain ⟨rfl, h0⟩ := hfl
        rw [gen_oob r rk junk da h01' _ _ true p hp h0 (by have := hst.1 rfl; simp at hst ⊢; omega)]
        rfl
      · have hfl' : flag = false := by
          cases hf : flag
          · rfl
          · exfalso
            apply hfl
            refine ⟨hf, ?_⟩
            rcases hadj with (⟨_, post, h, h0⟩ | ⟨pre, post, h, h0⟩) | ⟨_, post, h, h0⟩
            · rw [h]; exact List.mem_cons_of_mem _ h0
            · rw [h]; exact List.mem_append_right _ (List.mem_cons_of_mem _ (List.mem_cons_of_mem _ h0))
            · rw [(List.cons.inj h).2]; exact h0
        subst hfl'
        rw [ih h01' _ _ true p hp ⟨by simp, by simpa using hst⟩ (by
          rcases hadj with (⟨_, h⟩ | h) | ⟨h, _⟩
          · exact .inr ⟨rfl, h⟩
          · exact .inl h
          · simp at h)]
        rfl

end rounds

/-- Encryption with a context whose rounds follow SM4 under the encodings. -/
theorem encrypt_of_rounds (r : Wbsm4Rnd) (rk : Sm4Ctx) (mode : EncMode) (rs : List WbRound)
    (h : ∀ X s, Enc r 0 X s → Enc r 32 (rk.toList.foldl sm4Round X) (rs.foldl wbRoundStep s)) (x : Block) :
    wbsm4Encrypt { rnds := rs, encmode := mode, se := fun i => affTab r.qx (r.P i.1), fe := fun i => affTab r.qx (r.Pinv (35 - i.1)) } x =
      Model.sm4Encrypt rk x := by
  rw [sm4Encrypt_eq]
  unfold wbsm4Encrypt
  simp only [look_affTab, get32_eq, storeU32_eq]
  have hE := h (quadOf x) ⟨affineU (r.P 0) (loadU32 x 0), affineU (r.P 1) (loadU32 x 1), affineU (r.P 2) (loadU32 x 2),
    affineU (r.P 3) (loadU32 x 3)⟩ (by
      have hq := load_eq x
      simp only [B4.toQuad, B4.load] at hq
      rw [← hq]
      exact ⟨rfl, rfl, rfl, rfl⟩)
  obtain ⟨h0, h1, h2, h3⟩ := hE
  have e0 : ((0 : Fin 4) : Nat) = 0 := rfl
  have e1 : ((1 : Fin 4) : Nat) = 1 := rfl
  have e2 : ((2 : Fin 4) : Nat) = 2 := rfl
  have e3 : ((3 : Fin 4) : Nat) = 3 := rfl
  rw [e0, e1, e2, e3, h0, h1, h2, h3, (P_inv r 32).1, (P_inv r (32 + 1)).1, (P_inv r (32 + 2)).1, (P_inv r (32 + 3)).1]
  rfl

/-- C37: every dummy placement `da` that the shuffle can produce.  If two dummy groups are adjacent before a real round,
the generator reads outside its arrays; otherwise it succeeds, and the result is SM4 whenever the never-written
entries of `DD` used by the dummy rounds xor to 0. -/
theorem C37_dummy_rounds (r : Wbsm4Rnd) (junk : Nat → WbRound) (mode : EncMode) (d : Nat) (key : List Byte) :
    ∃ da : List Byte, da.Perm (List.replicate 32 0 ++ List.replicate d 1) ∧
      dummyArray r.shuf d = some (expandDummy da) ∧
      (AdjacentBefore da → wbsm4GenTable r junk mode d key = none) ∧
      (¬ AdjacentBefore da → ∃ ctx, wbsm4GenTable r junk mode d key = some ctx ∧
        ((∀ k, (expandDummy da)[k]? = some 1 → junkXor (junk k) = 0) →
          ∀ x, wbsm4Encrypt ctx x = Model.sm4Encrypt (sm4InitKey key mode) x)) := by
  obtain ⟨da, hda, hperm⟩ := C58_shuffle r.shuf (List.replicate 32 0 ++ List.replicate d 1)
  have hdum : dummyArray r.shuf d = some (expandDummy da) := by rw [dummyArray, hda]; rfl
  have h01 : ∀ e ∈ da, e = 0 ∨ e = 1 := by
    intro e he
    have := hperm.mem_iff.mp he
    rw [List.mem_append, List.mem_replicate, List.mem_replicate] at this
    rcases this with h | h
    · exact .inl h.2
    · exact .inr h.2
  have hc : 0 + da.count 0 = 32 := by
    rw [hperm.count_eq]
    simp [List.count_replicate]
  refine ⟨da, hperm, hdum, ?_, ?_⟩
  · intro hadj
    rw [wbsm4GenTable, hdum, Option.bind_some, genTableWith,
      gen_adj r _ junk da h01 0 0 false 0 hc ⟨by simp, by simp⟩ (.inl hadj)]
    rfl
  · intro hadj
    obtain ⟨rs, hrs, hstep⟩ := gen_ok r (sm4InitKey key mode) junk da h01 hadj 0 0 false 0 hc (.inr (.inl ⟨rfl, rfl⟩))
    rw [wbsm4GenTable, hdum, Option.bind_some, genTableWith, hrs]
    refine ⟨_, rfl, ?_⟩
    intro hj x
    exact encrypt_of_rounds r (sm4InitKey key mode) mode rs (hstep (by simpa using hj)) x

theorem no_dummy (r : Wbsm4Rnd) (junk : Nat → WbRound) (mode : EncMode) (key : List Byte) :
    ∃ ctx, wbsm4GenTable r junk mode 0 key = some ctx ∧
      ∀ x, wbsm4Encrypt ctx x = Model.sm4Encrypt (sm4InitKey key mode) x := by
  obtain ⟨da, hperm, hdum, _, hok⟩ := C37_dummy_rounds r junk mode 0 key
  have hz : ∀ e ∈ da, e = 0 := by
    intro e he
    have := hperm.mem_iff.mp he
    simpa using this
  obtain ⟨ctx, hctx, henc⟩ := hok (by
    rintro ⟨pre, post, h, _⟩
    have := hz 1 (by rw [h]; simp)
    simp at this)
  refine ⟨ctx, hctx, henc ?_⟩
  intro k hk
  have hm : (1 : Byte) ∈ expandDummy da := List.mem_of_getElem? hk
  rw [expandDummy, List.mem_flatMap] at hm
  obtain ⟨e, he, hm⟩ := hm
  rw [hz e he] at hm
  simp at hm

/-- C36: without dummy rounds the tables compute SM4, whatever the random encodings and the memory contents. -/
theorem C36_wbsm4_is_sm4 (r : Wbsm4Rnd) (junk : Nat → WbRound) (key : Block) :
    (∃ ctx, wbsm4GenTable r junk .encrypt 0 key.toList = some ctx ∧
      ∀ x, wbsm4Encrypt ctx x = Spec.sm4Encrypt key x) ∧
    (∃ ctx, wbsm4GenTable r junk .decrypt 0 key.toList = some ctx ∧
      ∀ x, wbsm4Encrypt ctx x = Spec.sm4Decrypt key x) := by
  obtain ⟨c1, h1, e1⟩ := no_dummy r junk .encrypt key.toList
  obtain ⟨c2, h2, e2⟩ := no_dummy r junk .decrypt key.toList
  refine ⟨⟨c1, h1, fun x => by rw [e1, (C30_sm4_standard key x).1]⟩, ⟨c2, h2, fun x => ?_⟩⟩
  rw [e2, (C31_decrypt_mode key.toList x).1, (C30_sm4_standard key x).2]

/-- C38: a decrypt-mode context undoes an encrypt-mode context with independent random encodings, and conversely. -/
theorem C38_wbsm4_inverse (r r' : Wbsm4Rnd) (junk junk' : Nat → WbRound) (key : List Byte) :
    ∃ enc dec, wbsm4GenTable r junk .encrypt 0 key = some enc ∧ wbsm4GenTable r' junk' .decrypt 0 key = some dec ∧
      ∀ x, wbsm4Decrypt dec (wbsm4Encrypt enc x) = x ∧ wbsm4Encrypt enc (wbsm4Decrypt dec x) = x := by
  obtain ⟨c1, h1, e1⟩ := no_dummy r junk .encrypt key
  obtain ⟨c2, h2, e2⟩ := no_dummy r' junk' .decrypt key
  refine ⟨c1, c2, h1, h2, fun x => ?_⟩
  simp only [wbsm4Decrypt, e1, e2, (C31_decrypt_mode key _).1]
  exact C29_sm4_inverse _ x

/-! ### one dummy group: memory contents decide -/

theorem gen_zeros (r : Wbsm4Rnd) (rk : Sm4Ctx) (junk : Nat → WbRound) (m i p point : Nat) (flag : Bool) (h : p + m ≤ 32)
    (hst : (flag = true → 4 ≤ point) ∧ p = if flag then point - 4 else point) (hm : 0 < m) :
    ∃ rs, (∀ ds, genRounds r rk junk (List.replicate m 0 ++ ds) i point flag =
        (genRounds r rk junk ds (i + m) (p + m) false).map (rs ++ ·)) ∧
      ∀ X s, Enc r p X s → Enc r (p + m) (((rk.toList.drop p).take m).foldl sm4Round X) (rs.foldl wbRoundStep s) := by
  induction m generalizing i p point flag with
  | zero => omega
  | succ m ih =>
    have hp32 : p < 32 := by omega
    have hd : rk.toList.drop p = rk[(⟨p, hp32⟩ : Fin 32)] :: rk.toList.drop (p + 1) := by
      rw [List.drop_eq_getElem_cons (by simpa using hp32)]
      simp
    by_cases hm0 : m = 0
    · subst hm0
      refine ⟨[realRound r rk i ⟨p, hp32⟩], ?_, ?_⟩
      · intro ds
        rw [List.replicate_one, List.singleton_append, gen_zero r rk junk _ i point flag hst.1 p hst.2 hp32]
        rfl
      · intro X s hX
        rw [hd]
        exact real_step r rk i ⟨p, hp32⟩ X s hX
    · obtain ⟨rs, h1, h2⟩ := ih (i + 1) (p + 1) (p + 1) false (by omega) ⟨by simp, by simp⟩ (by omega)
      refine ⟨realRound r rk i ⟨p, hp32⟩ :: rs, ?_, ?_⟩
      · intro ds
        rw [List.replicate_succ, List.cons_append, gen_zero r rk junk _ i point flag hst.1 p hst.2 hp32, h1,
          show i + 1 + m = i + (m + 1) by omega, show p + 1 + m = p + (m + 1) by omega]
        cases genRounds r rk junk ds (i + (m + 1)) (p + (m + 1)) false <;> rfl
      · intro X s hX
        rw [hd, List.take_succ_cons, List.foldl_cons, List.foldl_cons, show p + (m + 1) = p + 1 + m by omega]
        exact h2 _ _ (real_step r rk i ⟨p, hp32⟩ X s hX)

theorem rounds_inj (rks : List Word) (X Y : Quad) (h : rks.foldl sm4Round X = rks.foldl sm4Round Y) : X = Y := by
  have hx := fold_rev rks X
  rw [h, fold_rev rks Y] at hx
  have hinv : ∀ q : Quad, q.rev.rev = q := fun _ => rfl
  rw [← hinv X, ← hinv Y, hx]

theorem xor_eq_self (a b : BitVec 32) : a ^^^ b = a ↔ b = 0 := by
  constructor
  · intro h
    have := congrArg (a ^^^ ·) h
    simp only [xor_cancel, BitVec.xor_self] at this
    exact this
  · rintro rfl
    exact BitVec.xor_zero

theorem P_shift (r : Wbsm4Rnd) (p : Nat) (X d : BitVec 32) :
    affineU (r.P p) X ^^^ d = affineU (r.P p) (affineU (r.Pinv p) (affineU (r.P p) X ^^^ d)) ∧
    (affineU (r.Pinv p) (affineU (r.P p) X ^^^ d) = X ↔ d = 0) := by
  refine ⟨((P_inv r p).2 _).symm, ?_⟩
  constructor
  · intro h
    have := congrArg (affineU (r.P p)) h
    rw [(P_inv r p).2, xor_eq_self] at this
    exact this
  · rintro rfl
    rw [show affineU (r.P p) X ^^^ 0 = affineU (r.P p) X from BitVec.xor_zero, (P_inv r p).1]

/-- Encryption as a function of the encoded end state. -/
theorem encrypt_end (r : Wbsm4Rnd) (mode : EncMode) (rs : List WbRound) (x : Block) (Y : Quad)
    (h : Enc r 32 Y (rs.foldl wbRoundStep ⟨affineU (r.P 0) (loadU32 x 0), affineU (r.P 1) (loadU32 x 1),
      affineU (r.P 2) (loadU32 x 2), affineU (r.P 3) (loadU32 x 3)⟩)) :
    wbsm4Encrypt { rnds := rs, encmode := mode, se := fun i => affTab r.qx (r.P i.1), fe := fun i => affTab r.qx (r.Pinv (35 - i.1)) } x =
      Y.rev.toBlock := by
  unfold wbsm4Encrypt
  simp only [look_affTab, get32_eq, storeU32_eq]
  obtain ⟨h0, h1, h2, h3⟩ := h
  have e0 : ((0 : Fin 4) : Nat) = 0 := rfl
  have e1 : ((1 : Fin 4) : Nat) = 1 := rfl
  have e2 : ((2 : Fin 4) : Nat) = 2 := rfl
  have e3 : ((3 : Fin 4) : Nat) = 3 := rfl
  rw [e0, e1, e2, e3, h0, h1, h2, h3, (P_inv r 32).1, (P_inv r (32 + 1)).1, (P_inv r (32 + 2)).1, (P_inv r (32 + 3)).1]
  rfl

/-- The rounds around one dummy group before real round `a`. -/
theorem one_group (r : Wbsm4Rnd) (rk : Sm4Ctx) (junk : Nat → WbRound) (a : Nat) (ha : a ≤ 32) :
    ∃ rs, genRounds r rk junk (List.replicate a 0 ++ (1 :: 1 :: 1 :: 1 :: List.replicate (32 - a) 0)) 0 0 false = some rs ∧
      ∀ X s, Enc r 0 X s → ∃ X', Enc r 32 ((rk.toList.drop a).foldl sm4Round X') (rs.foldl wbRoundStep s) ∧
        (X' = (rk.toList.take a).foldl sm4Round X ↔ ∀ k, k < 4 → junkXor (junk (a + k)) = 0) := by
  -- rounds before the group
  have hA : ∃ rs, (∀ ds, genRounds r rk junk (List.replicate a 0 ++ ds) 0 0 false =
        (genRounds r rk junk ds a a false).map (rs ++ ·)) ∧
      ∀ X s, Enc r 0 X s → Enc r a ((rk.toList.take a).foldl sm4Round X) (rs.foldl wbRoundStep s) := by
    by_cases h0 : a = 0
    · subst h0
      refine ⟨[], fun ds => ?_, fun X s h => h⟩
      simp
    · obtain ⟨rs, h1, h2⟩ := gen_zeros r rk junk a 0 0 0 false (by omega) ⟨by simp, by simp⟩ (by omega)
      simp only [Nat.zero_add, List.drop_zero] at h1 h2
      exact ⟨rs, h1, h2⟩
  -- rounds after the group
  have hB : ∃ rs, genRounds r rk junk (List.replicate (32 - a) 0) (a + 4) (a + 4) true = some rs ∧
      ∀ X s, Enc r a X s → Enc r 32 ((rk.toList.drop a).foldl sm4Round X) (rs.foldl wbRoundStep s) := by
    by_cases h0 : a = 32
    · subst h0
      refine ⟨[], rfl, fun X s h => ?_⟩
      rw [List.drop_eq_nil_of_le (by simp)]
      exact h
    · obtain ⟨rs, h1, h2⟩ := gen_zeros r rk junk (32 - a) (a + 4) a (a + 4) true (by omega) ⟨by simp, by simp⟩ (by omega)
      have := h1 []
      rw [List.append_nil] at this
      refine ⟨rs, ?_, ?_⟩
      · rw [this]; simp [genRounds]
      · intro X s hX
        have := h2 X s hX
        rwa [show a + (32 - a) = 32 by omega, List.take_of_length_le (by simp)] at this
  obtain ⟨rs1, hA1, hA2⟩ := hA
  obtain ⟨rs2, hB1, hB2⟩ := hB
  refine ⟨rs1 ++ ([dummyRound (junk a), dummyRound (junk (a + 1)), dummyRound (junk (a + 2)), dummyRound (junk (a + 3))] ++ rs2),
    ?_, ?_⟩
  · rw [hA1, gen_one4, hB1]; rfl
  · intro X s hX
    obtain ⟨h0, h1, h2, h3⟩ := hA2 X s hX
    generalize (rk.toList.take a).foldl sm4Round X = Y at h0 h1 h2 h3 ⊢
    rw [List.foldl_append, List.foldl_append, dummy_group, h0, h1, h2, h3]
    have s0 := P_shift r a Y.a (junkXor (junk a))
    have s1 := P_shift r (a + 1) Y.b (junkXor (junk (a + 1)))
    have s2 := P_shift r (a + 2) Y.c (junkXor (junk (a + 2)))
    have s3 := P_shift r (a + 3) Y.d (junkXor (junk (a + 3)))
    refine ⟨⟨affineU (r.Pinv a) (affineU (r.P a) Y.a ^^^ junkXor (junk a)),
      affineU (r.Pinv (a + 1)) (affineU (r.P (a + 1)) Y.b ^^^ junkXor (junk (a + 1))),
      affineU (r.Pinv (a + 2)) (affineU (r.P (a + 2)) Y.c ^^^ junkXor (junk (a + 2))),
      affineU (r.Pinv (a + 3)) (affineU (r.P (a + 3)) Y.d ^^^ junkXor (junk (a + 3)))⟩,
      hB2 _ _ ⟨s0.1, s1.1, s2.1, s3.1⟩, ?_⟩
    obtain ⟨ya, yb, yc, yd⟩ := Y
    simp only at s0 s1 s2 s3 ⊢
    rw [Quad.mk.injEq, s0.2, s1.2, s2.2, s3.2]
    constructor
    · rintro ⟨d0, d1, d2, d3⟩ k hk
      match k, hk with
      | 0, _ => exact d0
      | 1, _ => exact d1
      | 2, _ => exact d2
      | 3, _ => exact d3
    · intro h
      exact ⟨h 0 (by decide), h 1 (by decide), h 2 (by decide), h 3 (by decide)⟩

/-- C37, one dummy group: the result on a block is the SM4 result exactly when the memory that `malloc` returned for the
four `DD` tables of the group xors to 0 in each round. -/
theorem C37_one_group (r : Wbsm4Rnd) (junk : Nat → WbRound) (mode : EncMode) (key : List Byte) :
    ∃ a ctx, a ≤ 32 ∧ wbsm4GenTable r junk mode 1 key = some ctx ∧
      ∀ x, (wbsm4Encrypt ctx x = Model.sm4Encrypt (sm4InitKey key mode) x ↔
        ∀ k, k < 4 → junkXor (junk (a + k)) = 0) := by
  obtain ⟨da, hda, hperm⟩ := C58_shuffle r.shuf (List.replicate 32 0 ++ List.replicate 1 1)
  have h1 : (1 : Byte) ∈ da := hperm.mem_iff.mpr (by simp)
  obtain ⟨s, t, rfl⟩ := List.append_of_mem h1
  have hc1 : (s ++ 1 :: t).count 1 = 1 := by rw [hperm.count_eq]; simp [List.count_replicate]
  have hlen : (s ++ 1 :: t).length = 33 := by rw [hperm.length_eq]; simp
  rw [List.count_append, List.count_cons_self] at hc1
  have h01 : ∀ e ∈ s ++ 1 :: t, e = 0 ∨ e = 1 := by
    intro e he
    have := hperm.mem_iff.mp he
    rw [List.mem_append, List.mem_replicate, List.mem_replicate] at this
    rcases this with h | h
    · exact .inl h.2
    · exact .inr h.2
  have hs : s = List.replicate s.length 0 := by
    apply List.eq_replicate_of_mem
    intro e he
    rcases h01 e (by simp [he]) with h | h
    · exact h
    · have : 0 < s.count 1 := List.count_pos_iff.mpr (h ▸ he)
      omega
  have ht : t = List.replicate t.length 0 := by
    apply List.eq_replicate_of_mem
    intro e he
    rcases h01 e (by simp [he]) with h | h
    · exact h
    · have : 0 < t.count 1 := List.count_pos_iff.mpr (h ▸ he)
      omega
  simp only [List.length_append, List.length_cons] at hlen
  have hex0 : ∀ m, expandDummy (List.replicate m 0) = List.replicate m 0 := by
    intro m
    induction m with
    | zero => rfl
    | succ m ih => rw [List.replicate_succ, expand_zero, ih]
  have hexp : expandDummy (s ++ 1 :: t) =
      List.replicate s.length 0 ++ (1 :: 1 :: 1 :: 1 :: List.replicate (32 - s.length) 0) := by
    have happ : expandDummy (s ++ 1 :: t) = expandDummy s ++ expandDummy (1 :: t) := List.flatMap_append
    rw [happ, expand_one, ← hex0 s.length, ← hex0 (32 - s.length), ← hs, show 32 - s.length = t.length by omega, ← ht]
  obtain ⟨rs, hrs, hst⟩ := one_group r (sm4InitKey key mode) junk s.length (by omega)
  have hgen : wbsm4GenTable r junk mode 1 key = some { rnds := rs, encmode := mode, se := fun i => affTab r.qx (r.P i.1), fe := fun i => affTab r.qx (r.Pinv (35 - i.1)) } := by
    rw [wbsm4GenTable, dummyArray, hda, Option.map_some, Option.bind_some, genTableWith, hexp, hrs]
    rfl
  refine ⟨s.length, _, by omega, hgen, ?_⟩
  intro x
  obtain ⟨X', hE, hX'⟩ := hst (quadOf x) ⟨affineU (r.P 0) (loadU32 x 0), affineU (r.P 1) (loadU32 x 1), affineU (r.P 2) (loadU32 x 2),
    affineU (r.P 3) (loadU32 x 3)⟩ (by
      have hq := load_eq x
      simp only [B4.toQuad, B4.load] at hq
      rw [← hq]
      exact ⟨rfl, rfl, rfl, rfl⟩)
  rw [encrypt_end r mode rs x _ hE, sm4Encrypt_eq, ← hX', sm4Crypt]
  have hsplit : (sm4InitKey key mode).toList.foldl sm4Round (quadOf x) =
      ((sm4InitKey key mode).toList.drop s.length).foldl sm4Round
        (((sm4InitKey key mode).toList.take s.length).foldl sm4Round (quadOf x)) := by
    rw [← List.foldl_append, List.take_append_drop]
  rw [hsplit]
  constructor
  · intro h
    have := congrArg quadOf h
    rw [quadOf_toBlock, quadOf_toBlock] at this
    have := congrArg Quad.rev this
    exact rounds_inj _ _ _ this
  · intro h
    rw [h]

/- Both placements occur: streams for which the shuffle separates two groups, and for which it makes them adjacent. -/
example : dummyArray (fun k => BitVec.ofNat 32 (k - 1)) 2 =
    some (expandDummy (1 :: (List.replicate 31 0 ++ [1, 0]))) := by decide +kernel

example : dummyArray (fun k => if k = 33 then 1 else BitVec.ofNat 32 (k - 1)) 2 =
    some (expandDummy (1 :: 1 :: List.replicate 32 0)) ∧ AdjacentBefore (1 :: 1 :: List.replicate 32 0) :=
  ⟨by decide +kernel, [], List.replicate 32 0, rfl, by decide⟩

/- Memory contents that change the result, and contents that do not. -/
example : junkXor ⟨fun _ _ _ => 0, fun _ _ => 0, fun j x => if j = 0 ∧ x = 0 then 5 else 0, fun _ _ => 0⟩ ≠ 0 := by decide
example : junkXor ⟨fun _ _ _ => 0, fun _ _ => 0, fun _ _ => 7, fun _ _ => 0⟩ = 0 := by decide

end Verif.Props
