import Verif.Model.FpeFail
import Verif.Props.Fpe3
import Verif.Lemmas.FeistelPair

/-! Property C135: FF1 and FF3 with a block cipher that reports failure. -/
set_option autoImplicit false

namespace Verif.Props
open Verif Spec Model

/-! ### rounds with a state -/

theorem foldlM_sim {S A : Type} (g : S × A → Nat → Option (S × A)) (G : S → Nat → Option S) (Rel : List Nat → A → Prop)
    (h : ∀ i rest s a, Rel (i :: rest) a → (g (s, a) i = none ∧ G s i = none) ∨
      ∃ s' a', g (s, a) i = some (s', a') ∧ G s i = some s' ∧ Rel rest a') :
    ∀ (l : List Nat) (s : S) (a : A), Rel l a → (l.foldlM g (s, a)).map Prod.fst = l.foldlM G s := by
  intro l
  induction l with
  | nil => intro s a _; rfl
  | cons i l ih =>
    intro s a hr
    rw [List.foldlM_cons, List.foldlM_cons]
    rcases h i l s a hr with ⟨h1, h2⟩ | ⟨s', a', h1, h2, h3⟩
    · rw [h1, h2]; rfl
    · rw [h1, h2]
      exact ih s' a' h3

section sim
variable {τ : Type} (ctx : FpeCtx) (lg : Nat → Nat → Nat) (w : Faults) (ss : Nat → Block) (n : Nat)
  (F : Nat → Nat → Option (Nat × τ)) (Rel : List Nat → Nat × Block → Prop)

theorem ff1EncF_fold
    (hF : ∀ i rest x a, Rel (i :: rest) a → (ff1RoundYF ctx lg w ss n i x a = none ∧ F i x = none) ∨
      ∃ y a' t, ff1RoundYF ctx lg w ss n i x a = some (y, a') ∧ F i x = some (y, t) ∧ Rel rest a')
    (l : List Nat) (s : FpeSt) (a : Nat × Block) (ha : Rel l a) :
    (l.foldlM (ff1EncryptRoundF ctx lg w ss n) (s, a)).map Prod.fst =
      l.foldlM (fun s i => (encR n (n / 2) (fun i => ctx.radix ^ halfLen n (n / 2) i) (fun X => str2num X ctx.radix)
        (fun x m => num2str x ctx.radix m) F (fun (_ : Unit) _ => ()) (s, ()) i).map Prod.fst) s := by
  refine foldlM_sim _ _ Rel ?_ l s a ha
  intro i rest s a hr
  unfold ff1EncryptRoundF encR
  simp only [floor2_eq]
  rw [← halfLen, show (if halfLen n (n / 2) i = n / 2 then (powUv ctx.radix (n / 2) (n - n / 2)).1
          else (powUv ctx.radix (n / 2) (n - n / 2)).2) = ctx.radix ^ halfLen n (n / 2) i from q_ff1 _ _ _ _ rfl]
  cases h1 : rdDigits s.out s.b (n - halfLen n (n / 2) i) with
  | none => exact Or.inl ⟨rfl, rfl⟩
  | some B =>
    simp only [Option.bind_some]
    rcases hF i rest (str2num B ctx.radix) a hr with ⟨e1, e2⟩ | ⟨y, a', t, e1, e2, e3⟩
    · rw [e1, e2]; exact Or.inl ⟨rfl, rfl⟩
    · rw [e1, e2]
      simp only [Option.bind_some]
      cases h3 : rdDigits s.out s.a (halfLen n (n / 2) i) with
      | none => exact Or.inl ⟨rfl, rfl⟩
      | some A =>
        simp only [Option.bind_some]
        cases h4 : swapPtrs s with
        | none => exact Or.inl ⟨rfl, rfl⟩
        | some s' =>
          simp only [Option.bind_some]
          cases wrDigits s'.out s'.b _ with
          | none => exact Or.inl ⟨rfl, rfl⟩
          | some o => exact Or.inr ⟨_, a', rfl, rfl, e3⟩

theorem ff1DecF_fold
    (hF : ∀ i k x, (ff1RoundYF ctx lg w ss n i x (k, zeroBlock) = none ∧ F i x = none) ∨
      ∃ y a' t, ff1RoundYF ctx lg w ss n i x (k, zeroBlock) = some (y, a') ∧ F i x = some (y, t))
    (l : List Nat) (s : FpeSt) (a : Nat × Block) :
    (l.foldlM (ff1DecryptRoundF ctx lg w ss n) (s, a)).map Prod.fst =
      l.foldlM (fun s i => (decR n (n / 2) (fun i => ctx.radix ^ halfLen n (n / 2) i) (fun X => str2num X ctx.radix)
        (fun x m => num2str x ctx.radix m) F (fun (_ : Unit) _ => ()) (s, ()) i).map Prod.fst) s := by
  refine foldlM_sim _ _ (fun _ _ => True) ?_ l s a trivial
  intro i rest s a hr
  unfold ff1DecryptRoundF decR
  simp only [floor2_eq]
  rw [← halfLen, show (if halfLen n (n / 2) i = n / 2 then (powUv ctx.radix (n / 2) (n - n / 2)).1
          else (powUv ctx.radix (n / 2) (n - n / 2)).2) = ctx.radix ^ halfLen n (n / 2) i from q_ff1 _ _ _ _ rfl]
  cases h1 : rdDigits s.out s.a (n - halfLen n (n / 2) i) with
  | none => exact Or.inl ⟨rfl, rfl⟩
  | some B =>
    simp only [Option.bind_some]
    rcases hF i a.1 (str2num B ctx.radix) with ⟨e1, e2⟩ | ⟨y, a', t, e1, e2⟩
    · rw [e1, e2]; exact Or.inl ⟨rfl, rfl⟩
    · rw [e1, e2]
      simp only [Option.bind_some]
      cases h3 : rdDigits s.out s.b (halfLen n (n / 2) i) with
      | none => exact Or.inl ⟨rfl, rfl⟩
      | some A =>
        simp only [Option.bind_some]
        cases h4 : swapPtrs s with
        | none => exact Or.inl ⟨rfl, rfl⟩
        | some s' =>
          simp only [Option.bind_some]
          cases wrDigits s'.out s'.a _ with
          | none => exact Or.inl ⟨rfl, rfl⟩
          | some o => exact Or.inr ⟨_, a', rfl, rfl, trivial⟩

theorem ff3EncF_fold
    (hF : ∀ i rest x a, Rel (i :: rest) a → (ff3RoundSF ctx lg w n i x a = none ∧ F i x = none) ∨
      ∃ a' t, ff3RoundSF ctx lg w n i x a = some a' ∧ F i x = some (bin2bn a'.2.toList, t) ∧ Rel rest a')
    (l : List Nat) (s : FpeSt) (a : Nat × Block) (ha : Rel l a) :
    (l.foldlM (ff3EncryptRoundF ctx lg w n) (s, a)).map Prod.fst =
      l.foldlM (fun s i => (encR n ((n + 1) / 2) (fun i => ctx.radix ^ halfLen n ((n + 1) / 2) i) (fun X => str2numRev X ctx.radix)
        (fun x m => num2strRev x ctx.radix m) F (fun (_ : Unit) _ => ()) (s, ()) i).map Prod.fst) s := by
  refine foldlM_sim _ _ Rel ?_ l s a ha
  intro i rest s a hr
  unfold ff3EncryptRoundF encR
  simp only [ceil2_one]
  rw [← halfLen]
  simp only [q_ff3 ctx.radix n i ((n + 1) / 2) rfl]
  cases h1 : rdDigits s.out s.b (n - halfLen n ((n + 1) / 2) i) with
  | none => exact Or.inl ⟨rfl, rfl⟩
  | some B =>
    simp only [Option.bind_some]
    rcases hF i rest (str2numRev B ctx.radix) a hr with ⟨e1, e2⟩ | ⟨a', t, e1, e2, e3⟩
    · rw [e1, e2]; exact Or.inl ⟨rfl, rfl⟩
    · rw [e1, e2]
      simp only [Option.bind_some]
      cases h3 : rdDigits s.out s.a (halfLen n ((n + 1) / 2) i) with
      | none => exact Or.inl ⟨rfl, rfl⟩
      | some A =>
        simp only [Option.bind_some]
        cases h4 : swapPtrs s with
        | none => exact Or.inl ⟨rfl, rfl⟩
        | some s' =>
          simp only [Option.bind_some]
          cases wrDigits s'.out s'.b _ with
          | none => exact Or.inl ⟨rfl, rfl⟩
          | some o => exact Or.inr ⟨_, a', rfl, rfl, e3⟩

theorem ff3DecF_fold
    (hF : ∀ i k x, (ff3RoundSF ctx lg w n i x (k, zeroBlock) = none ∧ F i x = none) ∨
      ∃ a' t, ff3RoundSF ctx lg w n i x (k, zeroBlock) = some a' ∧ F i x = some (bin2bn a'.2.toList, t))
    (l : List Nat) (s : FpeSt) (a : Nat × Block) :
    (l.foldlM (ff3DecryptRoundF ctx lg w n) (s, a)).map Prod.fst =
      l.foldlM (fun s i => (decR n ((n + 1) / 2) (fun i => ctx.radix ^ halfLen n ((n + 1) / 2) i) (fun X => str2numRev X ctx.radix)
        (fun x m => num2strRev x ctx.radix m) F (fun (_ : Unit) _ => ()) (s, ()) i).map Prod.fst) s := by
  refine foldlM_sim _ _ (fun _ _ => True) ?_ l s a trivial
  intro i rest s a hr
  unfold ff3DecryptRoundF decR
  simp only [ceil2_one]
  rw [← halfLen]
  simp only [q_ff3 ctx.radix n i ((n + 1) / 2) rfl]
  cases h1 : rdDigits s.out s.a (n - halfLen n ((n + 1) / 2) i) with
  | none => exact Or.inl ⟨rfl, rfl⟩
  | some B =>
    simp only [Option.bind_some]
    rcases hF i a.1 (str2numRev B ctx.radix) with ⟨e1, e2⟩ | ⟨a', t, e1, e2⟩
    · rw [e1, e2]; exact Or.inl ⟨rfl, rfl⟩
    · rw [e1, e2]
      simp only [Option.bind_some]
      cases h3 : rdDigits s.out s.b (halfLen n ((n + 1) / 2) i) with
      | none => exact Or.inl ⟨rfl, rfl⟩
      | some A =>
        simp only [Option.bind_some]
        cases h4 : swapPtrs s with
        | none => exact Or.inl ⟨rfl, rfl⟩
        | some s' =>
          simp only [Option.bind_some]
          cases wrDigits s'.out s'.a _ with
          | none => exact Or.inl ⟨rfl, rfl⟩
          | some o => exact Or.inr ⟨_, a', rfl, rfl, trivial⟩

end sim

theorem bind_fst {S A B : Type} (x : Option (S × A)) (g : S → Option B) :
    (x.bind fun t => g t.1) = (x.map Prod.fst).bind g := by cases x <;> rfl

/-! ### a cipher that works -/

section works
variable (E : Block → Block) (w : Faults) (hw : ∀ k x old, w k x old = none)
include hw

theorem bufF_ok (k : Nat) (x old : Block) : bufF E w k x old = E x := by
  unfold bufF callF
  rw [hw]

theorem ff1MacLoopF_ok (c : Nat) : ∀ k R Q, ff1MacLoopF E w c k R Q = ff1MacLoop E c R Q := by
  induction c with
  | zero => intro k R Q; rfl
  | succ c ih =>
    intro k R Q
    rw [ff1MacLoopF, ff1MacLoop, ih, bufF_ok E w hw]

theorem ff1SLoopF_ok (R : Block) (c : Nat) : ∀ k j SS, ff1SLoopF E w R c k j SS =
    (List.range c).flatMap fun i => (E (ff1Ctr (j + i) ^^^ R)).toList := by
  induction c with
  | zero => intro k j SS; rfl
  | succ c ih =>
    intro k j SS
    rw [ff1SLoopF, List.range_succ_eq_map, List.flatMap_cons, List.flatMap_map]
    rw [ih, bufF_ok E w hw]
    congr 1
    apply List.flatMap_congr
    intro i _
    rw [Nat.add_right_comm, Nat.add_assoc]

theorem ff1RoundYF_ok (ctx : FpeCtx) (lg : Nat → Nat → Nat) (ss : Nat → Block) (n i x : Nat) (a : Nat × Block) :
    (ff1RoundYF ctx lg w ss n i x a).map Prod.fst = ff1RoundY ctx lg n i x := by
  unfold ff1RoundYF ff1RoundY
  simp only
  cases ff1QBytes ctx.tweak (ff1B lg ctx.radix (n - floor2 n 1)) i x with
  | none => rfl
  | some Q =>
    simp only [Option.bind_some]
    rw [ff1MacLoopF_ok _ _ hw, bufF_ok _ _ hw, ff1SLoopF_ok _ _ hw]
    unfold ff1YOf ff1SBytes
    simp only [Nat.add_comm 1]
    split <;> rfl

theorem ff3RoundSF_ok (ctx : FpeCtx) (lg : Nat → Nat → Nat) (n i x : Nat) (a : Nat × Block) :
    (ff3RoundSF ctx lg w n i x a).map Prod.snd = ff3RoundS ctx lg n i x := by
  unfold ff3RoundSF ff3RoundS
  simp only
  cases ff3PBytes ctx.tweak (ceil2 (lg ctx.radix (ceil2 n 1)) 3) i x with
  | none => rfl
  | some P =>
    simp only [Option.bind_some]
    rw [bufF_ok _ _ hw]
    rfl

end works

theorem map_fst_cases {A B : Type} {x : Option (A × B)} {y : Option A} (h : x.map Prod.fst = y) :
    (x = none ∧ y = none) ∨ ∃ a b, x = some (a, b) ∧ y = some a := by
  subst h
  rcases x with _ | ⟨a, b⟩
  · exact Or.inl ⟨rfl, rfl⟩
  · exact Or.inr ⟨a, b, rfl, rfl⟩

/-- C135, a cipher that never reports failure: the functions return 1 and are the ones of the other properties, whatever the stack
held. -/
theorem C135_works (ctx : FpeCtx) (lg : Nat → Nat → Nat) (w : Faults) (hw : ∀ k x old, w k x old = none) (ss : Nat → Block)
    (R0 : Block) (input output : List Byte) :
    ff1EncryptF ctx lg w ss R0 input output = (ff1Encrypt ctx lg input output).map (fun o => (1, o)) ∧
    ff1DecryptF ctx lg w ss input output = (ff1Decrypt ctx lg input output).map (fun o => (1, o)) ∧
    ff3EncryptF ctx lg w R0 input output = (ff3Encrypt ctx lg input output).map (fun o => (1, o)) ∧
    ff3DecryptF ctx lg w input output = (ff3Decrypt ctx lg input output).map (fun o => (1, o)) := by
  have k1 : ∀ n i x a, (ff1RoundYF ctx lg w ss n i x a = none ∧ ff1FOpt ctx lg n i x = none) ∨
      ∃ y a' t, ff1RoundYF ctx lg w ss n i x a = some (y, a') ∧ ff1FOpt ctx lg n i x = some (y, t) := by
    intro n i x a
    unfold ff1FOpt
    rcases map_fst_cases (ff1RoundYF_ok w hw ctx lg ss n i x a) with ⟨h1, h2⟩ | ⟨y, a', h1, h2⟩
    · exact Or.inl ⟨h1, by rw [h2]; rfl⟩
    · exact Or.inr ⟨y, a', (), h1, by rw [h2]; rfl⟩
  have k3 : ∀ n i x a, (ff3RoundSF ctx lg w n i x a = none ∧ ff3FOpt ctx lg n i x = none) ∨
      ∃ a' t, ff3RoundSF ctx lg w n i x a = some a' ∧ ff3FOpt ctx lg n i x = some (bin2bn a'.2.toList, t) := by
    intro n i x a
    unfold ff3FOpt
    have h := ff3RoundSF_ok w hw ctx lg n i x a
    rcases hx : ff3RoundSF ctx lg w n i x a with _ | a'
    · rw [hx] at h
      exact Or.inl ⟨rfl, by rw [← h]; rfl⟩
    · rw [hx] at h
      exact Or.inr ⟨a', a'.2, rfl, by rw [← h]; rfl⟩
  refine ⟨?_, ?_, ?_, ?_⟩
  · unfold ff1EncryptF ff1Encrypt
    cases cstr input with
    | none => rfl
    | some str =>
      simp only [Option.bind_some]
      cases ff1Assert ctx.tweak.length (ff1B lg ctx.radix (str.length - floor2 str.length 1)) with
      | none => rfl
      | some _ =>
        simp only [Option.bind_some]
        rw [bind_fst _ fun s : FpeSt => (invMapChars s.out output).map fun o => (1, o),
          ff1EncF_fold ctx lg w ss str.length (ff1FOpt ctx lg str.length) (fun _ _ => True)
            (fun i rest x a _ => (k1 _ i x a).imp id fun ⟨y, a', t, h1, h2⟩ => ⟨y, a', t, h1, h2, trivial⟩) _ _ _ trivial]
        simp only [← ff1Enc_round]
        rw [Option.map_bind]
        rfl
  · unfold ff1DecryptF ff1Decrypt
    cases cstr input with
    | none => rfl
    | some str =>
      simp only [Option.bind_some]
      cases ff1Assert ctx.tweak.length (ff1B lg ctx.radix (str.length - floor2 str.length 1)) with
      | none => rfl
      | some _ =>
        simp only [Option.bind_some]
        rw [bind_fst _ fun s : FpeSt => (invMapChars s.out output).map fun o => (1, o),
          ff1DecF_fold ctx lg w ss str.length (ff1FOpt ctx lg str.length) (fun i k x => k1 _ i x _)]
        simp only [← ff1Dec_round]
        rw [Option.map_bind]
        rfl
  · unfold ff3EncryptF ff3Encrypt
    cases cstr input with
    | none => rfl
    | some str =>
      simp only [Option.bind_some]
      rw [bind_fst _ fun s : FpeSt => (invMapChars s.out output).map fun o => (1, o),
        ff3EncF_fold ctx lg w str.length (ff3FOpt ctx lg str.length) (fun _ _ => True)
          (fun i rest x a _ => (k3 _ i x a).imp id fun ⟨a', t, h1, h2⟩ => ⟨a', t, h1, h2, trivial⟩) _ _ _ trivial]
      simp only [← ff3Enc_round]
      rw [Option.map_bind]
      rfl
  · unfold ff3DecryptF ff3Decrypt
    cases cstr input with
    | none => rfl
    | some str =>
      simp only [Option.bind_some]
      rw [bind_fst _ fun s : FpeSt => (invMapChars s.out output).map fun o => (1, o),
        ff3DecF_fold ctx lg w str.length (ff3FOpt ctx lg str.length) (fun i k x => k3 _ i x _)]
      simp only [← ff3Dec_round]
      rw [Option.map_bind]
      rfl

/-! ### a cipher that always fails and leaves its buffer alone -/

/-- Rounds with a constant round function add up. -/
theorem pairSeq_const {τ : Type} (f : Nat → Nat → Nat × τ) (y : Nat → Nat) (hf : ∀ i x, (f i x).1 = y i) (Nu Nv : Nat) (p : Nat × Nat)
    (h : p.1 < Nu ∧ p.2 < Nv) (k : Nat) : pairSeq f Nu Nv p k =
      ((p.1 + ((List.range k).map fun j => y (2 * j)).sum) % Nu, (p.2 + ((List.range k).map fun j => y (2 * j + 1)).sum) % Nv) := by
  induction k with
  | zero => simp [pairSeq, Nat.mod_eq_of_lt h.1, Nat.mod_eq_of_lt h.2]
  | succ k ih =>
    rw [pairSeq, ih]
    simp only [pairStep, hf, List.range_succ, List.map_append, List.sum_append, List.map_cons, List.map_nil, List.sum_cons, List.sum_nil,
      Nat.add_zero]
    rw [Nat.mod_add_mod, Nat.mod_add_mod, Nat.add_assoc, Nat.add_assoc]

section const
variable {τ : Type} {n u r : Nat} {q : Nat → Nat} {num : List Nat → Nat} {str : Nat → Nat → List Nat}
  {F : Nat → Nat → Option (Nat × τ)} {f : Nat → Nat → Nat × τ}

theorem fenc_const (ok : FeistelOk n u r q num str F f) (y : Nat → Nat) (hf : ∀ i x, (f i x).1 = y i) (k : Nat) (X : List Nat)
    (hX : X.length = n) (hd : ∀ d ∈ X, d < r) : fenc n u q num str f (2 * k) X =
      str ((num (X.take u) + ((List.range k).map fun j => y (2 * j)).sum) % r ^ u) u ++
      str ((num (X.drop u) + ((List.range k).map fun j => y (2 * j + 1)).sum) % r ^ (n - u)) (n - u) := by
  have h0 := halves_split ok 0 rfl X hX hd
  obtain ⟨a1, a2, a3, a4⟩ := h0
  obtain ⟨g1, g2, g3, g4⟩ := fseq_halves ok _ (halves_split ok 0 rfl X hX hd) (2 * k)
  have l0 : halfLen n u (2 * k) = u := by unfold halfLen; rw [if_neg (by omega)]
  have l1 : halfLen n u 0 = u := rfl
  have hlt : num (X.take u) < r ^ u ∧ num (X.drop u) < r ^ (n - u) := by
    constructor
    · have := ok.num_lt _ a3
      rw [a1, l1] at this
      exact this
    · have := ok.num_lt _ a4
      rw [a2, l1] at this
      exact this
  have hp := fseq_pair ok (X.take u, X.drop u) k
  rw [pairSeq_const f y hf _ _ _ hlt] at hp
  have e1 := ok.str_num _ g3
  have e2 := ok.str_num _ g4
  rw [g1, l0] at e1
  rw [g2, l0] at e2
  unfold fenc
  simp only
  rw [← e1, ← e2, (Prod.mk.inj hp).1, (Prod.mk.inj hp).2]

theorem fenc_zero (ok : FeistelOk n u r q num str F f) (hf : ∀ i x, (f i x).1 = 0) (k : Nat) (X : List Nat)
    (hX : X.length = n) (hd : ∀ d ∈ X, d < r) : fenc n u q num str f (2 * k) X = X := by
  obtain ⟨a1, a2, a3, a4⟩ := halves_split ok 0 rfl X hX hd
  have l1 : halfLen n u 0 = u := rfl
  rw [fenc_const ok (fun _ => 0) hf k X hX hd]
  have z : ((List.range k).map fun _ : Nat => 0).sum = 0 := by simp
  rw [z, Nat.add_zero, Nat.add_zero]
  have e1 := ok.str_num _ a3
  have e2 := ok.str_num _ a4
  have b1 := ok.num_lt _ a3
  have b2 := ok.num_lt _ a4
  rw [a1, l1] at e1 b1
  rw [a2, l1] at e2 b2
  simp only at e1 e2 b1 b2
  rw [Nat.mod_eq_of_lt b1, Nat.mod_eq_of_lt b2, e1, e2, List.take_append_drop]

theorem fundo_zero (ok : FeistelOk n u r q num str F f) (hf : ∀ i x, (f i x).1 = 0) (k : Nat) (X : List Nat)
    (hX : X.length = n) (hd : ∀ d ∈ X, d < r) : fundo n u q num str f (2 * k) X = X := by
  have h1 := fenc_fundo ok (2 * k) (by omega) X hX hd
  obtain ⟨l1, l2⟩ := fundo_ok ok (2 * k) (by omega) X hX hd
  rw [fenc_zero ok hf k _ l1 l2] at h1
  exact h1

end const

section dead
variable (E : Block → Block) (w : Faults) (hw : ∀ k x old, w k x old = some old)
include hw

theorem bufF_dead (k : Nat) (x old : Block) : bufF E w k x old = old := by
  unfold bufF callF
  rw [hw]

theorem ff1MacLoopF_dead (c : Nat) : ∀ k R Q, ff1MacLoopF E w c k R Q = R := by
  induction c with
  | zero => intro k R Q; rfl
  | succ c ih =>
    intro k R Q
    rw [ff1MacLoopF, ih, bufF_dead E w hw]

theorem ff1SLoopF_dead (R : Block) (c : Nat) : ∀ k j SS, ff1SLoopF E w R c k j SS = (List.replicate c SS.toList).flatten := by
  induction c with
  | zero => intro k j SS; rfl
  | succ c ih =>
    intro k j SS
    rw [ff1SLoopF, bufF_dead E w hw, ih, List.replicate_succ, List.flatten_cons]

end dead

/-- The number that FF1 adds in a round in which `R` and `SS` are not written: the first `d` bytes of `R ‖ SS ‖ SS ‖ …`. -/
def deadY (lg : Nat → Nat → Nat) (radix n : Nat) (R SS : Block) : Nat :=
  let d := ff1d ((lg radix (n - n / 2) + 7) / 8)
  numBytes ((R.toList ++ (List.replicate ((d + 15) / 16 - 1) SS.toList).flatten).take d)

theorem ff1D_eq_spec (b : Nat) : ff1D b = ff1d b := by
  unfold ff1D ff1d
  rw [ceil2_eq]
  rfl

/-- The round function of FF1 with a cipher that does nothing. -/
def deadF (ctx : FpeCtx) (lg : Nat → Nat → Nat) (n : Nat) (R : Block) (ss : Nat → Block) (i x : Nat) : Option (Nat × Unit) :=
  (ff1QBytes ctx.tweak (ff1B lg ctx.radix (n - n / 2)) i x).map fun _ => (deadY lg ctx.radix n R (ss i), ())

theorem ff1RoundYF_dead (ctx : FpeCtx) (lg : Nat → Nat → Nat) (w : Faults) (hw : ∀ k x old, w k x old = some old) (ss : Nat → Block)
    (n i x k : Nat) (R : Block) : (ff1RoundYF ctx lg w ss n i x (k, R) = none ∧ deadF ctx lg n R ss i x = none) ∨
      ∃ y a' t, ff1RoundYF ctx lg w ss n i x (k, R) = some (y, a') ∧ deadF ctx lg n R ss i x = some (y, t) ∧ a'.2 = R := by
  unfold ff1RoundYF deadF
  simp only [floor2_eq]
  cases ff1QBytes ctx.tweak (ff1B lg ctx.radix (n - n / 2)) i x with
  | none => exact Or.inl ⟨rfl, rfl⟩
  | some Q =>
    simp only [Option.bind_some, Option.map_some]
    rw [ff1MacLoopF_dead _ _ hw, bufF_dead _ _ hw, ff1SLoopF_dead _ _ hw]
    have hlen : (R.toList ++ (List.replicate (ceil2 (ff1D (ff1B lg ctx.radix (n - n / 2))) 4 - 1) (ss i).toList).flatten).length =
        16 + 16 * (ceil2 (ff1D (ff1B lg ctx.radix (n - n / 2))) 4 - 1) := by
      simp [Nat.mul_comm]
    rw [if_pos (by rw [hlen]; exact S_long_enough _)]
    refine Or.inr ⟨_, _, (), rfl, ?_, rfl⟩
    unfold deadY
    simp only
    rw [bin2bn_eq, ff1D_eq_spec, ff1B_val, ceil2_eq]
    rfl

theorem dead_ok (ctx : FpeCtx) (lg : Nat → Nat → Nat) (hlg : LgOk lg) (n : Nat) (hn : 2 ≤ n) (hr : 2 ≤ ctx.radix) (R : Block)
    (ss : Nat → Block) :
    FeistelOk n (n / 2) ctx.radix (fun i => ctx.radix ^ halfLen n (n / 2) i) (fun X => str2num X ctx.radix)
      (fun x m => num2str x ctx.radix m) (deadF ctx lg n R ss) (fun i _ => (deadY lg ctx.radix n R (ss i), ())) := by
  obtain ⟨c1, c2, c3, c4, c5⟩ := codec_msb ctx.radix hr
  refine ⟨hr, by omega, by omega, fun _ => rfl, c1, c2, c3, c4, c5, ?_⟩
  intro i x _ hx
  unfold deadF
  rw [ff1QBytes_some _ _ _ _ (ff1_fits lg hlg _ _ _ _ hr hx)]
  rfl

theorem ff1EncryptF_dead (E : Block → Block) (tweak : List Byte) (radix : Nat) (hr : 2 ≤ radix) (lg : Nat → Nat → Nat) (hlg : LgOk lg)
    (w : Faults) (hw : ∀ k x old, w k x old = some old) (ss : Nat → Block) (R0 : Block)
    (s rest out : List Byte) (hs : ∀ c ∈ s, IsNumeral radix c) (hn : 2 ≤ s.length) (hT : QOk lg tweak radix s.length)
    (ho : s.length < out.length) :
    ff1EncryptF ⟨E, radix, tweak⟩ lg w ss R0 (s ++ 0 :: rest) out =
      some (1, (fenc s.length (s.length / 2) (fun i => radix ^ halfLen s.length (s.length / 2) i) (fun X => str2num X radix)
        (fun x m => num2str x radix m) (fun i _ => (deadY lg radix s.length R0 (ss i), ())) (2 * 5) (vals s)).map numeralChar ++
          0 :: out.drop (s.length + 1)) := by
  have ok := dead_ok ⟨E, radix, tweak⟩ lg hlg s.length hn hr R0 ss
  have hl := length_vals s
  have hv := vals_lt s hs
  unfold ff1EncryptF
  rw [cstr_append s rest (fun c hc => numeral_ne_zero c (hs c hc))]
  simp only [Option.bind_some, ff1Assert_ok lg tweak radix s.length hT]
  rw [bind_fst _ fun t : FpeSt => (invMapChars t.out out).map fun o => (1, o),
    ff1EncF_fold ⟨E, radix, tweak⟩ lg w ss s.length (deadF ⟨E, radix, tweak⟩ lg s.length R0 ss) (fun _ a => a.2 = R0)
      (fun i rest x a ha => by
        obtain ⟨k, R⟩ := a
        simp only at ha
        subst ha
        exact (ff1RoundYF_dead ⟨E, radix, tweak⟩ lg w hw ss s.length i x k R).imp id fun h => h) _ _ _ rfl,
    foldlM_drop_unit _ _ (fun _ _ => rfl), map_mapChar s hs, floor2_eq, engine_enc ok _ 10 (by decide) rfl _ hl hv]
  simp only [Option.map_some, Option.bind_some, fpeStart]
  have h1 := (fenc_ok ok 10 _ hl hv).1
  rw [invMapChars_eq _ _ (by rw [h1]; exact ho), h1]
  rfl

theorem ff1DecryptF_dead (E : Block → Block) (tweak : List Byte) (radix : Nat) (hr : 2 ≤ radix) (lg : Nat → Nat → Nat) (hlg : LgOk lg)
    (w : Faults) (hw : ∀ k x old, w k x old = some old) (ss : Nat → Block)
    (s rest out : List Byte) (hs : ∀ c ∈ s, IsNumeral radix c) (hn : 2 ≤ s.length) (hT : QOk lg tweak radix s.length)
    (ho : s.length < out.length) :
    ff1DecryptF ⟨E, radix, tweak⟩ lg w ss (s ++ 0 :: rest) out =
      some (1, (fundo s.length (s.length / 2) (fun i => radix ^ halfLen s.length (s.length / 2) i) (fun X => str2num X radix)
        (fun x m => num2str x radix m) (fun i _ => (deadY lg radix s.length zeroBlock (ss i), ())) (2 * 5) (vals s)).map numeralChar ++
          0 :: out.drop (s.length + 1)) := by
  have ok := dead_ok ⟨E, radix, tweak⟩ lg hlg s.length hn hr zeroBlock ss
  have hl := length_vals s
  have hv := vals_lt s hs
  unfold ff1DecryptF
  rw [cstr_append s rest (fun c hc => numeral_ne_zero c (hs c hc))]
  simp only [Option.bind_some, ff1Assert_ok lg tweak radix s.length hT]
  obtain ⟨a, e⟩ := engine_undo ok (fun (_ : Unit) _ => ()) 10 (by decide) rfl _ hl hv ()
  rw [bind_fst _ fun t : FpeSt => (invMapChars t.out out).map fun o => (1, o),
    ff1DecF_fold ⟨E, radix, tweak⟩ lg w ss s.length (deadF ⟨E, radix, tweak⟩ lg s.length zeroBlock ss)
      (fun i k x => (ff1RoundYF_dead ⟨E, radix, tweak⟩ lg w hw ss s.length i x k zeroBlock).imp id
        fun ⟨y, a', t, h1, h2, _⟩ => ⟨y, a', t, h1, h2⟩) _ _ _,
    foldlM_drop_unit _ _ (fun _ _ => rfl), map_mapChar s hs, floor2_eq, e]
  simp only [Option.map_some, Option.bind_some, fpeStart]
  have h1 := (fundo_ok ok 10 rfl _ hl hv).1
  rw [invMapChars_eq _ _ (by rw [h1]; exact ho), h1]
  rfl

/-- C135, FF1 encryption with a cipher that always fails and leaves its buffer alone: the function returns 1, and the ciphertext is the
plaintext with numbers added to its halves that depend on what the stack held, and neither on the key nor on the tweak nor on the
text. -/
theorem C135_ff1_encrypt (ctx : FpeCtx) (tweak : List Byte) (radix : Nat) (E : Block → Block)
    (hc : fpeInit tweak radix E = some ctx) (lg : Nat → Nat → Nat) (hlg : LgOk lg) (w : Faults)
    (hw : ∀ k x old, w k x old = some old) (ss : Nat → Block) (R0 : Block)
    (s rest out : List Byte) (hs : ∀ c ∈ s, IsNumeral radix c) (hn : 2 ≤ s.length) (hT : QOk lg tweak radix s.length)
    (ho : s.length < out.length) :
    ff1EncryptF ctx lg w ss R0 (s ++ 0 :: rest) out =
      some (1, (strRadix radix (s.length / 2) ((numRadix radix ((s.map numeralVal).take (s.length / 2)) +
            ((List.range 5).map fun j => deadY lg radix s.length R0 (ss (2 * j))).sum) % radix ^ (s.length / 2)) ++
          strRadix radix (s.length - s.length / 2) ((numRadix radix ((s.map numeralVal).drop (s.length / 2)) +
            ((List.range 5).map fun j => deadY lg radix s.length R0 (ss (2 * j + 1))).sum) %
              radix ^ (s.length - s.length / 2))).map numeralChar ++ 0 :: out.drop (s.length + 1)) := by
  unfold fpeInit at hc
  split at hc
  · cases hc
  rename_i hrr
  injection hc with hc
  subst hc
  have hr : 2 ≤ radix := by omega
  rw [ff1EncryptF_dead E tweak radix hr lg hlg w hw ss R0 s rest out hs hn hT ho,
    fenc_const (dead_ok ⟨E, radix, tweak⟩ lg hlg s.length hn hr R0 ss) (fun i => deadY lg radix s.length R0 (ss i)) (fun _ _ => rfl) 5 _
      (length_vals s) (vals_lt s hs)]
  simp only [num2str_eq, str2num_eq]
  rfl

theorem numBytes_zeros (k : Nat) : numBytes (List.replicate k 0) = 0 := by
  rw [← bin2bn_eq]
  induction k with
  | zero => rfl
  | succ k ih =>
    unfold bin2bn at ih ⊢
    rw [List.replicate_succ, List.foldl_cons]
    exact ih

theorem deadY_zero (lg : Nat → Nat → Nat) (radix n : Nat) (SS : Block) (h : SS = zeroBlock ∨ lg radix (n - n / 2) ≤ 96) :
    deadY lg radix n zeroBlock SS = 0 := by
  unfold deadY
  simp only
  have hz : (zeroBlock : Block).toList = List.replicate 16 0 := rfl
  rcases h with rfl | h
  · have e : ∀ c, (zeroBlock : Block).toList ++ (List.replicate c (zeroBlock : Block).toList).flatten = List.replicate (16 + 16 * c) 0 := by
      intro c
      rw [hz, List.flatten_replicate_replicate, ← List.replicate_add, Nat.mul_comm]
    rw [e, List.take_replicate, numBytes_zeros]
  · have hd : ff1d ((lg radix (n - n / 2) + 7) / 8) ≤ 16 := by unfold ff1d; omega
    rw [List.take_append_of_le_length (by simp [hd]), hz, List.take_replicate, numBytes_zeros]

/-- C135, the plaintext as ciphertext: if the stack held zeros, the ciphertext of FF1 is the plaintext, and the function returns 1. -/
theorem C135_ff1_plain (ctx : FpeCtx) (tweak : List Byte) (radix : Nat) (E : Block → Block)
    (hc : fpeInit tweak radix E = some ctx) (lg : Nat → Nat → Nat) (hlg : LgOk lg) (w : Faults)
    (hw : ∀ k x old, w k x old = some old) (ss : Nat → Block)
    (s rest out : List Byte) (hs : ∀ c ∈ s, IsNumeral radix c) (hn : 2 ≤ s.length) (hT : QOk lg tweak radix s.length)
    (ho : s.length < out.length) (hz : (∀ i, ss i = zeroBlock) ∨ lg radix (s.length - s.length / 2) ≤ 96) :
    ff1EncryptF ctx lg w ss zeroBlock (s ++ 0 :: rest) out = some (1, s ++ 0 :: out.drop (s.length + 1)) := by
  unfold fpeInit at hc
  split at hc
  · cases hc
  rename_i hrr
  injection hc with hc
  subst hc
  have hr : 2 ≤ radix := by omega
  rw [ff1EncryptF_dead E tweak radix hr lg hlg w hw ss zeroBlock s rest out hs hn hT ho,
    fenc_zero (dead_ok ⟨E, radix, tweak⟩ lg hlg s.length hn hr zeroBlock ss)
      (fun i _ => deadY_zero lg radix s.length (ss i) (hz.imp (fun h => h i) id)) 5 _ (length_vals s) (vals_lt s hs),
    chars_vals s hs]

/-- C135, FF1 decryption with such a cipher: texts whose halves are below `2^96` are returned as they came, whatever the stack
held, and the function returns 1. -/
theorem C135_ff1_decrypt (ctx : FpeCtx) (tweak : List Byte) (radix : Nat) (E : Block → Block)
    (hc : fpeInit tweak radix E = some ctx) (lg : Nat → Nat → Nat) (hlg : LgOk lg) (w : Faults)
    (hw : ∀ k x old, w k x old = some old) (ss : Nat → Block)
    (s rest out : List Byte) (hs : ∀ c ∈ s, IsNumeral radix c) (hn : 2 ≤ s.length) (hT : QOk lg tweak radix s.length)
    (ho : s.length < out.length) (hz : (∀ i, ss i = zeroBlock) ∨ lg radix (s.length - s.length / 2) ≤ 96) :
    ff1DecryptF ctx lg w ss (s ++ 0 :: rest) out = some (1, s ++ 0 :: out.drop (s.length + 1)) := by
  unfold fpeInit at hc
  split at hc
  · cases hc
  rename_i hrr
  injection hc with hc
  subst hc
  have hr : 2 ≤ radix := by omega
  rw [ff1DecryptF_dead E tweak radix hr lg hlg w hw ss s rest out hs hn hT ho,
    fundo_zero (dead_ok ⟨E, radix, tweak⟩ lg hlg s.length hn hr zeroBlock ss)
      (fun i _ => deadY_zero lg radix s.length (ss i) (hz.imp (fun h => h i) id)) 5 _ (length_vals s) (vals_lt s hs),
    chars_vals s hs]

/-! ### FF3 -/

/-- The round function of FF3 with a cipher that does nothing and numbers `y i`. -/
def deadF3 (ctx : FpeCtx) (lg : Nat → Nat → Nat) (n : Nat) (y : Nat → Nat) (i x : Nat) : Option (Nat × Unit) :=
  (ff3PBytes ctx.tweak (ceil2 (lg ctx.radix ((n + 1) / 2)) 3) i x).map fun _ => (y i, ())

theorem dead3_ok (ctx : FpeCtx) (lg : Nat → Nat → Nat) (hlg : LgOk lg) (n : Nat) (hn : 1 ≤ n) (hr : 2 ≤ ctx.radix)
    (ht : 8 ≤ ctx.tweak.length) (y : Nat → Nat) :
    FeistelOk n ((n + 1) / 2) ctx.radix (fun i => ctx.radix ^ halfLen n ((n + 1) / 2) i)
      (fun X => str2numRev X ctx.radix) (fun x m => num2strRev x ctx.radix m) (deadF3 ctx lg n y) (fun i _ => (y i, ())) := by
  obtain ⟨c1, c2, c3, c4, c5⟩ := codec_lsb ctx.radix hr
  refine ⟨hr, by omega, by omega, fun _ => rfl, c1, c2, c3, c4, c5, ?_⟩
  intro i x _ hx
  obtain ⟨S, hS⟩ := ff3RoundS_some ctx lg hlg n i x hr ht hx
  unfold ff3RoundS at hS
  simp only [ceil2_one] at hS
  unfold deadF3
  cases hp : ff3PBytes ctx.tweak (ceil2 (lg ctx.radix ((n + 1) / 2)) 3) i x with
  | none => rw [hp] at hS; cases hS
  | some P => rfl

theorem ff3RoundSF_dead (ctx : FpeCtx) (lg : Nat → Nat → Nat) (w : Faults) (hw : ∀ k x old, w k x old = some old)
    (n i x k : Nat) (S : Block) (y : Nat → Nat) (hy : y i = bin2bn (revBytes S).toList) :
    (ff3RoundSF ctx lg w n i x (k, S) = none ∧ deadF3 ctx lg n y i x = none) ∨
      ∃ a' t, ff3RoundSF ctx lg w n i x (k, S) = some a' ∧ deadF3 ctx lg n y i x = some (bin2bn a'.2.toList, t) ∧ a'.2 = revBytes S := by
  unfold ff3RoundSF deadF3
  simp only [ceil2_one]
  cases ff3PBytes ctx.tweak (ceil2 (lg ctx.radix ((n + 1) / 2)) 3) i x with
  | none => exact Or.inl ⟨rfl, rfl⟩
  | some P =>
    simp only [Option.bind_some, Option.map_some]
    rw [bufF_dead _ _ hw, hy]
    exact Or.inr ⟨_, (), rfl, rfl, rfl⟩

theorem revBytes_revBytes (x : Block) : revBytes (revBytes x) = x := by
  apply Vector.ext
  intro i hi
  have e : 15 - (15 - i) = i := by omega
  simp [revBytes, e]

theorem toList_revB (x : Block) : (revBytes x).toList = x.toList.reverse := by
  apply List.ext_getElem
  · simp
  · intro i h1 h2
    have hi : i < 16 := by simpa using h1
    rw [List.getElem_reverse]
    simp [revBytes]

/-- The content of `S` before round `i` of the encryption. -/
def sBefore (S0 : Block) (i : Nat) : Block := if i % 2 = 0 then S0 else revBytes S0

theorem ff3EncryptF_dead (E : Block → Block) (tweak : List Byte) (radix : Nat) (hr : 2 ≤ radix) (ht : 8 ≤ tweak.length)
    (lg : Nat → Nat → Nat) (hlg : LgOk lg) (w : Faults) (hw : ∀ k x old, w k x old = some old) (S0 : Block)
    (s rest out : List Byte) (hs : ∀ c ∈ s, IsNumeral radix c) (hn : 1 ≤ s.length) (ho : s.length < out.length) :
    ff3EncryptF ⟨E, radix, tweak⟩ lg w S0 (s ++ 0 :: rest) out =
      some (1, (fenc s.length ((s.length + 1) / 2) (fun i => radix ^ halfLen s.length ((s.length + 1) / 2) i)
        (fun X => str2numRev X radix) (fun x m => num2strRev x radix m)
        (fun i _ => (bin2bn (revBytes (sBefore S0 i)).toList, ())) (2 * 4) (vals s)).map numeralChar ++ 0 :: out.drop (s.length + 1)) := by
  have ok := dead3_ok ⟨E, radix, tweak⟩ lg hlg s.length hn hr ht (fun i => bin2bn (revBytes (sBefore S0 i)).toList)
  have hl := length_vals s
  have hv := vals_lt s hs
  unfold ff3EncryptF
  rw [cstr_append s rest (fun c hc => numeral_ne_zero c (hs c hc))]
  simp only [Option.bind_some]
  rw [bind_fst _ fun t : FpeSt => (invMapChars t.out out).map fun o => (1, o),
    ff3EncF_fold ⟨E, radix, tweak⟩ lg w s.length
      (deadF3 ⟨E, radix, tweak⟩ lg s.length (fun i => bin2bn (revBytes (sBefore S0 i)).toList))
      (fun l a => ∃ j, l = (List.range 8).drop j ∧ a.2 = sBefore S0 j)
      (fun i rest x a ha => by
        obtain ⟨k, S⟩ := a
        obtain ⟨j, hj, hS⟩ := ha
        simp only at hS
        subst hS
        have hj8 : j < 8 := by
          have := congrArg List.length hj
          simp at this
          omega
        rw [List.drop_eq_getElem_cons (by simpa using hj8), List.getElem_range] at hj
        obtain ⟨h1, h2⟩ := List.cons.inj hj
        subst h1
        rcases ff3RoundSF_dead ⟨E, radix, tweak⟩ lg w hw s.length i x k (sBefore S0 i)
          (fun i => bin2bn (revBytes (sBefore S0 i)).toList) rfl with h | ⟨a', t, e1, e2, e3⟩
        · exact Or.inl h
        · refine Or.inr ⟨a', t, e1, e2, i + 1, h2, ?_⟩
          rw [e3]
          unfold sBefore
          by_cases hp : i % 2 = 0
          · rw [if_pos hp, if_neg (by omega)]
          · rw [if_neg hp, if_pos (by omega), revBytes_revBytes]) (List.range 8) _ _ ⟨0, rfl, rfl⟩,
    foldlM_drop_unit _ _ (fun _ _ => rfl), map_mapChar s hs, ceil2_one, engine_enc ok _ 8 (by decide) rfl _ hl hv]
  simp only [Option.map_some, Option.bind_some, fpeStart]
  have h1 := (fenc_ok ok 8 _ hl hv).1
  rw [invMapChars_eq _ _ (by rw [h1]; exact ho), h1]
  rfl

theorem sum_evenR (S0 : Block) : ((List.range 4).map fun j => bin2bn (revBytes (sBefore S0 (2 * j))).toList).sum =
    4 * numBytes S0.toList.reverse := by
  have h : ∀ j, sBefore S0 (2 * j) = S0 := by intro j; unfold sBefore; rw [if_pos (by omega)]
  simp only [h, toList_revB, bin2bn_eq]
  rw [List.map_const', List.sum_replicate_nat, List.length_range]

theorem sum_oddR (S0 : Block) : ((List.range 4).map fun j => bin2bn (revBytes (sBefore S0 (2 * j + 1))).toList).sum =
    4 * numBytes S0.toList := by
  have h : ∀ j, sBefore S0 (2 * j + 1) = revBytes S0 := by intro j; unfold sBefore; rw [if_neg (by omega)]
  simp only [h, revBytes_revBytes, bin2bn_eq]
  rw [List.map_const', List.sum_replicate_nat, List.length_range]

/-- C135, FF3 encryption with a cipher that always fails and leaves its buffer alone: the function returns 1, and the ciphertext is the
plaintext with four times a number added to each of its halves; the numbers are the sixteen bytes that the stack held, for the first half
in reverse order. Neither the key nor the tweak nor the rest of the text matters. -/
theorem C135_ff3_encrypt (ctx : FpeCtx) (tweak : List Byte) (radix : Nat) (E : Block → Block)
    (hc : fpeInit tweak radix E = some ctx) (ht : 8 ≤ tweak.length) (lg : Nat → Nat → Nat) (hlg : LgOk lg) (w : Faults)
    (hw : ∀ k x old, w k x old = some old) (S0 : Block)
    (s rest out : List Byte) (hs : ∀ c ∈ s, IsNumeral radix c) (hn : 1 ≤ s.length) (ho : s.length < out.length) :
    ff3EncryptF ctx lg w S0 (s ++ 0 :: rest) out =
      some (1, ((strRadix radix ((s.length + 1) / 2) ((numRadix radix ((s.map numeralVal).take ((s.length + 1) / 2)).reverse +
            4 * numBytes S0.toList.reverse) % radix ^ ((s.length + 1) / 2))).reverse ++
          (strRadix radix (s.length - (s.length + 1) / 2) ((numRadix radix ((s.map numeralVal).drop ((s.length + 1) / 2)).reverse +
            4 * numBytes S0.toList) % radix ^ (s.length - (s.length + 1) / 2))).reverse).map numeralChar ++
        0 :: out.drop (s.length + 1)) := by
  unfold fpeInit at hc
  split at hc
  · cases hc
  rename_i hrr
  injection hc with hc
  subst hc
  have hr : 2 ≤ radix := by omega
  have key : ∀ y : Nat → Nat, _ := fun y =>
    fenc_const (dead3_ok ⟨E, radix, tweak⟩ lg hlg s.length hn hr ht y) y (fun _ _ => rfl) 4 (vals s) (length_vals s) (vals_lt s hs)
  rw [ff3EncryptF_dead E tweak radix hr ht lg hlg w hw S0 s rest out hs hn ho, key fun i => bin2bn (revBytes (sBefore S0 i)).toList]
  rw [sum_evenR, sum_oddR]
  simp only [num2strRev_eq, num2str_eq, str2numRev_eq, str2num_eq, vals]

/-- C135, FF3 decryption with such a cipher: every text is returned as it came, and the function returns 1. -/
theorem C135_ff3_decrypt (ctx : FpeCtx) (tweak : List Byte) (radix : Nat) (E : Block → Block)
    (hc : fpeInit tweak radix E = some ctx) (ht : 8 ≤ tweak.length) (lg : Nat → Nat → Nat) (hlg : LgOk lg) (w : Faults)
    (hw : ∀ k x old, w k x old = some old)
    (s rest out : List Byte) (hs : ∀ c ∈ s, IsNumeral radix c) (hn : 1 ≤ s.length) (ho : s.length < out.length) :
    ff3DecryptF ctx lg w (s ++ 0 :: rest) out = some (1, s ++ 0 :: out.drop (s.length + 1)) := by
  unfold fpeInit at hc
  split at hc
  · cases hc
  rename_i hrr
  injection hc with hc
  subst hc
  have hr : 2 ≤ radix := by omega
  have ok := dead3_ok ⟨E, radix, tweak⟩ lg hlg s.length hn hr ht (fun _ => 0)
  have hl := length_vals s
  have hv := vals_lt s hs
  have hz : (0 : Nat) = bin2bn (revBytes zeroBlock).toList := by decide
  unfold ff3DecryptF
  rw [cstr_append s rest (fun c hc => numeral_ne_zero c (hs c hc))]
  simp only [Option.bind_some]
  obtain ⟨a, e⟩ := engine_undo ok (fun (_ : Unit) _ => ()) 8 (by decide) rfl _ hl hv ()
  rw [bind_fst _ fun t : FpeSt => (invMapChars t.out out).map fun o => (1, o),
    ff3DecF_fold ⟨E, radix, tweak⟩ lg w s.length (deadF3 ⟨E, radix, tweak⟩ lg s.length fun _ => 0)
      (fun i k x => (ff3RoundSF_dead ⟨E, radix, tweak⟩ lg w hw s.length i x k zeroBlock (fun _ => 0) hz).imp id
        fun ⟨a', t, h1, h2, _⟩ => ⟨a', t, h1, h2⟩) _ _ _,
    foldlM_drop_unit _ _ (fun _ _ => rfl), map_mapChar s hs, ceil2_one, e]
  simp only [Option.map_some, Option.bind_some, fpeStart]
  have h8 := fundo_zero ok (fun _ _ => rfl) 4 _ hl hv
  rw [show 2 * 4 = 8 from rfl] at h8
  rw [h8, invMapChars_eq _ _ (by rw [hl]; exact ho), hl, chars_vals s hs]
  rfl

/-! ### both directions -/

theorem shift_id {r m : Nat} {num : List Nat → Nat} {str : Nat → Nat → List Nat} (hr : 0 < r)
    (num_lt : ∀ X, (∀ d ∈ X, d < r) → num X < r ^ X.length) (num_str : ∀ x m, x < r ^ m → num (str x m) = x)
    (str_num : ∀ X, (∀ d ∈ X, d < r) → str (num X) X.length = X) (A : List Nat) (hA : A.length = m) (hd : ∀ d ∈ A, d < r) (K : Nat) :
    str ((num A + K) % r ^ m) m = A ↔ r ^ m ∣ K := by
  have hlt := num_lt A hd
  have hsn := str_num A hd
  rw [hA] at hlt hsn
  have hpos : 0 < r ^ m := Nat.pow_pos hr
  constructor
  · intro h
    have h1 := congrArg num h
    rw [num_str _ _ (Nat.mod_lt _ hpos)] at h1
    have h2 : (num A + K) % r ^ m = num A % r ^ m := by rw [h1, Nat.mod_eq_of_lt hlt]
    have h3 := Nat.sub_mod_eq_zero_of_mod_eq h2
    rw [Nat.add_sub_cancel_left] at h3
    exact Nat.dvd_of_mod_eq_zero h3
  · rintro ⟨c, rfl⟩
    rw [Nat.add_mul_mod_self_left, Nat.mod_eq_of_lt hlt, hsn]

theorem fenc_const_id {τ : Type} {n u r : Nat} {q : Nat → Nat} {num : List Nat → Nat} {str : Nat → Nat → List Nat}
    {F : Nat → Nat → Option (Nat × τ)} {f : Nat → Nat → Nat × τ} (ok : FeistelOk n u r q num str F f) (y : Nat → Nat)
    (hf : ∀ i x, (f i x).1 = y i) (k : Nat) (X : List Nat) (hX : X.length = n) (hd : ∀ d ∈ X, d < r) :
    fenc n u q num str f (2 * k) X = X ↔ r ^ u ∣ ((List.range k).map fun j => y (2 * j)).sum ∧
      r ^ (n - u) ∣ ((List.range k).map fun j => y (2 * j + 1)).sum := by
  obtain ⟨a1, a2, a3, a4⟩ := halves_split ok 0 rfl X hX hd
  have hr := ok.r2
  rw [fenc_const ok y hf k X hX hd]
  conv => lhs; rhs; rw [← List.take_append_drop u X]
  rw [← shift_id (m := u) (by omega) ok.num_lt ok.num_str ok.str_num (X.take u) a1 a3,
    ← shift_id (m := n - u) (by omega) ok.num_lt ok.num_str ok.str_num (X.drop u) a2 a4]
  constructor
  · intro h
    exact List.append_inj h (by rw [ok.len]; exact a1.symm)
  · rintro ⟨h1, h2⟩
    exact congrArg₂ _ h1 h2

theorem fenc_chars {r : Nat} (hr : r ≤ 36) {X : List Nat} {s : List Byte} (hs : ∀ c ∈ s, IsNumeral r c) (hX : ∀ d ∈ X, d < r) :
    X.map numeralChar = s ↔ X = vals s := by
  constructor
  · intro h
    rw [← h, vals_chars X fun d hd => Nat.lt_of_lt_of_le (hX d hd) hr]
  · intro h
    rw [h, chars_vals s hs]

/-- C135, FF1 in both directions, for texts whose halves are below `2^96`: what the decryption returns is the plaintext exactly if five
times the number that the stack held is divisible by the powers of the radix that belong to the halves. Both functions return 1. -/
theorem C135_ff1_both (ctx : FpeCtx) (tweak : List Byte) (radix : Nat) (E : Block → Block)
    (hc : fpeInit tweak radix E = some ctx) (lg : Nat → Nat → Nat) (hlg : LgOk lg) (w : Faults)
    (hw : ∀ k x old, w k x old = some old) (ss ss' : Nat → Block) (R0 : Block)
    (s rest rest' out out' : List Byte) (hs : ∀ c ∈ s, IsNumeral radix c) (hn : 2 ≤ s.length) (hT : QOk lg tweak radix s.length)
    (ho : s.length < out.length) (ho' : s.length < out'.length) (hz : lg radix (s.length - s.length / 2) ≤ 96) :
    ∃ ct p, ff1EncryptF ctx lg w ss R0 (s ++ 0 :: rest) out = some (1, ct ++ 0 :: out.drop (s.length + 1)) ∧
      ff1DecryptF ctx lg w ss' (ct ++ 0 :: rest') out' = some (1, p ++ 0 :: out'.drop (s.length + 1)) ∧
      (p = s ↔ radix ^ (s.length / 2) ∣ 5 * numBytes (R0.toList.take (ff1d ((lg radix (s.length - s.length / 2) + 7) / 8))) ∧
        radix ^ (s.length - s.length / 2) ∣ 5 * numBytes (R0.toList.take (ff1d ((lg radix (s.length - s.length / 2) + 7) / 8)))) := by
  have hc' := hc
  unfold fpeInit at hc
  split at hc
  · cases hc
  rename_i hrr
  injection hc with hc
  subst hc
  have hr : 2 ≤ radix := by omega
  have hl := length_vals s
  have hv := vals_lt s hs
  have ok := dead_ok ⟨E, radix, tweak⟩ lg hlg s.length hn hr R0 ss
  obtain ⟨l1, l2⟩ := fenc_ok ok (2 * 5) _ hl hv
  have hid := fenc_const_id ok (fun i => deadY lg radix s.length R0 (ss i)) (fun _ _ => rfl) 5 _ hl hv
  have hy : ∀ i, deadY lg radix s.length R0 (ss i) =
      numBytes (R0.toList.take (ff1d ((lg radix (s.length - s.length / 2) + 7) / 8))) := by
    intro i
    have hd : ff1d ((lg radix (s.length - s.length / 2) + 7) / 8) ≤ 16 := by unfold ff1d; omega
    unfold deadY
    simp only
    rw [List.take_append_of_le_length (by simp [hd])]
  simp only [hy, List.map_const', List.sum_replicate_nat, List.length_range] at hid
  have henc := ff1EncryptF_dead E tweak radix hr lg hlg w hw ss R0 s rest out hs hn hT ho
  have hlc : (List.map numeralChar (fenc s.length (s.length / 2) (fun i => radix ^ halfLen s.length (s.length / 2) i)
      (fun X => str2num X radix) (fun x m => num2str x radix m) (fun i _ => (deadY lg radix s.length R0 (ss i), ())) (2 * 5)
      (vals s))).length = s.length := by rw [List.length_map]; exact l1
  have hnc := chars_numeral (radix := radix) (by omega) _ l2
  have hiff := fenc_chars (by omega : radix ≤ 36) hs l2
  simp only [hy] at henc hid hiff hlc hnc
  generalize List.map numeralChar (fenc s.length (s.length / 2) (fun i => radix ^ halfLen s.length (s.length / 2) i)
    (fun X => str2num X radix) (fun x m => num2str x radix m)
    (fun i _ => (numBytes (R0.toList.take (ff1d ((lg radix (s.length - s.length / 2) + 7) / 8))), ())) (2 * 5) (vals s)) = ct
    at henc hlc hnc hiff
  refine ⟨ct, ct, henc, ?_, hiff.trans hid⟩
  have hdec := C135_ff1_decrypt _ tweak radix E hc' lg hlg w hw ss' ct rest' out' hnc (by omega) (by rw [hlc]; exact hT)
    (by omega) (Or.inr (by rw [hlc]; exact hz))
  rw [hlc] at hdec
  exact hdec

/-- C135, FF3 in both directions: what the decryption returns is the plaintext exactly if four times the number that the stack held,
read in the two directions, is divisible by the powers of the radix that belong to the halves. Both functions return 1. -/
theorem C135_ff3_both (ctx : FpeCtx) (tweak : List Byte) (radix : Nat) (E : Block → Block)
    (hc : fpeInit tweak radix E = some ctx) (ht : 8 ≤ tweak.length) (lg : Nat → Nat → Nat) (hlg : LgOk lg) (w : Faults)
    (hw : ∀ k x old, w k x old = some old) (S0 : Block)
    (s rest rest' out out' : List Byte) (hs : ∀ c ∈ s, IsNumeral radix c) (hn : 1 ≤ s.length)
    (ho : s.length < out.length) (ho' : s.length < out'.length) :
    ∃ ct p, ff3EncryptF ctx lg w S0 (s ++ 0 :: rest) out = some (1, ct ++ 0 :: out.drop (s.length + 1)) ∧
      ff3DecryptF ctx lg w (ct ++ 0 :: rest') out' = some (1, p ++ 0 :: out'.drop (s.length + 1)) ∧
      (p = s ↔ radix ^ ((s.length + 1) / 2) ∣ 4 * numBytes S0.toList.reverse ∧
        radix ^ (s.length - (s.length + 1) / 2) ∣ 4 * numBytes S0.toList) := by
  have hc' := hc
  unfold fpeInit at hc
  split at hc
  · cases hc
  rename_i hrr
  injection hc with hc
  subst hc
  have hr : 2 ≤ radix := by omega
  have hl := length_vals s
  have hv := vals_lt s hs
  have key : ∀ y : Nat → Nat, _ := fun y =>
    fenc_const_id (dead3_ok ⟨E, radix, tweak⟩ lg hlg s.length hn hr ht y) y (fun _ _ => rfl) 4 (vals s) hl hv
  have key2 : ∀ y : Nat → Nat, _ := fun y =>
    fenc_ok (dead3_ok ⟨E, radix, tweak⟩ lg hlg s.length hn hr ht y) (2 * 4) (vals s) hl hv
  have hid := key fun i => bin2bn (revBytes (sBefore S0 i)).toList
  rw [sum_evenR, sum_oddR] at hid
  obtain ⟨l1, l2⟩ := key2 fun i => bin2bn (revBytes (sBefore S0 i)).toList
  have henc := ff3EncryptF_dead E tweak radix hr ht lg hlg w hw S0 s rest out hs hn ho
  generalize fenc s.length ((s.length + 1) / 2) (fun i => radix ^ halfLen s.length ((s.length + 1) / 2) i)
    (fun X => str2numRev X radix) (fun x m => num2strRev x radix m)
    (fun i _ => (bin2bn (revBytes (sBefore S0 i)).toList, ())) (2 * 4) (vals s) = Y at henc hid l1 l2
  have hlc : (Y.map numeralChar).length = s.length := by rw [List.length_map]; exact l1
  have hnc := chars_numeral (radix := radix) (by omega) _ l2
  have hiff := fenc_chars (by omega : radix ≤ 36) hs l2
  refine ⟨Y.map numeralChar, Y.map numeralChar, henc, ?_, hiff.trans hid⟩
  have hdec := C135_ff3_decrypt _ tweak radix E hc' ht lg hlg w hw (Y.map numeralChar) rest' out' hnc (by omega) (by omega)
  rw [hlc] at hdec
  exact hdec

/-! ### the hypotheses can be met -/

/-- A cipher that never fails, and one that always does. -/
example : (∀ k x old, (fun _ _ _ => none : Faults) k x old = none) ∧ (∀ k x old, (fun _ _ old => some old : Faults) k x old = some old) :=
  ⟨fun _ _ _ => rfl, fun _ _ _ => rfl⟩

/-- Context, text and logarithm of the theorems on FF1 and FF3. -/
example : fpeInit (List.replicate 8 7) 10 id = some ⟨id, 10, List.replicate 8 7⟩ ∧ LgOk (fun r k => Nat.clog 2 (r ^ k)) ∧
    QOk (fun r k => Nat.clog 2 (r ^ k)) (List.replicate 8 7) 10 4 ∧ (fun r k => Nat.clog 2 (r ^ k)) 10 (4 - 4 / 2) ≤ 96 ∧
    8 ≤ (List.replicate 8 (7 : Byte)).length ∧ ∀ c ∈ ([0x31, 0x32, 0x33, 0x34] : List Byte), IsNumeral 10 c := by
  refine ⟨rfl, lgOk_clog, Or.inl (by simp), ?_, by simp, ?_⟩
  · show Nat.clog 2 (10 ^ 2) ≤ 96
    exact Nat.clog_le_of_le_pow (by norm_num)
  · intro c hc; unfold IsNumeral; revert c; decide

/-- A stack that does not give the plaintext back, and one that does. -/
example : ¬ 10 ^ ((4 + 1) / 2) ∣ 4 * numBytes ((Vector.replicate 16 (1 : Byte)).toList.reverse) ∧
    10 ^ ((4 + 1) / 2) ∣ 4 * numBytes ((zeroBlock : Block).toList.reverse) := by
  constructor <;> decide

end Verif.Props
