import Verif.Props.FpeAppFail

/-! Property C141: FF1, FF3 and the FPE applications with a block cipher that misbehaves in any way. -/
set_option autoImplicit false

namespace Verif.Props
open Verif Spec Model

/-! ### encryption: some number is added in every round -/

theorem foldlM_any {S A : Type} (g : S × A → Nat → Option (S × A)) (G : (Nat → Nat) → S → Nat → Option S)
    (h : ∀ i s a, ∃ v, ∀ y : Nat → Nat, y i = v → (g (s, a) i = none ∧ G y s i = none) ∨
      ∃ s' a', g (s, a) i = some (s', a') ∧ G y s i = some s')
    (hG : ∀ y y' s i, y i = y' i → G y s i = G y' s i) :
    ∀ (l : List Nat), l.Nodup → ∀ (s : S) (a : A), ∃ y, (l.foldlM g (s, a)).map Prod.fst = l.foldlM (G y) s := by
  intro l
  induction l with
  | nil => intro _ s a; exact ⟨fun _ => 0, rfl⟩
  | cons i l ih =>
    intro hl s a
    obtain ⟨hi, hl⟩ := List.nodup_cons.mp hl
    obtain ⟨v, hv⟩ := h i s a
    cases hg : g (s, a) i with
    | none =>
      refine ⟨fun _ => v, ?_⟩
      rcases hv (fun _ => v) rfl with ⟨_, h2⟩ | ⟨s', a', h1, _⟩
      · rw [List.foldlM_cons, List.foldlM_cons, hg, h2]; rfl
      · rw [hg] at h1; cases h1
    | some t =>
      obtain ⟨s1, a1⟩ := t
      obtain ⟨y, hy⟩ := ih hl s1 a1
      refine ⟨fun j => if j = i then v else y j, ?_⟩
      have hc : ∀ (l' : List Nat), (∀ j ∈ l', j ≠ i) → ∀ s, l'.foldlM (G fun j => if j = i then v else y j) s = l'.foldlM (G y) s := by
        intro l'
        induction l' with
        | nil => intro _ s; rfl
        | cons j l' ih' =>
          intro hj s
          rw [List.foldlM_cons, List.foldlM_cons, hG _ y s j (if_neg (hj j (List.mem_cons_self ..)))]
          congr 1
          funext s'
          exact ih' (fun k hk => hj k (List.mem_cons_of_mem _ hk)) s'
      rcases hv (fun j => if j = i then v else y j) (if_pos rfl) with ⟨h1, _⟩ | ⟨s', a', h1, h2⟩
      · rw [hg] at h1; cases h1
      · rw [hg] at h1
        injection h1 with h1
        obtain ⟨rfl, rfl⟩ := Prod.mk.inj h1
        rw [List.foldlM_cons, List.foldlM_cons, hg, h2]
        show (l.foldlM g (s1, a1)).map Prod.fst = l.foldlM _ s1
        rw [hy, hc l (fun j hj e => hi (e ▸ hj))]

/-- The round function of FF1 that adds `y i` in round `i`, defined where the code is. -/
def anyF (ctx : FpeCtx) (lg : Nat → Nat → Nat) (n : Nat) (y : Nat → Nat) (i x : Nat) : Option (Nat × Unit) :=
  (ff1QBytes ctx.tweak (ff1B lg ctx.radix (n - n / 2)) i x).map fun _ => (y i, ())

theorem length_ff1SLoopF (E : Block → Block) (w : Faults) (R : Block) (c : Nat) :
    ∀ k j SS, (ff1SLoopF E w R c k j SS).length = 16 * c := by
  induction c with
  | zero => intro k j SS; rfl
  | succ c ih =>
    intro k j SS
    show (_ ++ _ : List Byte).length = _
    rw [List.length_append, ih, Vector.length_toList]
    omega

theorem ff1RoundYF_any (ctx : FpeCtx) (lg : Nat → Nat → Nat) (w : Faults) (ss : Nat → Block) (n i x : Nat) (a : Nat × Block) :
    (ff1RoundYF ctx lg w ss n i x a = none ∧ ff1QBytes ctx.tweak (ff1B lg ctx.radix (n - n / 2)) i x = none) ∨
      ∃ y R, ff1RoundYF ctx lg w ss n i x a =
        some (y, (a.1 + 1 + (ctx.tweak.length + ff1Pad ctx.tweak.length (ff1B lg ctx.radix (n - n / 2)) + 1 + ff1B lg ctx.radix (n - n / 2)) / 16 +
          (ceil2 (ff1D (ff1B lg ctx.radix (n - n / 2))) 4 - 1), R)) ∧
        ∃ Q, ff1QBytes ctx.tweak (ff1B lg ctx.radix (n - n / 2)) i x = some Q := by
  unfold ff1RoundYF
  simp only [floor2_eq]
  cases hQ : ff1QBytes ctx.tweak (ff1B lg ctx.radix (n - n / 2)) i x with
  | none => exact Or.inl ⟨rfl, rfl⟩
  | some Q =>
    have hl : Q.length = ctx.tweak.length + ff1Pad ctx.tweak.length (ff1B lg ctx.radix (n - n / 2)) + 1 + ff1B lg ctx.radix (n - n / 2) := by
      unfold ff1QBytes at hQ
      simp only at hQ
      split at hQ
      · cases hQ
      · rename_i hb
        injection hQ with hQ
        rw [← hQ]
        simp only [List.length_append, List.length_replicate, List.length_cons, List.length_nil]
        omega
    simp only [Option.bind_some]
    rw [if_pos (by rw [List.length_append, length_ff1SLoopF, Vector.length_toList]; exact S_long_enough _), hl]
    exact Or.inr ⟨_, _, rfl, Q, rfl⟩

theorem any_ok (ctx : FpeCtx) (lg : Nat → Nat → Nat) (hlg : LgOk lg) (n : Nat) (hn : 2 ≤ n) (hr : 2 ≤ ctx.radix) (y : Nat → Nat) :
    FeistelOk n (n / 2) ctx.radix (fun i => ctx.radix ^ halfLen n (n / 2) i) (fun X => str2num X ctx.radix)
      (fun x m => num2str x ctx.radix m) (anyF ctx lg n y) (fun i _ => (y i, ())) := by
  obtain ⟨c1, c2, c3, c4, c5⟩ := codec_msb ctx.radix hr
  refine ⟨hr, by omega, by omega, fun _ => rfl, c1, c2, c3, c4, c5, ?_⟩
  intro i x _ hx
  unfold anyF
  rw [ff1QBytes_some _ _ _ _ (ff1_fits lg hlg _ _ _ _ hr hx)]
  rfl

theorem ff1EncF_any (ctx : FpeCtx) (lg : Nat → Nat → Nat) (w : Faults) (ss : Nat → Block) (n : Nat) (l : List Nat) (hl : l.Nodup)
    (s : FpeSt) (a : Nat × Block) : ∃ y : Nat → Nat,
    (l.foldlM (ff1EncryptRoundF ctx lg w ss n) (s, a)).map Prod.fst =
      l.foldlM (fun s i => (encR n (n / 2) (fun i => ctx.radix ^ halfLen n (n / 2) i) (fun X => str2num X ctx.radix)
        (fun x m => num2str x ctx.radix m) (anyF ctx lg n y) (fun (_ : Unit) _ => ()) (s, ()) i).map Prod.fst) s := by
  refine foldlM_any _ (fun y s i => (encR n (n / 2) (fun i => ctx.radix ^ halfLen n (n / 2) i) (fun X => str2num X ctx.radix)
        (fun x m => num2str x ctx.radix m) (anyF ctx lg n y) (fun (_ : Unit) _ => ()) (s, ()) i).map Prod.fst) ?_ ?_ l hl s a
  · intro i s a
    unfold ff1EncryptRoundF encR
    simp only [floor2_eq]
    rw [← halfLen, show (if halfLen n (n / 2) i = n / 2 then (powUv ctx.radix (n / 2) (n - n / 2)).1
            else (powUv ctx.radix (n / 2) (n - n / 2)).2) = ctx.radix ^ halfLen n (n / 2) i from q_ff1 _ _ _ _ rfl]
    cases h1 : rdDigits s.out s.b (n - halfLen n (n / 2) i) with
    | none => exact ⟨0, fun _ _ => Or.inl ⟨rfl, rfl⟩⟩
    | some B =>
      simp only [Option.bind_some]
      rcases ff1RoundYF_any ctx lg w ss n i (str2num B ctx.radix) a with ⟨e1, e2⟩ | ⟨v, R, e1, Q, e2⟩
      · refine ⟨0, fun y _ => Or.inl ?_⟩
        unfold anyF
        rw [e1, e2]; exact ⟨rfl, rfl⟩
      · refine ⟨v, fun y hy => ?_⟩
        unfold anyF
        rw [e1, e2, ← hy]
        simp only [Option.bind_some, Option.map_some]
        cases h3 : rdDigits s.out s.a (halfLen n (n / 2) i) with
        | none => exact Or.inl ⟨rfl, rfl⟩
        | some A =>
          simp only [Option.bind_some]
          cases h4 : swapPtrs s with
          | none => exact Or.inl ⟨rfl, rfl⟩
          | some s' =>
            simp only [Option.bind_some]
            cases wrDigits s'.out s'.b _ with
            | none => exact Or.inl ⟨rfl, rfl⟩
            | some o => exact Or.inr ⟨_, _, rfl, rfl⟩
  · intro y y' s i h
    have : anyF ctx lg n y i = anyF ctx lg n y' i := by
      funext x
      unfold anyF
      rw [h]
    unfold encR
    simp only [this]

theorem ff3EncF_any (ctx : FpeCtx) (lg : Nat → Nat → Nat) (w : Faults) (n : Nat) (l : List Nat) (hl : l.Nodup)
    (s : FpeSt) (a : Nat × Block) : ∃ y : Nat → Nat,
    (l.foldlM (ff3EncryptRoundF ctx lg w n) (s, a)).map Prod.fst =
      l.foldlM (fun s i => (encR n ((n + 1) / 2) (fun i => ctx.radix ^ halfLen n ((n + 1) / 2) i) (fun X => str2numRev X ctx.radix)
        (fun x m => num2strRev x ctx.radix m) (deadF3 ctx lg n y) (fun (_ : Unit) _ => ()) (s, ()) i).map Prod.fst) s := by
  refine foldlM_any _ (fun y s i => (encR n ((n + 1) / 2) (fun i => ctx.radix ^ halfLen n ((n + 1) / 2) i) (fun X => str2numRev X ctx.radix)
        (fun x m => num2strRev x ctx.radix m) (deadF3 ctx lg n y) (fun (_ : Unit) _ => ()) (s, ()) i).map Prod.fst) ?_ ?_ l hl s a
  · intro i s a
    unfold ff3EncryptRoundF encR
    simp only [ceil2_one]
    rw [← halfLen]
    simp only [q_ff3 ctx.radix n i ((n + 1) / 2) rfl]
    cases h1 : rdDigits s.out s.b (n - halfLen n ((n + 1) / 2) i) with
    | none => exact ⟨0, fun _ _ => Or.inl ⟨rfl, rfl⟩⟩
    | some B =>
      simp only [Option.bind_some]
      unfold ff3RoundSF deadF3
      simp only [ceil2_one]
      cases ff3PBytes ctx.tweak (ceil2 (lg ctx.radix ((n + 1) / 2)) 3) i (str2numRev B ctx.radix) with
      | none => exact ⟨0, fun _ _ => Or.inl ⟨rfl, rfl⟩⟩
      | some P =>
        simp only [Option.bind_some, Option.map_some]
        refine ⟨bin2bn (revBytes (bufF ctx.E w a.1 (revBytes (blockAt P)) a.2)).toList, fun y hy => ?_⟩
        rw [hy]
        cases h3 : rdDigits s.out s.a (halfLen n ((n + 1) / 2) i) with
        | none => exact Or.inl ⟨rfl, rfl⟩
        | some A =>
          simp only [Option.bind_some]
          cases h4 : swapPtrs s with
          | none => exact Or.inl ⟨rfl, rfl⟩
          | some s' =>
            simp only [Option.bind_some]
            cases wrDigits s'.out s'.b _ with
            | none => exact Or.inl ⟨rfl, rfl⟩
            | some o => exact Or.inr ⟨_, _, rfl, rfl⟩
  · intro y y' s i h
    have : deadF3 ctx lg n y i = deadF3 ctx lg n y' i := by
      funext x
      unfold deadF3
      rw [h]
    unfold encR
    simp only [this]

/-- C141, FF1 encryption with a block cipher that misbehaves in any way: the function returns 1 and writes a text of the same length made
of the same numerals, then the terminator. -/
theorem C141_ff1_encrypt (ctx : FpeCtx) (tweak : List Byte) (radix : Nat) (E : Block → Block)
    (hc : fpeInit tweak radix E = some ctx) (lg : Nat → Nat → Nat) (hlg : LgOk lg) (w : Faults) (ss : Nat → Block) (R0 : Block)
    (s rest out : List Byte) (hs : ∀ c ∈ s, IsNumeral radix c) (hn : 2 ≤ s.length) (hT : QOk lg tweak radix s.length)
    (ho : s.length < out.length) :
    ∃ ct, ff1EncryptF ctx lg w ss R0 (s ++ 0 :: rest) out = some (1, ct ++ 0 :: out.drop (s.length + 1)) ∧ ct.length = s.length ∧
      ∀ c ∈ ct, IsNumeral radix c := by
  unfold fpeInit at hc
  split at hc
  · cases hc
  rename_i hrr
  injection hc with hc
  subst hc
  have hr : 2 ≤ radix := by omega
  have hr36 : radix ≤ 36 := by omega
  have hl := length_vals s
  have hv := vals_lt s hs
  obtain ⟨y, hy⟩ := ff1EncF_any ⟨E, radix, tweak⟩ lg w ss s.length (List.range 10) List.nodup_range
    (fpeStart (vals s) (s.length / 2)) (0, R0)
  have ok := any_ok ⟨E, radix, tweak⟩ lg hlg s.length hn hr y
  obtain ⟨h1, h2⟩ := fenc_ok ok 10 _ hl hv
  refine ⟨(fenc s.length (s.length / 2) (fun i => radix ^ halfLen s.length (s.length / 2) i) (fun X => str2num X radix)
        (fun x m => num2str x radix m) (fun i _ => (y i, ())) 10 (vals s)).map numeralChar, ?_, by rw [List.length_map]; exact h1,
    chars_numeral hr36 _ h2⟩
  unfold ff1EncryptF
  rw [cstr_append s rest (fun c hc => numeral_ne_zero c (hs c hc))]
  simp only [Option.bind_some, ff1Assert_ok lg tweak radix s.length hT]
  rw [bind_fst _ fun t : FpeSt => (invMapChars t.out out).map fun o => (1, o), map_mapChar s hs, floor2_eq, hy,
    foldlM_drop_unit _ _ (fun _ _ => rfl), engine_enc ok _ 10 (by decide) rfl _ hl hv]
  simp only [Option.map_some, Option.bind_some, fpeStart]
  rw [invMapChars_eq _ _ (by rw [h1]; exact ho), h1]
  rfl

/-- C141, FF3 encryption. -/
theorem C141_ff3_encrypt (ctx : FpeCtx) (tweak : List Byte) (radix : Nat) (E : Block → Block)
    (hc : fpeInit tweak radix E = some ctx) (ht : 8 ≤ tweak.length) (lg : Nat → Nat → Nat) (hlg : LgOk lg) (w : Faults) (S0 : Block)
    (s rest out : List Byte) (hs : ∀ c ∈ s, IsNumeral radix c) (hn : 1 ≤ s.length) (ho : s.length < out.length) :
    ∃ ct, ff3EncryptF ctx lg w S0 (s ++ 0 :: rest) out = some (1, ct ++ 0 :: out.drop (s.length + 1)) ∧ ct.length = s.length ∧
      ∀ c ∈ ct, IsNumeral radix c := by
  unfold fpeInit at hc
  split at hc
  · cases hc
  rename_i hrr
  injection hc with hc
  subst hc
  have hr : 2 ≤ radix := by omega
  have hr36 : radix ≤ 36 := by omega
  have hl := length_vals s
  have hv := vals_lt s hs
  obtain ⟨y, hy⟩ := ff3EncF_any ⟨E, radix, tweak⟩ lg w s.length (List.range 8) List.nodup_range
    (fpeStart (vals s) ((s.length + 1) / 2)) (0, S0)
  have ok := dead3_ok ⟨E, radix, tweak⟩ lg hlg s.length hn hr ht y
  obtain ⟨h1, h2⟩ := fenc_ok ok 8 _ hl hv
  refine ⟨(fenc s.length ((s.length + 1) / 2) (fun i => radix ^ halfLen s.length ((s.length + 1) / 2) i) (fun X => str2numRev X radix)
        (fun x m => num2strRev x radix m) (fun i _ => (y i, ())) 8 (vals s)).map numeralChar, ?_, by rw [List.length_map]; exact h1,
    chars_numeral hr36 _ h2⟩
  unfold ff3EncryptF
  rw [cstr_append s rest (fun c hc => numeral_ne_zero c (hs c hc))]
  simp only [Option.bind_some]
  rw [bind_fst _ fun t : FpeSt => (invMapChars t.out out).map fun o => (1, o), map_mapChar s hs, ceil2_one, hy,
    foldlM_drop_unit _ _ (fun _ _ => rfl), engine_enc ok _ 8 (by decide) rfl _ hl hv]
  simp only [Option.map_some, Option.bind_some, fpeStart]
  rw [invMapChars_eq _ _ (by rw [h1]; exact ho), h1]
  rfl

/-! ### decryption: the number added is a function of the other half -/

section dec
variable {τ : Type} (ctx : FpeCtx) (lg : Nat → Nat → Nat) (w : Faults) (ss : Nat → Block) (n : Nat)
  (F : Nat → Nat → Option (Nat × τ)) (Rel : List Nat → Nat → Prop)

theorem ff1DecF_rel
    (hF : ∀ i rest k x, Rel (i :: rest) k → (ff1RoundYF ctx lg w ss n i x (k, zeroBlock) = none ∧ F i x = none) ∨
      ∃ y a' t, ff1RoundYF ctx lg w ss n i x (k, zeroBlock) = some (y, a') ∧ F i x = some (y, t) ∧ Rel rest a'.1)
    (l : List Nat) (s : FpeSt) (a : Nat × Block) (ha : Rel l a.1) :
    (l.foldlM (ff1DecryptRoundF ctx lg w ss n) (s, a)).map Prod.fst =
      l.foldlM (fun s i => (decR n (n / 2) (fun i => ctx.radix ^ halfLen n (n / 2) i) (fun X => str2num X ctx.radix)
        (fun x m => num2str x ctx.radix m) F (fun (_ : Unit) _ => ()) (s, ()) i).map Prod.fst) s := by
  refine foldlM_sim _ _ (fun l a => Rel l a.1) ?_ l s a ha
  intro i rest s a hr
  unfold ff1DecryptRoundF decR
  simp only [floor2_eq]
  rw [← halfLen, show (if halfLen n (n / 2) i = n / 2 then (powUv ctx.radix (n / 2) (n - n / 2)).1
          else (powUv ctx.radix (n / 2) (n - n / 2)).2) = ctx.radix ^ halfLen n (n / 2) i from q_ff1 _ _ _ _ rfl]
  cases h1 : rdDigits s.out s.a (n - halfLen n (n / 2) i) with
  | none => exact Or.inl ⟨rfl, rfl⟩
  | some B =>
    simp only [Option.bind_some]
    rcases hF i rest a.1 (str2num B ctx.radix) hr with ⟨e1, e2⟩ | ⟨y, a', t, e1, e2, e3⟩
    · rw [e1, e2]; exact Or.inl ⟨rfl, rfl⟩
    · rw [e1, e2]
      simp only [Option.bind_some]
      cases h3 : rdDigits s.out s.b (halfLen n (n / 2) i) with
      | none => exact Or.inl ⟨rfl, rfl⟩
      | some A =>
        simp only [Option.bind_some]
        cases h4 : swapPtrs s with
        | none => exact Or.inl ⟨rfl, rfl⟩
        | some s' =>
          simp only [Option.bind_some]
          cases wrDigits s'.out s'.a _ with
          | none => exact Or.inl ⟨rfl, rfl⟩
          | some o => exact Or.inr ⟨_, a', rfl, rfl, e3⟩

theorem ff3DecF_rel
    (hF : ∀ i rest k x, Rel (i :: rest) k → (ff3RoundSF ctx lg w n i x (k, zeroBlock) = none ∧ F i x = none) ∨
      ∃ a' t, ff3RoundSF ctx lg w n i x (k, zeroBlock) = some a' ∧ F i x = some (bin2bn a'.2.toList, t) ∧ Rel rest a'.1)
    (l : List Nat) (s : FpeSt) (a : Nat × Block) (ha : Rel l a.1) :
    (l.foldlM (ff3DecryptRoundF ctx lg w n) (s, a)).map Prod.fst =
      l.foldlM (fun s i => (decR n ((n + 1) / 2) (fun i => ctx.radix ^ halfLen n ((n + 1) / 2) i) (fun X => str2numRev X ctx.radix)
        (fun x m => num2strRev x ctx.radix m) F (fun (_ : Unit) _ => ()) (s, ()) i).map Prod.fst) s := by
  refine foldlM_sim _ _ (fun l a => Rel l a.1) ?_ l s a ha
  intro i rest s a hr
  unfold ff3DecryptRoundF decR
  simp only [ceil2_one]
  rw [← halfLen]
  simp only [q_ff3 ctx.radix n i ((n + 1) / 2) rfl]
  cases h1 : rdDigits s.out s.a (n - halfLen n ((n + 1) / 2) i) with
  | none => exact Or.inl ⟨rfl, rfl⟩
  | some B =>
    simp only [Option.bind_some]
    rcases hF i rest a.1 (str2numRev B ctx.radix) hr with ⟨e1, e2⟩ | ⟨a', t, e1, e2, e3⟩
    · rw [e1, e2]; exact Or.inl ⟨rfl, rfl⟩
    · rw [e1, e2]
      simp only [Option.bind_some]
      cases h3 : rdDigits s.out s.b (halfLen n ((n + 1) / 2) i) with
      | none => exact Or.inl ⟨rfl, rfl⟩
      | some A =>
        simp only [Option.bind_some]
        cases h4 : swapPtrs s with
        | none => exact Or.inl ⟨rfl, rfl⟩
        | some s' =>
          simp only [Option.bind_some]
          cases wrDigits s'.out s'.a _ with
          | none => exact Or.inl ⟨rfl, rfl⟩
          | some o => exact Or.inr ⟨_, a', rfl, rfl, e3⟩

end dec

/-- Block cipher calls in one round of FF1. -/
def ff1Calls (ctx : FpeCtx) (lg : Nat → Nat → Nat) (n : Nat) : Nat :=
  1 + (ctx.tweak.length + ff1Pad ctx.tweak.length (ff1B lg ctx.radix (n - n / 2)) + 1 + ff1B lg ctx.radix (n - n / 2)) / 16 +
    (ceil2 (ff1D (ff1B lg ctx.radix (n - n / 2))) 4 - 1)

/-- The round function of FF1 decryption with faults. -/
def decF1 (ctx : FpeCtx) (lg : Nat → Nat → Nat) (w : Faults) (ss : Nat → Block) (n i x : Nat) : Option (Nat × Unit) :=
  (ff1RoundYF ctx lg w ss n i x ((9 - i) * ff1Calls ctx lg n, zeroBlock)).map fun y => (y.1, ())

theorem decF1_ok (ctx : FpeCtx) (lg : Nat → Nat → Nat) (hlg : LgOk lg) (w : Faults) (ss : Nat → Block) (n : Nat) (hn : 2 ≤ n)
    (hr : 2 ≤ ctx.radix) :
    FeistelOk n (n / 2) ctx.radix (fun i => ctx.radix ^ halfLen n (n / 2) i) (fun X => str2num X ctx.radix)
      (fun x m => num2str x ctx.radix m) (decF1 ctx lg w ss n) (fun i x => (decF1 ctx lg w ss n i x).getD (0, ())) := by
  obtain ⟨c1, c2, c3, c4, c5⟩ := codec_msb ctx.radix hr
  refine ⟨hr, by omega, by omega, fun _ => rfl, c1, c2, c3, c4, c5, ?_⟩
  intro i x _ hx
  unfold decF1
  rcases ff1RoundYF_any ctx lg w ss n i x ((9 - i) * ff1Calls ctx lg n, zeroBlock) with ⟨_, h⟩ | ⟨y, R, h, _⟩
  · rw [ff1QBytes_some _ _ _ _ (ff1_fits lg hlg _ _ _ _ hr hx)] at h
    cases h
  · rw [h]; rfl

theorem reverse_drop_head (m j i : Nat) (rest : List Nat) (h : i :: rest = (List.range m).reverse.drop j) :
    j < m ∧ i = m - 1 - j ∧ rest = (List.range m).reverse.drop (j + 1) := by
  have hj : j < m := by
    have := congrArg List.length h
    simp at this
    omega
  rw [List.drop_eq_getElem_cons (by simpa using hj)] at h
  obtain ⟨h1, h2⟩ := List.cons.inj h
  refine ⟨hj, ?_, h2⟩
  rw [h1]
  simp

/-- Undoing rounds is a permutation of the texts of one length. -/
theorem undo_bij {n u r : Nat} {q : Nat → Nat} {num : List Nat → Nat} {str : Nat → Nat → List Nat}
    {F : Nat → Nat → Option (Nat × Unit)} {f : Nat → Nat → Nat × Unit} (ok : FeistelOk n u r q num str F f) (hr : r ≤ 36) (k : Nat)
    (hk : k ≤ 10) (h2 : k % 2 = 0) :
    Set.BijOn (fun s : List Byte => (fundo n u q num str f k (vals s)).map numeralChar)
      {s | s.length = n ∧ ∀ c ∈ s, IsNumeral r c} {s | s.length = n ∧ ∀ c ∈ s, IsNumeral r c} := by
  refine ⟨?_, ?_, ?_⟩
  · rintro s ⟨hsl, hs⟩
    obtain ⟨h1, h2⟩ := fundo_ok ok k h2 _ ((length_vals s).trans hsl) (vals_lt s hs)
    exact ⟨by rw [List.length_map]; exact h1, chars_numeral hr _ h2⟩
  · rintro s ⟨hsl, hs⟩ s' ⟨hsl', hs'⟩ h
    have hl : (vals s).length = n := by rw [length_vals, hsl]
    have hl' : (vals s').length = n := by rw [length_vals, hsl']
    obtain ⟨_, g⟩ := fundo_ok ok k h2 _ hl (vals_lt s hs)
    obtain ⟨_, g'⟩ := fundo_ok ok k h2 _ hl' (vals_lt s' hs')
    have h3 := congrArg vals h
    simp only at h3
    rw [vals_chars _ fun d hd => Nat.lt_of_lt_of_le (g d hd) hr, vals_chars _ fun d hd => Nat.lt_of_lt_of_le (g' d hd) hr] at h3
    have h4 := (fenc_fundo ok k h2 _ hl (vals_lt s hs)).symm.trans ((congrArg _ h3).trans (fenc_fundo ok k h2 _ hl' (vals_lt s' hs')))
    rw [← chars_vals s hs, ← chars_vals s' hs', h4]
  · rintro s ⟨hsl, hs⟩
    have hl : (vals s).length = n := by rw [length_vals, hsl]
    obtain ⟨g1, g2⟩ := fenc_ok ok k _ hl (vals_lt s hs)
    refine ⟨(fenc n u q num str f k (vals s)).map numeralChar, ⟨by rw [List.length_map]; exact g1, chars_numeral hr _ g2⟩, ?_⟩
    simp only
    rw [vals_chars _ fun d hd => Nat.lt_of_lt_of_le (g2 d hd) hr, fundo_fenc ok k hk h2 _ hl (vals_lt s hs), chars_vals s hs]

/-- C141, FF1 decryption with a block cipher that misbehaves in any way: the function returns 1 and keeps the format, and it is a
permutation of the texts of each length: no two texts are decrypted to the same text. -/
theorem C141_ff1_decrypt (ctx : FpeCtx) (tweak : List Byte) (radix : Nat) (E : Block → Block)
    (hc : fpeInit tweak radix E = some ctx) (lg : Nat → Nat → Nat) (hlg : LgOk lg) (w : Faults) (ss : Nat → Block) (n : Nat)
    (hn : 2 ≤ n) (hT : QOk lg tweak radix n) :
    ∃ D : List Byte → List Byte,
      (∀ s rest out, s.length = n → (∀ c ∈ s, IsNumeral radix c) → n < out.length →
        ff1DecryptF ctx lg w ss (s ++ 0 :: rest) out = some (1, D s ++ 0 :: out.drop (n + 1))) ∧
      Set.BijOn D {s | s.length = n ∧ ∀ c ∈ s, IsNumeral radix c} {s | s.length = n ∧ ∀ c ∈ s, IsNumeral radix c} := by
  unfold fpeInit at hc
  split at hc
  · cases hc
  rename_i hrr
  injection hc with hc
  subst hc
  have hr : 2 ≤ radix := by omega
  have hr36 : radix ≤ 36 := by omega
  have ok := decF1_ok ⟨E, radix, tweak⟩ lg hlg w ss n hn hr
  refine ⟨fun s => (fundo n (n / 2) (fun i => radix ^ halfLen n (n / 2) i) (fun X => str2num X radix) (fun x m => num2str x radix m)
    (fun i x => (decF1 ⟨E, radix, tweak⟩ lg w ss n i x).getD (0, ())) 10 (vals s)).map numeralChar, ?_, ?_⟩
  · rintro s rest out rfl hs ho
    have hl := length_vals s
    have hv := vals_lt s hs
    unfold ff1DecryptF
    rw [cstr_append s rest (fun c hc => numeral_ne_zero c (hs c hc))]
    simp only [Option.bind_some, ff1Assert_ok lg tweak radix s.length hT]
    obtain ⟨a, e⟩ := engine_undo ok (fun (_ : Unit) _ => ()) 10 (by decide) rfl _ hl hv ()
    rw [bind_fst _ fun t : FpeSt => (invMapChars t.out out).map fun o => (1, o),
      ff1DecF_rel ⟨E, radix, tweak⟩ lg w ss s.length (decF1 ⟨E, radix, tweak⟩ lg w ss s.length)
        (fun l k => ∃ j, l = (List.range 10).reverse.drop j ∧ k = j * ff1Calls ⟨E, radix, tweak⟩ lg s.length)
        (fun i rest k x hk => by
          obtain ⟨j, hj, rfl⟩ := hk
          obtain ⟨hj10, hi, hrest⟩ := reverse_drop_head 10 j i rest hj
          have e9 : 9 - i = j := by omega
          unfold decF1
          rw [e9]
          rcases ff1RoundYF_any ⟨E, radix, tweak⟩ lg w ss s.length i x (j * ff1Calls ⟨E, radix, tweak⟩ lg s.length, zeroBlock) with
            ⟨h, _⟩ | ⟨y, R, h, _⟩
          · rw [h]; exact Or.inl ⟨rfl, rfl⟩
          · rw [h]
            refine Or.inr ⟨_, _, (), rfl, rfl, j + 1, hrest, ?_⟩
            rw [Nat.add_mul, Nat.one_mul]
            unfold ff1Calls
            simp only
            omega) (List.range 10).reverse _ (0, zeroBlock) ⟨0, rfl, by simp⟩,
      foldlM_drop_unit _ _ (fun _ _ => rfl), map_mapChar s hs, floor2_eq, e]
    simp only [Option.map_some, Option.bind_some, fpeStart]
    have h1 := (fundo_ok ok 10 rfl _ hl hv).1
    rw [invMapChars_eq _ _ (by rw [h1]; exact ho), h1]
    rfl
  · exact undo_bij ok hr36 10 (by decide) rfl

/-- The round function of FF3 decryption with faults. -/
def decF3 (ctx : FpeCtx) (lg : Nat → Nat → Nat) (w : Faults) (n i x : Nat) : Option (Nat × Unit) :=
  (ff3RoundSF ctx lg w n i x (7 - i, zeroBlock)).map fun S => (bin2bn S.2.toList, ())

theorem decF3_ok (ctx : FpeCtx) (lg : Nat → Nat → Nat) (hlg : LgOk lg) (w : Faults) (n : Nat) (hn : 1 ≤ n) (hr : 2 ≤ ctx.radix)
    (ht : 8 ≤ ctx.tweak.length) :
    FeistelOk n ((n + 1) / 2) ctx.radix (fun i => ctx.radix ^ halfLen n ((n + 1) / 2) i)
      (fun X => str2numRev X ctx.radix) (fun x m => num2strRev x ctx.radix m) (decF3 ctx lg w n)
      (fun i x => (decF3 ctx lg w n i x).getD (0, ())) := by
  obtain ⟨c1, c2, c3, c4, c5⟩ := codec_lsb ctx.radix hr
  refine ⟨hr, by omega, by omega, fun _ => rfl, c1, c2, c3, c4, c5, ?_⟩
  intro i x _ hx
  obtain ⟨S, hS⟩ := ff3RoundS_some ctx lg hlg n i x hr ht hx
  unfold ff3RoundS at hS
  unfold decF3 ff3RoundSF
  simp only at hS ⊢
  cases hp : ff3PBytes ctx.tweak (ceil2 (lg ctx.radix (ceil2 n 1)) 3) i x with
  | none => rw [hp] at hS; cases hS
  | some P => rfl

/-- C141, FF3 decryption. -/
theorem C141_ff3_decrypt (ctx : FpeCtx) (tweak : List Byte) (radix : Nat) (E : Block → Block)
    (hc : fpeInit tweak radix E = some ctx) (ht : 8 ≤ tweak.length) (lg : Nat → Nat → Nat) (hlg : LgOk lg) (w : Faults) (n : Nat)
    (hn : 1 ≤ n) :
    ∃ D : List Byte → List Byte,
      (∀ s rest out, s.length = n → (∀ c ∈ s, IsNumeral radix c) → n < out.length →
        ff3DecryptF ctx lg w (s ++ 0 :: rest) out = some (1, D s ++ 0 :: out.drop (n + 1))) ∧
      Set.BijOn D {s | s.length = n ∧ ∀ c ∈ s, IsNumeral radix c} {s | s.length = n ∧ ∀ c ∈ s, IsNumeral radix c} := by
  unfold fpeInit at hc
  split at hc
  · cases hc
  rename_i hrr
  injection hc with hc
  subst hc
  have hr : 2 ≤ radix := by omega
  have hr36 : radix ≤ 36 := by omega
  have ok := decF3_ok ⟨E, radix, tweak⟩ lg hlg w n hn hr ht
  refine ⟨_, ?_, undo_bij ok hr36 8 (by decide) rfl⟩
  rintro s rest out rfl hs ho
  have hl := length_vals s
  have hv := vals_lt s hs
  unfold ff3DecryptF
  rw [cstr_append s rest (fun c hc => numeral_ne_zero c (hs c hc))]
  simp only [Option.bind_some]
  obtain ⟨a, e⟩ := engine_undo ok (fun (_ : Unit) _ => ()) 8 (by decide) rfl _ hl hv ()
  rw [bind_fst _ fun t : FpeSt => (invMapChars t.out out).map fun o => (1, o),
    ff3DecF_rel ⟨E, radix, tweak⟩ lg w s.length (decF3 ⟨E, radix, tweak⟩ lg w s.length)
      (fun l k => l = (List.range 8).reverse.drop k)
      (fun i rest k x hk => by
        obtain ⟨hj8, hi, hrest⟩ := reverse_drop_head 8 k i rest hk
        have e7 : 7 - i = k := by omega
        unfold decF3
        rw [e7]
        unfold ff3RoundSF
        simp only
        cases ff3PBytes tweak (ceil2 (lg radix (ceil2 s.length 1)) 3) i x with
        | none => exact Or.inl ⟨rfl, rfl⟩
        | some P => exact Or.inr ⟨_, (), rfl, rfl, hrest⟩) (List.range 8).reverse _ (0, zeroBlock) rfl,
    foldlM_drop_unit _ _ (fun _ _ => rfl), map_mapChar s hs, ceil2_one, e]
  simp only [Option.map_some, Option.bind_some, fpeStart]
  have h1 := (fundo_ok ok 8 rfl _ hl hv).1
  rw [invMapChars_eq _ _ (by rw [h1]; exact ho), h1]
  rfl

/-! ### encryption can lose information -/

/-- The calls with numbers in `bad` fail and leave their buffer alone; the others work. -/
def failAt (bad : List Nat) : Faults := fun k _ old => if k ∈ bad then some old else none

theorem foldlM_split {S : Type} (g : S → Nat → Option S) (l l' : List Nat) (s t : S) (h : l.foldlM g s = l.foldlM g t) :
    (l ++ l').foldlM g s = (l ++ l').foldlM g t := by
  rw [List.foldlM_append, List.foldlM_append, h]

theorem cstr_two (a b : Byte) (ha : a ≠ 0) (hb : b ≠ 0) : cstr [a, b, 0] = some [a, b] := cstr_append [a, b] [] (by
  intro c hc
  rcases List.mem_cons.mp hc with rfl | hc
  · exact ha
  · rw [List.mem_singleton.mp hc]; exact hb)

theorem ff3_run00 : (List.range 3).foldlM (ff3EncryptRoundF ⟨revBytes, 10, List.replicate 8 0⟩ (fun _ _ => 4) (failAt [1]) 2)
      (⟨[0, 0], 0, 1⟩, (0, #v[0, 0, 0, 0, 0, 0, 0, 0, 0, 0, 0, 0, 0, 0, 0, 0])) =
    some (⟨[2, 0], 1, 0⟩, (3, #v[0, 0, 0, 0, 0, 0, 0, 0, 0, 0, 0, 0, 2, 0, 0, 0])) := by
  have h0 : ff3EncryptRoundF ⟨revBytes, 10, List.replicate 8 0⟩ (fun _ _ => 4) (failAt [1]) 2
      (⟨[0, 0], 0, 1⟩, (0, #v[0, 0, 0, 0, 0, 0, 0, 0, 0, 0, 0, 0, 0, 0, 0, 0])) 0 = some (⟨[0, 0], 1, 0⟩, (1, #v[0, 0, 0, 0, 0, 0, 0, 0, 0, 0, 0, 0, 0, 0, 0, 0])) := by decide +kernel
  have h1 : ff3EncryptRoundF ⟨revBytes, 10, List.replicate 8 0⟩ (fun _ _ => 4) (failAt [1]) 2
      (⟨[0, 0], 1, 0⟩, (1, #v[0, 0, 0, 0, 0, 0, 0, 0, 0, 0, 0, 0, 0, 0, 0, 0])) 1 = some (⟨[0, 0], 0, 1⟩, (2, #v[0, 0, 0, 0, 0, 0, 0, 0, 0, 0, 0, 0, 0, 0, 0, 0])) := by decide +kernel
  have h2 : ff3EncryptRoundF ⟨revBytes, 10, List.replicate 8 0⟩ (fun _ _ => 4) (failAt [1]) 2
      (⟨[0, 0], 0, 1⟩, (2, #v[0, 0, 0, 0, 0, 0, 0, 0, 0, 0, 0, 0, 0, 0, 0, 0])) 2 = some (⟨[2, 0], 1, 0⟩, (3, #v[0, 0, 0, 0, 0, 0, 0, 0, 0, 0, 0, 0, 2, 0, 0, 0])) := by decide +kernel
  rw [show List.range 3 = [0, 1, 2] from rfl, List.foldlM_cons, h0, Option.bind_eq_bind, Option.bind_some,
    List.foldlM_cons, h1, Option.bind_eq_bind, Option.bind_some, List.foldlM_cons, h2]
  rfl

theorem ff3_run05 : (List.range 3).foldlM (ff3EncryptRoundF ⟨revBytes, 10, List.replicate 8 0⟩ (fun _ _ => 4) (failAt [1]) 2)
      (⟨[0, 5], 0, 1⟩, (0, #v[0, 0, 0, 0, 0, 0, 0, 0, 0, 0, 0, 0, 0, 0, 0, 0])) =
    some (⟨[2, 0], 1, 0⟩, (3, #v[0, 0, 0, 0, 0, 0, 0, 0, 0, 0, 0, 0, 2, 0, 0, 0])) := by
  have h0 : ff3EncryptRoundF ⟨revBytes, 10, List.replicate 8 0⟩ (fun _ _ => 4) (failAt [1]) 2
      (⟨[0, 5], 0, 1⟩, (0, #v[0, 0, 0, 0, 0, 0, 0, 0, 0, 0, 0, 0, 0, 0, 0, 0])) 0 = some (⟨[0, 5], 1, 0⟩, (1, #v[5, 0, 0, 0, 0, 0, 0, 0, 0, 0, 0, 0, 0, 0, 0, 0])) := by decide +kernel
  have h1 : ff3EncryptRoundF ⟨revBytes, 10, List.replicate 8 0⟩ (fun _ _ => 4) (failAt [1]) 2
      (⟨[0, 5], 1, 0⟩, (1, #v[5, 0, 0, 0, 0, 0, 0, 0, 0, 0, 0, 0, 0, 0, 0, 0])) 1 = some (⟨[0, 0], 0, 1⟩, (2, #v[0, 0, 0, 0, 0, 0, 0, 0, 0, 0, 0, 0, 0, 0, 0, 5])) := by decide +kernel
  have h2 : ff3EncryptRoundF ⟨revBytes, 10, List.replicate 8 0⟩ (fun _ _ => 4) (failAt [1]) 2
      (⟨[0, 0], 0, 1⟩, (2, #v[0, 0, 0, 0, 0, 0, 0, 0, 0, 0, 0, 0, 0, 0, 0, 5])) 2 = some (⟨[2, 0], 1, 0⟩, (3, #v[0, 0, 0, 0, 0, 0, 0, 0, 0, 0, 0, 0, 2, 0, 0, 0])) := by decide +kernel
  rw [show List.range 3 = [0, 1, 2] from rfl, List.foldlM_cons, h0, Option.bind_eq_bind, Option.bind_some,
    List.foldlM_cons, h1, Option.bind_eq_bind, Option.bind_some, List.foldlM_cons, h2]
  rfl

theorem ff1_run00 : (List.range 3).foldlM (ff1EncryptRoundF ⟨revBytes, 15, List.replicate 8 0⟩ (fun _ _ => 4) (failAt [2, 3]) (fun _ => zeroBlock) 2)
      (⟨[0, 0], 0, 1⟩, (0, #v[0, 0, 0, 0, 0, 0, 0, 0, 0, 0, 0, 0, 0, 0, 0, 0])) =
    some (⟨[13, 0], 1, 0⟩, (6, #v[1, 0, 1, 0, 0, 15, 10, 1, 0, 0, 0, 2, 0, 0, 0, 8])) := by
  have h0 : ff1EncryptRoundF ⟨revBytes, 15, List.replicate 8 0⟩ (fun _ _ => 4) (failAt [2, 3]) (fun _ => zeroBlock) 2
      (⟨[0, 0], 0, 1⟩, (0, #v[0, 0, 0, 0, 0, 0, 0, 0, 0, 0, 0, 0, 0, 0, 0, 0])) 0 = some (⟨[0, 0], 1, 0⟩, (2, #v[1, 2, 1, 0, 0, 15, 10, 1, 0, 0, 0, 2, 0, 0, 0, 8])) := by decide +kernel
  have h1 : ff1EncryptRoundF ⟨revBytes, 15, List.replicate 8 0⟩ (fun _ _ => 4) (failAt [2, 3]) (fun _ => zeroBlock) 2
      (⟨[0, 0], 1, 0⟩, (2, #v[1, 2, 1, 0, 0, 15, 10, 1, 0, 0, 0, 2, 0, 0, 0, 8])) 1 = some (⟨[0, 0], 0, 1⟩, (4, #v[1, 2, 1, 0, 0, 15, 10, 1, 0, 0, 0, 2, 0, 0, 0, 8])) := by decide +kernel
  have h2 : ff1EncryptRoundF ⟨revBytes, 15, List.replicate 8 0⟩ (fun _ _ => 4) (failAt [2, 3]) (fun _ => zeroBlock) 2
      (⟨[0, 0], 0, 1⟩, (4, #v[1, 2, 1, 0, 0, 15, 10, 1, 0, 0, 0, 2, 0, 0, 0, 8])) 2 = some (⟨[13, 0], 1, 0⟩, (6, #v[1, 0, 1, 0, 0, 15, 10, 1, 0, 0, 0, 2, 0, 0, 0, 8])) := by decide +kernel
  rw [show List.range 3 = [0, 1, 2] from rfl, List.foldlM_cons, h0, Option.bind_eq_bind, Option.bind_some,
    List.foldlM_cons, h1, Option.bind_eq_bind, Option.bind_some, List.foldlM_cons, h2]
  rfl

theorem ff1_run11 : (List.range 3).foldlM (ff1EncryptRoundF ⟨revBytes, 15, List.replicate 8 0⟩ (fun _ _ => 4) (failAt [2, 3]) (fun _ => zeroBlock) 2)
      (⟨[1, 1], 0, 1⟩, (0, #v[0, 0, 0, 0, 0, 0, 0, 0, 0, 0, 0, 0, 0, 0, 0, 0])) =
    some (⟨[13, 0], 1, 0⟩, (6, #v[1, 0, 1, 0, 0, 15, 10, 1, 0, 0, 0, 2, 0, 0, 0, 8])) := by
  have h0 : ff1EncryptRoundF ⟨revBytes, 15, List.replicate 8 0⟩ (fun _ _ => 4) (failAt [2, 3]) (fun _ => zeroBlock) 2
      (⟨[1, 1], 0, 1⟩, (0, #v[0, 0, 0, 0, 0, 0, 0, 0, 0, 0, 0, 0, 0, 0, 0, 0])) 0 = some (⟨[0, 1], 1, 0⟩, (2, #v[0, 2, 1, 0, 0, 15, 10, 1, 0, 0, 0, 2, 0, 0, 0, 8])) := by decide +kernel
  have h1 : ff1EncryptRoundF ⟨revBytes, 15, List.replicate 8 0⟩ (fun _ _ => 4) (failAt [2, 3]) (fun _ => zeroBlock) 2
      (⟨[0, 1], 1, 0⟩, (2, #v[0, 2, 1, 0, 0, 15, 10, 1, 0, 0, 0, 2, 0, 0, 0, 8])) 1 = some (⟨[0, 0], 0, 1⟩, (4, #v[0, 2, 1, 0, 0, 15, 10, 1, 0, 0, 0, 2, 0, 0, 0, 8])) := by decide +kernel
  have h2 : ff1EncryptRoundF ⟨revBytes, 15, List.replicate 8 0⟩ (fun _ _ => 4) (failAt [2, 3]) (fun _ => zeroBlock) 2
      (⟨[0, 0], 0, 1⟩, (4, #v[0, 2, 1, 0, 0, 15, 10, 1, 0, 0, 0, 2, 0, 0, 0, 8])) 2 = some (⟨[13, 0], 1, 0⟩, (6, #v[1, 0, 1, 0, 0, 15, 10, 1, 0, 0, 0, 2, 0, 0, 0, 8])) := by decide +kernel
  rw [show List.range 3 = [0, 1, 2] from rfl, List.foldlM_cons, h0, Option.bind_eq_bind, Option.bind_some,
    List.foldlM_cons, h1, Option.bind_eq_bind, Option.bind_some, List.foldlM_cons, h2]
  rfl

/-- C141: FF3 encryption in which one call fails can send two texts to one, so that nothing can decrypt: the block cipher that reverses the
order of the bytes, tweak zero, radix 10, second call failing, texts `00` and `05`. The function returns 1 for both. -/
theorem C141_ff3_lossy (lg : Nat → Nat → Nat) (hok : LgOk lg) (hlg : lg 10 1 = 4) :
    (∀ x, revBytes (revBytes x) = x) ∧
    ∃ ct, ff3EncryptF ⟨revBytes, 10, List.replicate 8 0⟩ lg (failAt [1]) zeroBlock [0x30, 0x30, 0] [9, 9, 9] = some (1, ct) ∧
      ff3EncryptF ⟨revBytes, 10, List.replicate 8 0⟩ lg (failAt [1]) zeroBlock [0x30, 0x35, 0] [9, 9, 9] = some (1, ct) := by
  refine ⟨revBytes_revBytes, ?_⟩
  have hS : ff3RoundSF ⟨revBytes, 10, List.replicate 8 0⟩ lg (failAt [1]) 2 =
      ff3RoundSF ⟨revBytes, 10, List.replicate 8 0⟩ (fun _ _ => 4) (failAt [1]) 2 := by
    funext i x a
    unfold ff3RoundSF
    simp only [show ceil2 2 1 = 1 from rfl, hlg]
  have hR : ff3EncryptRoundF ⟨revBytes, 10, List.replicate 8 0⟩ lg (failAt [1]) 2 =
      ff3EncryptRoundF ⟨revBytes, 10, List.replicate 8 0⟩ (fun _ _ => 4) (failAt [1]) 2 := by
    funext t i
    unfold ff3EncryptRoundF
    rw [hS]
  obtain ⟨ct, h, _⟩ := C141_ff3_encrypt _ _ 10 revBytes (fpeInit_small revBytes 10 (by decide) (by decide) (List.replicate 8 0)) (by simp) lg hok
    (failAt [1]) zeroBlock [0x30, 0x30] [] [9, 9, 9] (by intro c hc; unfold IsNumeral; revert c; decide) (by decide) (by decide)
  refine ⟨_, h, ?_⟩
  rw [← h]
  show ff3EncryptF _ _ _ _ [0x30, 0x35, 0] _ = ff3EncryptF _ _ _ _ [0x30, 0x30, 0] _
  unfold ff3EncryptF
  rewrite [cstr_two _ _ (by decide) (by decide), cstr_two _ _ (by decide) (by decide), Option.bind_some, Option.bind_some]
  simp only [List.length_cons, List.length_nil, Nat.zero_add, Nat.reduceAdd]
  rewrite [hR, show List.range 8 = List.range 3 ++ [3, 4, 5, 6, 7] from rfl]
  have e1 : (fpeStart (List.map mapChar [0x30, 0x35]) (ceil2 2 1), ((0 : Nat), (zeroBlock : Block))) =
      (⟨[0, 5], 0, 1⟩, (0, #v[0, 0, 0, 0, 0, 0, 0, 0, 0, 0, 0, 0, 0, 0, 0, 0])) := by decide +kernel
  have e2 : (fpeStart (List.map mapChar [0x30, 0x30]) (ceil2 2 1), ((0 : Nat), (zeroBlock : Block))) =
      (⟨[0, 0], 0, 1⟩, (0, #v[0, 0, 0, 0, 0, 0, 0, 0, 0, 0, 0, 0, 0, 0, 0, 0])) := by decide +kernel
  rewrite [e1, e2, foldlM_split _ _ _ _ _ (ff3_run05.trans ff3_run00.symm)]
  rfl

/-- C141: the same for FF1, radix 15, both calls of the second round failing, texts `00` and `11`. -/
theorem C141_ff1_lossy (lg : Nat → Nat → Nat) (hok : LgOk lg) (hlg : lg 15 1 = 4) (ss : Nat → Block) :
    ∃ ct, ff1EncryptF ⟨revBytes, 15, List.replicate 8 0⟩ lg (failAt [2, 3]) ss zeroBlock [0x30, 0x30, 0] [9, 9, 9] = some (1, ct) ∧
      ff1EncryptF ⟨revBytes, 15, List.replicate 8 0⟩ lg (failAt [2, 3]) ss zeroBlock [0x31, 0x31, 0] [9, 9, 9] = some (1, ct) := by
  have hS : ff1RoundYF ⟨revBytes, 15, List.replicate 8 0⟩ lg (failAt [2, 3]) ss 2 =
      ff1RoundYF ⟨revBytes, 15, List.replicate 8 0⟩ (fun _ _ => 4) (failAt [2, 3]) (fun _ => zeroBlock) 2 := by
    funext i x a
    unfold ff1RoundYF
    simp only [show floor2 2 1 = 1 from rfl, show 2 - 1 = 1 from rfl, show ff1B lg 15 1 = ff1B (fun _ _ => 4) 15 1 by unfold ff1B; rw [hlg],
      show ceil2 (ff1D (ff1B (fun _ _ => 4) 15 1)) 4 - 1 = 0 from rfl, ff1SLoopF]
  have hR : ff1EncryptRoundF ⟨revBytes, 15, List.replicate 8 0⟩ lg (failAt [2, 3]) ss 2 =
      ff1EncryptRoundF ⟨revBytes, 15, List.replicate 8 0⟩ (fun _ _ => 4) (failAt [2, 3]) (fun _ => zeroBlock) 2 := by
    funext t i
    unfold ff1EncryptRoundF
    rw [hS]
  obtain ⟨ct, h, _⟩ := C141_ff1_encrypt _ _ 15 revBytes (fpeInit_small revBytes 15 (by decide) (by decide) (List.replicate 8 0)) lg hok
    (failAt [2, 3]) ss zeroBlock [0x30, 0x30] [] [9, 9, 9] (by intro c hc; unfold IsNumeral; revert c; decide) (by decide)
    (Or.inl (by simp)) (by decide)
  refine ⟨_, h, ?_⟩
  rw [← h]
  show ff1EncryptF _ _ _ _ _ [0x31, 0x31, 0] _ = ff1EncryptF _ _ _ _ _ [0x30, 0x30, 0] _
  unfold ff1EncryptF
  rewrite [cstr_two _ _ (by decide) (by decide), cstr_two _ _ (by decide) (by decide), Option.bind_some, Option.bind_some]
  simp only [List.length_cons, List.length_nil, Nat.zero_add, Nat.reduceAdd]
  rewrite [hR, show List.range 10 = List.range 3 ++ [3, 4, 5, 6, 7, 8, 9] from rfl]
  have e1 : (fpeStart (List.map mapChar [0x31, 0x31]) (floor2 2 1), ((0 : Nat), (zeroBlock : Block))) =
      (⟨[1, 1], 0, 1⟩, (0, #v[0, 0, 0, 0, 0, 0, 0, 0, 0, 0, 0, 0, 0, 0, 0, 0])) := by decide +kernel
  have e2 : (fpeStart (List.map mapChar [0x30, 0x30]) (floor2 2 1), ((0 : Nat), (zeroBlock : Block))) =
      (⟨[0, 0], 0, 1⟩, (0, #v[0, 0, 0, 0, 0, 0, 0, 0, 0, 0, 0, 0, 0, 0, 0, 0])) := by decide +kernel
  rewrite [e1, e2, foldlM_split _ _ _ _ _ (ff1_run11.trans ff1_run00.symm)]
  rfl

/-! ### the applications -/

theorem any_engine (enc : Bool) (app : FpeApp) (lg : Nat → Nat → Nat) (hlg : LgOk lg) (w : Faults) (ss : Nat → Block) (R0 : Block)
    (radix : Nat) (hr : 2 ≤ radix) (hr' : radix ≤ 36) (E : Block → Block) (tweak s : List Byte)
    (hk : EngineOk app.ffx tweak.length s.length) (hs : ∀ c ∈ s, IsNumeral radix c) (rest out : List Byte) (ho : s.length < out.length) :
    ∃ r, (if enc then encFnF app lg w ss R0 else decFnF app lg w ss) ⟨E, radix, tweak⟩ (s ++ 0 :: rest) out =
      some (r ++ 0 :: out.drop (s.length + 1)) ∧ r.length = s.length ∧ ∀ c ∈ r, IsNumeral radix c := by
  have hc := fpeInit_small E radix hr hr' tweak
  unfold EngineOk at hk
  unfold encFnF decFnF
  revert hk
  cases app.ffx
  · intro hk
    have hT : QOk lg tweak radix s.length := Or.inl (fun h => by rw [h] at hk; simp at hk)
    cases enc
    · obtain ⟨D, h1, h2⟩ := C141_ff1_decrypt _ tweak radix E hc lg hlg w ss s.length hk.1 hT
      obtain ⟨h3, h4⟩ := h2.1 ⟨rfl, hs⟩
      refine ⟨D s, ?_, h3, h4⟩
      show (ff1DecryptF ⟨E, radix, tweak⟩ lg w ss (s ++ 0 :: rest) out).map Prod.snd = _
      rw [h1 s rest out rfl hs ho]
      rfl
    · obtain ⟨ct, h1, h2, h3⟩ := C141_ff1_encrypt _ tweak radix E hc lg hlg w ss R0 s rest out hs hk.1 hT ho
      refine ⟨ct, ?_, h2, h3⟩
      show (ff1EncryptF ⟨E, radix, tweak⟩ lg w ss R0 (s ++ 0 :: rest) out).map Prod.snd = _
      rw [h1]
      rfl
  · intro hk
    cases enc
    · obtain ⟨D, h1, h2⟩ := C141_ff3_decrypt _ tweak radix E hc hk.2 lg hlg w s.length hk.1
      obtain ⟨h3, h4⟩ := h2.1 ⟨rfl, hs⟩
      refine ⟨D s, ?_, h3, h4⟩
      show (ff3DecryptF ⟨E, radix, tweak⟩ lg w (s ++ 0 :: rest) out).map Prod.snd = _
      rw [h1 s rest out rfl hs ho]
      rfl
    · obtain ⟨ct, h1, h2, h3⟩ := C141_ff3_encrypt _ tweak radix E hc hk.2 lg hlg w R0 s rest out hs hk.1 ho
      refine ⟨ct, ?_, h2, h3⟩
      show (ff3EncryptF ⟨E, radix, tweak⟩ lg w R0 (s ++ 0 :: rest) out).map Prod.snd = _
      rw [h1]
      rfl

/-- C141: whatever the block cipher does, phone number encryption (`enc`) and decryption write the visible characters unchanged and a
digit for every hidden one, and report success. -/
theorem C141_phone (enc : Bool) (app : FpeApp) (lg : Nat → Nat → Nat) (hlg : LgOk lg) (w : Faults)
    (ss : Nat → Block) (R0 : Block) (phone smp : List Byte)
    (hp : ∀ c ∈ phone, c ≠ 0) (h0 : ∀ c ∈ smp, c ≠ 0) (hs : smp = [] ∨ phone.length ≤ smp.length)
    (hd : ∀ i (hi : i < phone.length), Hidden smp i → IsNumeral 10 phone[i]) (hk : HiddenOk app.ffx smp phone.length)
    (mem : AppMem) (rest more after : List Byte) (hm : 1 ≤ mem.slack) (ha : phone.length ≤ after.length) :
    ∃ r, (if enc then encryptPhoneF app lg w ss R0 mem (phone ++ 0 :: rest) (smp ++ 0 :: more) after
        else decryptPhoneF app lg w ss mem (phone ++ 0 :: rest) (smp ++ 0 :: more) after) =
      some (withHidden smp phone r ++ after.drop phone.length) ∧ r.length = hiddenCount smp phone.length ∧ ∀ c ∈ r, IsNumeral 10 c := by
  have hl := maskOf_length smp phone.length hs
  have hcf := length_pick false _ phone hl
  obtain ⟨r, h1, h2, h3⟩ := any_engine enc app lg hlg w ss R0 10 (by decide) (by decide) app.E _ _
    (engineOk_of app.ffx _ phone hl (maskOk_of _ _ _ hs hk)) (pick_hidden smp phone hs _ hd) []
    (vla mem.ans ((maskOf smp phone.length).count false + mem.slack)) (by rw [length_vla, hcf]; omega)
  refine ⟨r, ?_, h2.trans (hcf.trans (maskOf_count _ _)), h3⟩
  have := auxPhone_some app mem phone rest smp more after hp h0 hs ha _ r _ (h2.trans hcf) h1
  cases enc
  · exact this
  · exact this

/-- C141: identity cards; a final `X` is kept. -/
theorem C141_idcard (enc : Bool) (app : FpeApp) (lg : Nat → Nat → Nat) (hlg : LgOk lg) (w : Faults)
    (ss : Nat → Block) (R0 : Block) (body tail smp : List Byte) (hform : CardForm body tail)
    (hp : ∀ c ∈ body, c ≠ 0) (h0 : ∀ c ∈ smp, c ≠ 0) (hs : smp = [] ∨ body.length ≤ smp.length)
    (hd : ∀ i (hi : i < body.length), Hidden smp i → IsNumeral 10 body[i]) (hk : HiddenOk app.ffx smp body.length)
    (mem : AppMem) (rest more after : List Byte) (hm : 1 ≤ mem.slack) (ha : (body ++ tail).length ≤ after.length) :
    ∃ r, (if enc then encryptIdcardF app lg w ss R0 mem (body ++ tail ++ 0 :: rest) (smp ++ 0 :: more) after
        else decryptIdcardF app lg w ss mem (body ++ tail ++ 0 :: rest) (smp ++ 0 :: more) after) =
      some (withHidden smp body r ++ tail ++ after.drop (body ++ tail).length) ∧ r.length = hiddenCount smp body.length ∧
      ∀ c ∈ r, IsNumeral 10 c := by
  have hl := maskOf_length smp body.length hs
  have hcf := length_pick false _ body hl
  obtain ⟨r, h1, h2, h3⟩ := any_engine enc app lg hlg w ss R0 10 (by decide) (by decide) app.E _ _
    (engineOk_of app.ffx _ body hl (maskOk_of _ _ _ hs hk)) (pick_hidden smp body hs _ hd) []
    (vla mem.ans ((maskOf smp body.length).count false + mem.slack)) (by rw [length_vla, hcf]; omega)
  refine ⟨r, ?_, h2.trans (hcf.trans (maskOf_count _ _)), h3⟩
  have := auxIdcard_some app mem body tail rest smp more after hform hp h0 hs ha _ r _ (h2.trans hcf) h1
  cases enc
  · exact this
  · exact this

/-- C141: Chinese text stays in its range of characters. -/
theorem C141_cn (enc : Bool) (app : FpeApp) (lg : Nat → Nat → Nat) (hlg : LgOk lg) (w : Faults)
    (ss : Nat → Block) (R0 : Block) (cps : List Nat) (smp : List Byte)
    (mask : List Bool) (hr : ∀ cp ∈ cps, InCnRange cp) (hm : CnSample smp mask cps.length) (hk : CnOk app.ffx mask)
    (mem : AppMem) (rest more after : List Byte) (hsl : 1 ≤ mem.slack) (ha : 3 * cps.length ≤ after.length) :
    ∃ r, (if enc then encryptCnF app lg w ss R0 mem (utf8Text cps ++ 0 :: rest) (smp ++ 0 :: more) after
        else decryptCnF app lg w ss mem (utf8Text cps ++ 0 :: rest) (smp ++ 0 :: more) after) =
      some (utf8Text (fill mask cps r) ++ after.drop (3 * cps.length)) ∧ r.length = mask.count false ∧ ∀ cp ∈ r, InCnRange cp := by
  have hl := hm.length
  have hlf := length_pick false mask cps hl
  have hdl : (duoText (pick false mask cps)).length = 4 * mask.count false := by rw [length_duoText, hlf]
  obtain ⟨t, h1, h2, h3⟩ := any_engine enc app lg hlg w ss R0 12 (by decide) (by decide) app.E _ _
    (cn_engineOk app.ffx mask cps hl hk) (duoText_numeral _) []
    (vla mem.ans (4 * mask.count false + mem.slack)) (by rw [length_vla, hdl]; omega)
  obtain ⟨r, g1, g2, g3⟩ := duoText_surj (mask.count false) t (h2.trans hdl) h3
  refine ⟨r, ?_, g1, g2⟩
  rw [← g3] at h1
  have := cn_some app mem cps _ smp rest more after mask hr hm ha _ _ g1 g2 h1
  cases enc
  · exact this
  · exact this

/-! ### the hypotheses can be met -/

/-- A cipher that fails now and then, and writes what it likes. -/
example : (fun k x _ => if k = 3 then some (x ^^^ Vector.replicate 16 7) else none : Faults) 3 zeroBlock zeroBlock ≠ none ∧
    HiddenOk .ff3 [0x2a, 0x2a, 0x2a, 0x31, 0x31, 0x31, 0x31, 0x31, 0x31, 0x31, 0x31] 11 := by
  refine ⟨by simp, by unfold HiddenOk hiddenCount; decide⟩

end Verif.Props
