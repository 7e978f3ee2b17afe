import Verif.Model.FpeMacFail
import Verif.Props.FpeFail
import Verif.Props.FpeMac

/-! Property C136: FF1-CMAC and FF3-GMAC with a block cipher that reports failure. -/
set_option autoImplicit false

namespace Verif.Props
open Verif Spec Model

/-! ### two machines side by side -/

theorem foldlM_rel {S S' : Type} (g : S → Nat → Option S) (g' : S' → Nat → Option S') (R : List Nat → S → S' → Prop)
    (h : ∀ i rest s s', R (i :: rest) s s' → (g s i = none ∧ g' s' i = none) ∨
      ∃ t t', g s i = some t ∧ g' s' i = some t' ∧ R rest t t') :
    ∀ (l : List Nat) (s : S) (s' : S'), R l s s' → (l.foldlM g s = none ∧ l.foldlM g' s' = none) ∨
      ∃ t t', l.foldlM g s = some t ∧ l.foldlM g' s' = some t' ∧ R [] t t' := by
  intro l
  induction l with
  | nil => intro s s' hr; exact Or.inr ⟨s, s', rfl, rfl, hr⟩
  | cons i l ih =>
    intro s s' hr
    rw [List.foldlM_cons, List.foldlM_cons]
    rcases h i l s s' hr with ⟨h1, h2⟩ | ⟨t, t', h1, h2, h3⟩
    · rw [h1, h2]; exact Or.inl ⟨rfl, rfl⟩
    · rw [h1, h2]
      exact ih t t' h3

/-- The shape of a round: read one half, compute, read the other half, swap, write. -/
def stepG {Y T : Type} (x : Option (List Nat)) (f : List Nat → Option Y) (z : Option (List Nat)) (s : Option FpeSt)
    (v : FpeSt → Y → List Nat → Option (List Nat)) (g : FpeSt → List Nat → Y → T) : Option T :=
  x.bind fun B => (f B).bind fun y => z.bind fun A => s.bind fun s => (v s y A).bind fun out => some (g s out y)

theorem stepG_rel {Y Y' T T' : Type} (x : Option (List Nat)) (f : List Nat → Option Y) (f' : List Nat → Option Y')
    (z : Option (List Nat)) (s : Option FpeSt) (v : FpeSt → Y → List Nat → Option (List Nat))
    (v' : FpeSt → Y' → List Nat → Option (List Nat)) (g : FpeSt → List Nat → Y → T) (g' : FpeSt → List Nat → Y' → T') (Q : Y → Y' → Prop)
    (h : ∀ B, (f B = none ∧ f' B = none) ∨ ∃ y y', f B = some y ∧ f' B = some y' ∧ (∀ s A, v s y A = v' s y' A) ∧ Q y y') :
    (stepG x f z s v g = none ∧ stepG x f' z s v' g' = none) ∨
      ∃ s' o y y', stepG x f z s v g = some (g s' o y) ∧ stepG x f' z s v' g' = some (g' s' o y') ∧ Q y y' := by
  unfold stepG
  rcases x with _ | B
  · exact Or.inl ⟨rfl, rfl⟩
  simp only [Option.bind_some]
  rcases h B with ⟨h1, h2⟩ | ⟨y, y', h1, h2, h3, h4⟩
  · rw [h1, h2]; exact Or.inl ⟨rfl, rfl⟩
  rw [h1, h2]
  simp only [Option.bind_some]
  rcases z with _ | A
  · exact Or.inl ⟨rfl, rfl⟩
  simp only [Option.bind_some]
  rcases s with _ | s
  · exact Or.inl ⟨rfl, rfl⟩
  simp only [Option.bind_some]
  rw [h3]
  rcases v' s y' A with _ | o
  · exact Or.inl ⟨rfl, rfl⟩
  · exact Or.inr ⟨s, o, y, y', rfl, rfl, h4⟩

section rounds
variable (ctx : FpeCtx) (lg : Nat → Nat → Nat) (w : Faults) (junk mm ss : Nat → Block) (n : Nat)

/-- FF1-CMAC against any machine of the shape of FF1 with the round function `f`. -/
theorem cmacEncF_step {Y T : Type} (t : (FpeSt × Block) × (Nat × Block)) (i : Nat) (f : Nat → Option Y) (yv : Y → Nat)
    (g : FpeSt → List Nat → Y → T) (Q : (Nat × Block) × (Nat × Block) → Y → Prop)
    (h : ∀ x, (cmacRoundYF ctx lg w junk mm ss n i x t.2 = none ∧ f x = none) ∨
      ∃ y y', cmacRoundYF ctx lg w junk mm ss n i x t.2 = some y ∧ f x = some y' ∧ y.1.1 = yv y' ∧ Q y y') :
    let m := if i % 2 = 1 then n - floor2 n 1 else floor2 n 1
    let r := stepG (rdDigits t.1.1.out t.1.1.b (n - m)) (fun B => f (str2num B ctx.radix)) (rdDigits t.1.1.out t.1.1.a m) (swapPtrs t.1.1)
      (fun s y A => wrDigits s.out s.b (num2str ((str2num A ctx.radix + yv y) %
        (if m = floor2 n 1 then (powUv ctx.radix (floor2 n 1) (n - floor2 n 1)).1 else (powUv ctx.radix (floor2 n 1) (n - floor2 n 1)).2))
          ctx.radix m)) g
    (cmacEncryptRoundF ctx lg w junk mm ss n t i = none ∧ r = none) ∨
      ∃ s o y y', cmacEncryptRoundF ctx lg w junk mm ss n t i = some (({ s with out := o }, t.1.2 ^^^ y.1.2), y.2) ∧
        r = some (g s o y') ∧ Q y y' := by
  intro m r
  refine stepG_rel _ (fun B => cmacRoundYF ctx lg w junk mm ss n i (str2num B ctx.radix) t.2) _ _ _ (fun s y A =>
    wrDigits s.out s.b (num2str ((str2num A ctx.radix + y.1.1) %
        (if m = floor2 n 1 then (powUv ctx.radix (floor2 n 1) (n - floor2 n 1)).1 else (powUv ctx.radix (floor2 n 1) (n - floor2 n 1)).2))
          ctx.radix m)) _ (fun s o y => (({ s with out := o }, t.1.2 ^^^ y.1.2), y.2)) _ Q fun B => ?_
  rcases h (str2num B ctx.radix) with h | ⟨y, y', h1, h2, h3, h4⟩
  · exact Or.inl h
  · exact Or.inr ⟨y, y', h1, h2, fun s A => by rw [h3], h4⟩

theorem cmacDecF_step {Y T : Type} (t : (FpeSt × Block) × (Nat × Block)) (i : Nat) (f : Nat → Option Y) (yv : Y → Nat)
    (g : FpeSt → List Nat → Y → T) (Q : (Nat × Block) × (Nat × Block) → Y → Prop)
    (h : ∀ x, (cmacRoundYF ctx lg w junk mm ss n i x (t.2.1, zeroBlock) = none ∧ f x = none) ∨
      ∃ y y', cmacRoundYF ctx lg w junk mm ss n i x (t.2.1, zeroBlock) = some y ∧ f x = some y' ∧ y.1.1 = yv y' ∧ Q y y') :
    let m := if i % 2 = 1 then n - floor2 n 1 else floor2 n 1
    let r := stepG (rdDigits t.1.1.out t.1.1.a (n - m)) (fun B => f (str2num B ctx.radix)) (rdDigits t.1.1.out t.1.1.b m) (swapPtrs t.1.1)
      (fun s y A => wrDigits s.out s.a (num2str (bnModSub (str2num A ctx.radix) (yv y)
        (if m = floor2 n 1 then (powUv ctx.radix (floor2 n 1) (n - floor2 n 1)).1 else (powUv ctx.radix (floor2 n 1) (n - floor2 n 1)).2))
          ctx.radix m)) g
    (cmacDecryptRoundF ctx lg w junk mm ss n t i = none ∧ r = none) ∨
      ∃ s o y y', cmacDecryptRoundF ctx lg w junk mm ss n t i = some (({ s with out := o }, t.1.2 ^^^ y.1.2), y.2) ∧
        r = some (g s o y') ∧ Q y y' := by
  intro m r
  refine stepG_rel _ (fun B => cmacRoundYF ctx lg w junk mm ss n i (str2num B ctx.radix) (t.2.1, zeroBlock)) _ _ _ (fun s y A =>
    wrDigits s.out s.a (num2str (bnModSub (str2num A ctx.radix) y.1.1
        (if m = floor2 n 1 then (powUv ctx.radix (floor2 n 1) (n - floor2 n 1)).1 else (powUv ctx.radix (floor2 n 1) (n - floor2 n 1)).2))
          ctx.radix m)) _ (fun s o y => (({ s with out := o }, t.1.2 ^^^ y.1.2), y.2)) _ Q fun B => ?_
  rcases h (str2num B ctx.radix) with h | ⟨y, y', h1, h2, h3, h4⟩
  · exact Or.inl h
  · exact Or.inr ⟨y, y', h1, h2, fun s A => by rw [h3], h4⟩

theorem gmacEncF_step {Y T : Type} (t : (FpeSt × Block) × (Nat × Block)) (i : Nat) (f : Nat → Option Y) (yv : Y → Nat)
    (g : FpeSt → List Nat → Y → T) (Q : Nat × Block → Y → Prop)
    (h : ∀ x, (ff3RoundSF ctx lg w n i x t.2 = none ∧ f x = none) ∨
      ∃ y y', ff3RoundSF ctx lg w n i x t.2 = some y ∧ f x = some y' ∧ bin2bn y.2.toList = yv y' ∧ Q y y') :
    let m := if i % 2 = 1 then n - ceil2 n 1 else ceil2 n 1
    let r := stepG (rdDigits t.1.1.out t.1.1.b (n - m)) (fun B => f (str2numRev B ctx.radix)) (rdDigits t.1.1.out t.1.1.a m) (swapPtrs t.1.1)
      (fun s y A => wrDigits s.out s.b (num2strRev ((str2numRev A ctx.radix + yv y) %
        (if i % 2 = 1 then (powUv ctx.radix (ceil2 n 1) (n - ceil2 n 1)).2 else (powUv ctx.radix (ceil2 n 1) (n - ceil2 n 1)).1))
          ctx.radix m)) g
    (gmacEncryptRoundF ctx lg w n t i = none ∧ r = none) ∨
      ∃ s o y y', gmacEncryptRoundF ctx lg w n t i = some (({ s with out := o },
          t.1.2 ^^^ gmacMultH (gmacGenHF ctx.E w).1 (gmacGenHF ctx.E w).2 y.2), y) ∧
        r = some (g s o y') ∧ Q y y' := by
  intro m r
  refine stepG_rel _ (fun B => ff3RoundSF ctx lg w n i (str2numRev B ctx.radix) t.2) _ _ _ (fun s y A =>
    wrDigits s.out s.b (num2strRev ((str2numRev A ctx.radix + bin2bn y.2.toList) %
        (if i % 2 = 1 then (powUv ctx.radix (ceil2 n 1) (n - ceil2 n 1)).2 else (powUv ctx.radix (ceil2 n 1) (n - ceil2 n 1)).1))
          ctx.radix m)) _ (fun s o y => (({ s with out := o },
          t.1.2 ^^^ gmacMultH (gmacGenHF ctx.E w).1 (gmacGenHF ctx.E w).2 y.2), y)) _ Q fun B => ?_
  rcases h (str2numRev B ctx.radix) with h | ⟨y, y', h1, h2, h3, h4⟩
  · exact Or.inl h
  · exact Or.inr ⟨y, y', h1, h2, fun s A => by rw [h3], h4⟩

theorem gmacDecF_step {Y T : Type} (t : (FpeSt × Block) × (Nat × Block)) (i : Nat) (f : Nat → Option Y) (yv : Y → Nat)
    (g : FpeSt → List Nat → Y → T) (Q : Nat × Block → Y → Prop)
    (h : ∀ x, (ff3RoundSF ctx lg w n i x (t.2.1, zeroBlock) = none ∧ f x = none) ∨
      ∃ y y', ff3RoundSF ctx lg w n i x (t.2.1, zeroBlock) = some y ∧ f x = some y' ∧ bin2bn y.2.toList = yv y' ∧ Q y y') :
    let m := if i % 2 = 1 then n - ceil2 n 1 else ceil2 n 1
    let r := stepG (rdDigits t.1.1.out t.1.1.a (n - m)) (fun B => f (str2numRev B ctx.radix)) (rdDigits t.1.1.out t.1.1.b m) (swapPtrs t.1.1)
      (fun s y A => wrDigits s.out s.a (num2strRev (bnModSub (str2numRev A ctx.radix) (yv y)
        (if i % 2 = 1 then (powUv ctx.radix (ceil2 n 1) (n - ceil2 n 1)).2 else (powUv ctx.radix (ceil2 n 1) (n - ceil2 n 1)).1))
          ctx.radix m)) g
    (gmacDecryptRoundF ctx lg w n t i = none ∧ r = none) ∨
      ∃ s o y y', gmacDecryptRoundF ctx lg w n t i = some (({ s with out := o },
          t.1.2 ^^^ gmacMultH (gmacGenHF ctx.E w).1 (gmacGenHF ctx.E w).2 y.2), y) ∧
        r = some (g s o y') ∧ Q y y' := by
  intro m r
  refine stepG_rel _ (fun B => ff3RoundSF ctx lg w n i (str2numRev B ctx.radix) (t.2.1, zeroBlock)) _ _ _ (fun s y A =>
    wrDigits s.out s.a (num2strRev (bnModSub (str2numRev A ctx.radix) (bin2bn y.2.toList)
        (if i % 2 = 1 then (powUv ctx.radix (ceil2 n 1) (n - ceil2 n 1)).2 else (powUv ctx.radix (ceil2 n 1) (n - ceil2 n 1)).1))
          ctx.radix m)) _ (fun s o y => (({ s with out := o },
          t.1.2 ^^^ gmacMultH (gmacGenHF ctx.E w).1 (gmacGenHF ctx.E w).2 y.2), y)) _ Q fun B => ?_
  rcases h (str2numRev B ctx.radix) with h | ⟨y, y', h1, h2, h3, h4⟩
  · exact Or.inl h
  · exact Or.inr ⟨y, y', h1, h2, fun s A => by rw [h3], h4⟩

end rounds

/-! ### a cipher that works -/

section works
variable (E : Block → Block) (w : Faults) (hw : ∀ k x old, w k x old = none)
include hw

theorem cmacK1F_ok : cmacK1F E w = cmacK1 E := by
  unfold cmacK1F cmacK1
  rw [bufF_ok E w hw]

theorem cmacLoopF_ok (c : Nat) : ∀ k R cn Q, cmacLoopF E w c k R cn Q = cmacLoop E c R cn Q := by
  induction c with
  | zero => intro k R cn Q; rfl
  | succ c ih =>
    intro k R cn Q
    rw [cmacLoopF, cmacLoop, bufF_ok E w hw]
    exact ih _ _ _ _

theorem gmacGenHF_ok : gmacGenHF E w = gmacGenH E := by
  unfold gmacGenHF gmacGenH callF
  rw [hw]
  rfl

theorem cmacRoundYF_ok (ctx : FpeCtx) (lg : Nat → Nat → Nat) (junk mm ss : Nat → Block) (n i x : Nat) (a : Nat × Block) :
    (cmacRoundYF ctx lg w junk mm ss n i x a).map Prod.fst = cmacRoundY ctx lg (junk i) n i x := by
  unfold cmacRoundYF cmacRoundY
  simp only
  cases ff1QBytes ctx.tweak (ff1B lg ctx.radix (n - floor2 n 1)) i x with
  | none => rfl
  | some Q =>
    simp only [Option.bind_some]
    rw [cmacLoopF_ok _ _ hw, bufF_ok _ _ hw, bufF_ok _ _ hw, ff1SLoopF_ok _ _ hw, cmacK1F_ok _ _ hw]
    unfold ff1YOf ff1SBytes
    simp only [Nat.add_comm 1]
    split <;> rfl

end works

/-- The state of the functions. -/
abbrev MacSt := (FpeSt × Block) × (Nat × Block)

theorem fold_fin {S S' A : Type} {g : S → Nat → Option S} {g' : S' → Nat → Option S'} {l : List Nat} {s : S} {s' : S'}
    {f : S → Option A} {f' : S' → Option A} (R : List Nat → S → S' → Prop) (h0 : R l s s')
    (h : ∀ i rest s s', R (i :: rest) s s' → (g s i = none ∧ g' s' i = none) ∨
      ∃ t t', g s i = some t ∧ g' s' i = some t' ∧ R rest t t')
    (hf : ∀ t t', R [] t t' → f t = f' t') : (l.foldlM g s).bind f = (l.foldlM g' s').bind f' := by
  rcases foldlM_rel g g' R h l s s' h0 with ⟨h1, h2⟩ | ⟨t, t', h1, h2, h3⟩
  · rw [h1, h2]; rfl
  · rw [h1, h2]; exact hf t t' h3

/-- C136, a cipher that never reports failure: the functions return 1 and are the ones of the other properties. -/
theorem C136_works (ctx : FpeCtx) (lg : Nat → Nat → Nat) (w : Faults) (hw : ∀ k x old, w k x old = none) (junk mm ss : Nat → Block)
    (R0 : Block) (input output : List Byte) :
    cmacEncryptF ctx lg w junk mm ss R0 input output = (cmacEncrypt ctx lg junk input output).map (fun o => (1, o)) ∧
    cmacDecryptF ctx lg w junk mm ss input output = (cmacDecrypt ctx lg junk input output).map (fun o => (1, o)) ∧
    gmacEncryptF ctx lg w R0 input output = (gmacEncrypt ctx lg input output).map (fun o => (1, o)) ∧
    gmacDecryptF ctx lg w input output = (gmacDecrypt ctx lg input output).map (fun o => (1, o)) := by
  have k1 : ∀ n i x a, (cmacRoundYF ctx lg w junk mm ss n i x a = none ∧ cmacRoundY ctx lg (junk i) n i x = none) ∨
      ∃ y y', cmacRoundYF ctx lg w junk mm ss n i x a = some y ∧ cmacRoundY ctx lg (junk i) n i x = some y' ∧ y.1.1 = y'.1 ∧ y.1 = y' := by
    intro n i x a
    rcases map_fst_cases (cmacRoundYF_ok w hw ctx lg junk mm ss n i x a) with ⟨h1, h2⟩ | ⟨y, a', h1, h2⟩
    · exact Or.inl ⟨h1, h2⟩
    · exact Or.inr ⟨_, _, h1, h2, rfl, rfl⟩
  have k3 : ∀ n i x a, (ff3RoundSF ctx lg w n i x a = none ∧ ff3RoundS ctx lg n i x = none) ∨
      ∃ y y', ff3RoundSF ctx lg w n i x a = some y ∧ ff3RoundS ctx lg n i x = some y' ∧ bin2bn y.2.toList = bin2bn y'.toList ∧ y.2 = y' := by
    intro n i x a
    have h := ff3RoundSF_ok w hw ctx lg n i x a
    rcases hx : ff3RoundSF ctx lg w n i x a with _ | a'
    · rw [hx] at h
      exact Or.inl ⟨rfl, by rw [← h]; rfl⟩
    · rw [hx] at h
      exact Or.inr ⟨a', a'.2, rfl, by rw [← h]; rfl, rfl, rfl⟩
  refine ⟨?_, ?_, ?_, ?_⟩
  · unfold cmacEncryptF cmacEncrypt
    rcases cstr input with _ | str
    · rfl
    simp only [Option.bind_some]
    rcases ff1Assert ctx.tweak.length (ff1B lg ctx.radix (str.length - floor2 str.length 1)) with _ | _
    · rfl
    simp only [Option.bind_some]
    rw [Option.map_bind]
    refine fold_fin (fun (_ : List Nat) (t : MacSt) t' => t.1 = t') rfl ?_ ?_
    · rintro i rest t t' rfl
      rcases cmacEncF_step ctx lg w junk mm ss str.length t i (fun x => cmacRoundY ctx lg (junk i) str.length i x) Prod.fst
        (fun s o y => (({ s with out := o } : FpeSt), t.1.2 ^^^ y.2)) (fun y y' => y.1 = y') (fun x => k1 _ i x _) with h | ⟨s, o, y, y', h1, h2, h3⟩
      · exact Or.inl h
      · exact Or.inr ⟨_, _, h1, h2, by rw [h3]⟩
    · rintro t t' rfl
      simp only [Function.comp]
      rcases invMapChars t.1.1.out output with _ | o <;> rfl
  · unfold cmacDecryptF cmacDecrypt
    rcases cstr input with _ | str
    · rfl
    simp only [Option.bind_some]
    rcases ff1Assert ctx.tweak.length (ff1B lg ctx.radix (str.length - floor2 str.length 1)) with _ | _
    · rfl
    simp only [Option.bind_some]
    rw [Option.map_bind]
    refine fold_fin (fun (_ : List Nat) (t : MacSt) t' => t.1 = t') rfl ?_ ?_
    · rintro i rest t t' rfl
      rcases cmacDecF_step ctx lg w junk mm ss str.length t i (fun x => cmacRoundY ctx lg (junk i) str.length i x) Prod.fst
        (fun s o y => (({ s with out := o } : FpeSt), t.1.2 ^^^ y.2)) (fun y y' => y.1 = y') (fun x => k1 _ i x _) with h | ⟨s, o, y, y', h1, h2, h3⟩
      · exact Or.inl h
      · exact Or.inr ⟨_, _, h1, h2, by rw [h3]⟩
    · rintro t t' rfl
      simp only [Function.comp]
      rcases invMapChars t.1.1.out output with _ | o <;> rfl
  · unfold gmacEncryptF gmacEncrypt gmacStartF gmacStart
    rw [gmacGenHF_ok _ _ hw]
    rcases cstr input with _ | str
    · rfl
    simp only [Option.bind_some]
    split
    rotate_left
    · rfl
    simp only [Option.bind_some]
    rw [Option.map_bind]
    refine fold_fin (fun (_ : List Nat) (t : MacSt) t' => t.1 = t') rfl ?_ ?_
    · rintro i rest t t' rfl
      rcases gmacEncF_step ctx lg w str.length t i (fun x => ff3RoundS ctx lg str.length i x) (fun S => bin2bn S.toList)
        (fun s o y => (({ s with out := o } : FpeSt), t.1.2 ^^^ gmacMultH (gmacGenH ctx.E).1 (gmacGenH ctx.E).2 y)) (fun y y' => y.2 = y')
        (fun x => k3 _ i x _) with h | ⟨s, o, y, y', h1, h2, h3⟩
      · exact Or.inl h
      · exact Or.inr ⟨_, _, h1, h2, by rw [h3, gmacGenHF_ok _ _ hw]⟩
    · rintro t t' rfl
      simp only [Function.comp]
      rcases invMapChars t.1.1.out output with _ | o <;> rfl
  · unfold gmacDecryptF gmacDecrypt gmacStartF gmacStart
    rw [gmacGenHF_ok _ _ hw]
    rcases cstr input with _ | str
    · rfl
    simp only [Option.bind_some]
    split
    rotate_left
    · rfl
    simp only [Option.bind_some]
    rw [Option.map_bind]
    refine fold_fin (fun (_ : List Nat) (t : MacSt) t' => t.1 = t') rfl ?_ ?_
    · rintro i rest t t' rfl
      rcases gmacDecF_step ctx lg w str.length t i (fun x => ff3RoundS ctx lg str.length i x) (fun S => bin2bn S.toList)
        (fun s o y => (({ s with out := o } : FpeSt), t.1.2 ^^^ gmacMultH (gmacGenH ctx.E).1 (gmacGenH ctx.E).2 y)) (fun y y' => y.2 = y')
        (fun x => k3 _ i x _) with h | ⟨s, o, y, y', h1, h2, h3⟩
      · exact Or.inl h
      · exact Or.inr ⟨_, _, h1, h2, by rw [h3, gmacGenHF_ok _ _ hw]⟩
    · rintro t t' rfl
      simp only [Function.comp]
      rcases invMapChars t.1.1.out output with _ | o <;> rfl

/-! ### the text is the text of FF1 and FF3 -/

/-- Which call of FF1-CMAC call `k` of FF1 is, if a round of FF1 makes `per` calls, `cnt` of them after the MAC. -/
def cmacCall (per cnt k : Nat) : Nat := 1 + k + (k + cnt) / per

theorem cmacCall_mono (per cnt : Nat) : StrictMono (cmacCall per cnt) := by
  intro a b h
  unfold cmacCall
  have := Nat.div_le_div_right (c := per) (show a + cnt ≤ b + cnt by omega)
  omega

theorem cmacCall_lo (count cnt p r : Nat) (h : r < 1 + count) :
    cmacCall (1 + count + cnt) cnt (p * (1 + count + cnt) + r) = 1 + p * (1 + count + cnt + 1) + r := by
  unfold cmacCall
  rw [Nat.add_assoc (p * _), Nat.mul_comm p (1 + count + cnt), Nat.mul_add_div (by omega), Nat.div_eq_of_lt (by omega)]
  ring

theorem cmacCall_hi (count cnt p r : Nat) (h : r < cnt) :
    cmacCall (1 + count + cnt) cnt (p * (1 + count + cnt) + (1 + count) + r) = 1 + p * (1 + count + cnt + 1) + (1 + count + 1) + r := by
  unfold cmacCall
  rw [show p * (1 + count + cnt) + (1 + count) + r + cnt = (1 + count + cnt) * p + (1 + count + cnt + r) by ring,
    Nat.mul_add_div (by omega), show 1 + count + cnt + r = (1 + count + cnt) * 1 + r by omega, Nat.mul_add_div (by omega),
    Nat.div_eq_of_lt (by omega)]
  ring

theorem bufF_ren (E : Block → Block) (w : Faults) (ι : Nat → Nat) (k : Nat) (x o : Block) :
    bufF E (fun k => w (ι k)) k x o = bufF E w (ι k) x o := rfl

theorem cmacLoopF_fst (E : Block → Block) (w : Faults) (ι : Nat → Nat) (c : Nat) : ∀ k k' R cn Q, (∀ j < c, ι (k + j) = k' + j) →
    (cmacLoopF E w c k' R cn Q).1 = ff1MacLoopF E (fun k => w (ι k)) c k R Q := by
  induction c with
  | zero => intro k k' R cn Q _; rfl
  | succ c ih =>
    intro k k' R cn Q h
    rw [cmacLoopF, ff1MacLoopF]
    have h0 : ι k = k' := h 0 (Nat.succ_pos c)
    have e : bufF E (fun k => w (ι k)) k (blockAt Q ^^^ R) R = bufF E w k' (blockAt Q ^^^ R) R := by
      rw [bufF_ren, h0]
    rw [e]
    exact ih (k + 1) (k' + 1) _ _ _ fun j hj => by
      have := h (j + 1) (by omega)
      rw [show k + 1 + j = k + (j + 1) by omega, this]
      omega

theorem ff1SLoopF_ren (E : Block → Block) (w : Faults) (ι : Nat → Nat) (R : Block) (c : Nat) : ∀ k k' j SS, (∀ j < c, ι (k + j) = k' + j) →
    ff1SLoopF E (fun k => w (ι k)) R c k j SS = ff1SLoopF E w R c k' j SS := by
  induction c with
  | zero => intro k k' j SS _; rfl
  | succ c ih =>
    intro k k' j SS h
    have h0 : ι k = k' := h 0 (Nat.succ_pos c)
    have e : bufF E (fun k => w (ι k)) k (ff1Ctr j ^^^ R) SS = bufF E w k' (ff1Ctr j ^^^ R) SS := by
      rw [bufF_ren, h0]
    rw [ff1SLoopF, ff1SLoopF, e]
    congr 1
    exact ih (k + 1) (k' + 1) _ _ fun i hi => by
      have := h (i + 1) (by omega)
      rw [show k + 1 + i = k + (i + 1) by omega, this]
      omega

section text
variable (ctx : FpeCtx) (lg : Nat → Nat → Nat) (n : Nat)

/-- The blocks of `Q`. -/
def qCount : Nat := (ctx.tweak.length + ff1Pad ctx.tweak.length (ff1B lg ctx.radix (n - floor2 n 1)) + 1 + ff1B lg ctx.radix (n - floor2 n 1)) / 16

/-- The blocks of `S` behind the first. -/
def sCount : Nat := ceil2 (ff1D (ff1B lg ctx.radix (n - floor2 n 1))) 4 - 1

/-- The renumbering. -/
def cmacIdx (k : Nat) : Nat := cmacCall (1 + qCount ctx lg n + sCount ctx lg n) (sCount ctx lg n) k

theorem cmacRoundYF_text (w : Faults) (junk mm ss : Nat → Block) (i x p : Nat) (R : Block) :
    (cmacRoundYF ctx lg w junk mm ss n i x (1 + p * (1 + qCount ctx lg n + sCount ctx lg n + 1), R) = none ∧
      ff1RoundYF ctx lg (fun k => w (cmacIdx ctx lg n k)) ss n i x (p * (1 + qCount ctx lg n + sCount ctx lg n), R) = none) ∨
    ∃ y mac R', cmacRoundYF ctx lg w junk mm ss n i x (1 + p * (1 + qCount ctx lg n + sCount ctx lg n + 1), R) =
        some ((y, mac), (1 + (p + 1) * (1 + qCount ctx lg n + sCount ctx lg n + 1), R')) ∧
      ff1RoundYF ctx lg (fun k => w (cmacIdx ctx lg n k)) ss n i x (p * (1 + qCount ctx lg n + sCount ctx lg n), R) =
        some (y, ((p + 1) * (1 + qCount ctx lg n + sCount ctx lg n), R')) := by
  unfold cmacRoundYF ff1RoundYF
  simp only
  cases hQ : ff1QBytes ctx.tweak (ff1B lg ctx.radix (n - floor2 n 1)) i x with
  | none => exact Or.inl ⟨rfl, rfl⟩
  | some Q =>
    simp only [Option.bind_some]
    have hq : Q.length / 16 = qCount ctx lg n := by rw [length_ff1QBytes _ _ _ _ _ hQ]; rfl
    rw [hq, show ceil2 (ff1D (ff1B lg ctx.radix (n - floor2 n 1))) 4 - 1 = sCount ctx lg n from rfl]
    generalize hc : qCount ctx lg n = count
    generalize hd : sCount ctx lg n = cnt
    have hι : cmacIdx ctx lg n = cmacCall (1 + count + cnt) cnt := by
      funext k
      rw [← hc, ← hd]; rfl
    rw [hι]
    have e0 : bufF ctx.E (fun k => w (cmacCall (1 + count + cnt) cnt k)) (p * (1 + count + cnt)) (ff1PBlock ctx.radix (floor2 n 1) n ctx.tweak.length) R =
        bufF ctx.E w (1 + p * (1 + count + cnt + 1)) (ff1PBlock ctx.radix (floor2 n 1) n ctx.tweak.length) R := by
      have := cmacCall_lo count cnt p 0 (by omega)
      rw [bufF_ren, show cmacCall (1 + count + cnt) cnt (p * (1 + count + cnt)) = 1 + p * (1 + count + cnt + 1) from this]
    rw [e0, ← cmacLoopF_fst ctx.E w (cmacCall (1 + count + cnt) cnt) count (p * (1 + count + cnt) + 1) (1 + p * (1 + count + cnt + 1) + 1) _ (junk i) _
      (fun j hj => by
        have := cmacCall_lo count cnt p (1 + j) (by omega)
        rw [show p * (1 + count + cnt) + 1 + j = p * (1 + count + cnt) + (1 + j) by omega, this]
        omega),
      ff1SLoopF_ren ctx.E w (cmacCall (1 + count + cnt) cnt) _ cnt (p * (1 + count + cnt) + 1 + count)
        (1 + p * (1 + count + cnt + 1) + 1 + count + 1) _ _ (fun j hj => by
        have := cmacCall_hi count cnt p j hj
        rw [show p * (1 + count + cnt) + 1 + count + j = p * (1 + count + cnt) + (1 + count) + j by omega, this]
        omega)]
    split
    · refine Or.inr ⟨_, _, _, congrArg some (Prod.ext rfl (Prod.ext ?_ rfl)), congrArg some (Prod.ext rfl (Prod.ext ?_ rfl))⟩
      · show 1 + p * (1 + count + cnt + 1) + 1 + count + 1 + cnt = 1 + (p + 1) * (1 + count + cnt + 1)
        ring
      · show p * (1 + count + cnt) + 1 + count + cnt = (p + 1) * (1 + count + cnt)
        ring
    · exact Or.inl ⟨rfl, rfl⟩

end text

/-- C136: whatever the block cipher does, the text of FF1-CMAC and the result are those of FF1 with the calls renumbered: the calls for the
subkey and the tag are left out. The renumbering depends on lengths and radix only. -/
theorem C136_cmac_text (ctx : FpeCtx) (lg : Nat → Nat → Nat) (n : Nat) :
    ∃ ι : Nat → Nat, StrictMono ι ∧ 0 < ι 0 ∧ ∀ (w : Faults) (junk mm ss : Nat → Block) (R0 : Block) (s rest output : List Byte),
      (∀ c ∈ s, c ≠ 0) → s.length = n →
      (cmacEncryptF ctx lg w junk mm ss R0 (s ++ 0 :: rest) output).map (fun r => (r.1, r.2.1)) =
        ff1EncryptF ctx lg (fun k => w (ι k)) ss R0 (s ++ 0 :: rest) output ∧
      (cmacDecryptF ctx lg w junk mm ss (s ++ 0 :: rest) output).map (fun r => (r.1, r.2.1)) =
        ff1DecryptF ctx lg (fun k => w (ι k)) ss (s ++ 0 :: rest) output := by
  refine ⟨cmacIdx ctx lg n, cmacCall_mono _ _, by unfold cmacIdx cmacCall; exact Nat.lt_of_lt_of_le Nat.zero_lt_one (by rw [Nat.add_assoc]; exact Nat.le_add_right 1 _), ?_⟩
  intro w junk mm ss R0 s rest output hs hn
  subst hn
  generalize hper : 1 + qCount ctx lg s.length + sCount ctx lg s.length = per
  have key := fun i x p R => cmacRoundYF_text ctx lg s.length w junk mm ss i x p R
  rw [hper] at key
  constructor
  · unfold cmacEncryptF ff1EncryptF
    rw [cstr_append s rest hs]
    simp only [Option.bind_some]
    rcases ff1Assert ctx.tweak.length (ff1B lg ctx.radix (s.length - floor2 s.length 1)) with _ | _
    · rfl
    simp only [Option.bind_some]
    rw [Option.map_bind]
    refine fold_fin (fun (_ : List Nat) (t : MacSt) t' => t.1.1 = t'.1 ∧ ∃ p, t.2.1 = 1 + p * (per + 1) ∧ t'.2.1 = p * per ∧ t.2.2 = t'.2.2)
      ⟨rfl, 0, by simp, by simp, rfl⟩ ?_ ?_
    · rintro i rest ⟨⟨a, mac⟩, ⟨k, R⟩⟩ ⟨a', ⟨k', R'⟩⟩ ⟨rfl, p, rfl, rfl, rfl⟩
      rcases cmacEncF_step ctx lg w junk mm ss s.length ((a, mac), (1 + p * (per + 1), R)) i
        (fun x => ff1RoundYF ctx lg (fun k => w (cmacIdx ctx lg s.length k)) ss s.length i x (p * per, R)) Prod.fst
        (fun s o y => (({ s with out := o } : FpeSt), y.2))
        (fun y y' => y.2.1 = 1 + (p + 1) * (per + 1) ∧ y'.2.1 = (p + 1) * per ∧ y.2.2 = y'.2.2) (fun x => by
          rcases key i x p R with h | ⟨y, m, R', h1, h2⟩
          · exact Or.inl h
          · exact Or.inr ⟨_, _, h1, h2, rfl, rfl, rfl, rfl⟩) with h | ⟨s, o, y, y', h1, h2, h3⟩
      · exact Or.inl h
      · exact Or.inr ⟨_, _, h1, h2, rfl, p + 1, h3⟩
    · rintro ⟨⟨a, mac⟩, ⟨k, R⟩⟩ ⟨a', ⟨k', R'⟩⟩ ⟨rfl, _⟩
      show Option.map _ (Option.map _ (invMapChars a.out output)) = _
      rcases invMapChars a.out output with _ | o <;> rfl
  · unfold cmacDecryptF ff1DecryptF
    rw [cstr_append s rest hs]
    simp only [Option.bind_some]
    rcases ff1Assert ctx.tweak.length (ff1B lg ctx.radix (s.length - floor2 s.length 1)) with _ | _
    · rfl
    simp only [Option.bind_some]
    rw [Option.map_bind]
    refine fold_fin (fun (_ : List Nat) (t : MacSt) t' => t.1.1 = t'.1 ∧ ∃ p, t.2.1 = 1 + p * (per + 1) ∧ t'.2.1 = p * per)
      ⟨rfl, 0, by simp, by simp⟩ ?_ ?_
    · rintro i rest ⟨⟨a, mac⟩, ⟨k, R⟩⟩ ⟨a', ⟨k', R'⟩⟩ ⟨rfl, p, rfl, rfl⟩
      rcases cmacDecF_step ctx lg w junk mm ss s.length ((a, mac), (1 + p * (per + 1), R)) i
        (fun x => ff1RoundYF ctx lg (fun k => w (cmacIdx ctx lg s.length k)) ss s.length i x (p * per, zeroBlock)) Prod.fst
        (fun s o y => (({ s with out := o } : FpeSt), y.2))
        (fun y y' => y.2.1 = 1 + (p + 1) * (per + 1) ∧ y'.2.1 = (p + 1) * per) (fun x => by
          rcases key i x p zeroBlock with h | ⟨y, m, R', h1, h2⟩
          · exact Or.inl h
          · exact Or.inr ⟨_, _, h1, h2, rfl, rfl, rfl⟩) with h | ⟨s, o, y, y', h1, h2, h3⟩
      · exact Or.inl h
      · exact Or.inr ⟨_, _, h1, h2, rfl, p + 1, h3⟩
    · rintro ⟨⟨a, mac⟩, ⟨k, R⟩⟩ ⟨a', ⟨k', R'⟩⟩ ⟨rfl, _⟩
      show Option.map _ (Option.map _ (invMapChars a.out output)) = _
      rcases invMapChars a.out output with _ | o <;> rfl

theorem ff3RoundSF_ren (ctx : FpeCtx) (lg : Nat → Nat → Nat) (w : Faults) (n i x k : Nat) (R : Block) :
    (ff3RoundSF ctx lg w n i x (k + 1, R) = none ∧ ff3RoundSF ctx lg (fun k => w (k + 1)) n i x (k, R) = none) ∨
    ∃ S, ff3RoundSF ctx lg w n i x (k + 1, R) = some (k + 1 + 1, S) ∧ ff3RoundSF ctx lg (fun k => w (k + 1)) n i x (k, R) = some (k + 1, S) := by
  unfold ff3RoundSF
  simp only
  cases ff3PBytes ctx.tweak (ceil2 (lg ctx.radix (ceil2 n 1)) 3) i x with
  | none => exact Or.inl ⟨rfl, rfl⟩
  | some P => exact Or.inr ⟨_, rfl, rfl⟩

/-- C136: whatever the block cipher does, the text of FF3-GMAC and the result are those of FF3 with the calls after the first. -/
theorem C136_gmac_text (ctx : FpeCtx) (ht : 16 ≤ ctx.tweak.length) (lg : Nat → Nat → Nat) (w : Faults) (S0 : Block) (input output : List Byte) :
    (gmacEncryptF ctx lg w S0 input output).map (fun r => (r.1, r.2.1)) = ff3EncryptF ctx lg (fun k => w (k + 1)) S0 input output ∧
    (gmacDecryptF ctx lg w input output).map (fun r => (r.1, r.2.1)) = ff3DecryptF ctx lg (fun k => w (k + 1)) input output := by
  constructor
  · unfold gmacEncryptF ff3EncryptF gmacStartF
    rw [if_pos ht]
    rcases cstr input with _ | s
    · rfl
    simp only [Option.bind_some]
    rw [Option.map_bind]
    refine fold_fin (fun (_ : List Nat) (t : MacSt) t' => t.1.1 = t'.1 ∧ t.2.1 = t'.2.1 + 1 ∧ t.2.2 = t'.2.2) ⟨rfl, rfl, rfl⟩ ?_ ?_
    · rintro i rest ⟨⟨a, mac⟩, ⟨k, R⟩⟩ ⟨a', ⟨k', R'⟩⟩ ⟨rfl, h, rfl⟩
      simp only at h
      subst h
      rcases gmacEncF_step ctx lg w s.length ((a, mac), (k' + 1, R)) i
        (fun x => ff3RoundSF ctx lg (fun k => w (k + 1)) s.length i x (k', R)) (fun y => bin2bn y.2.toList)
        (fun s o y => (({ s with out := o } : FpeSt), y)) (fun y y' => y.1 = y'.1 + 1 ∧ y.2 = y'.2) (fun x => by
          rcases ff3RoundSF_ren ctx lg w s.length i x k' R with h | ⟨S, h1, h2⟩
          · exact Or.inl h
          · exact Or.inr ⟨_, _, h1, h2, rfl, rfl, rfl⟩) with h | ⟨s, o, y, y', h1, h2, h3⟩
      · exact Or.inl h
      · exact Or.inr ⟨_, _, h1, h2, rfl, h3⟩
    · rintro ⟨⟨a, mac⟩, ⟨k, R⟩⟩ ⟨a', ⟨k', R'⟩⟩ ⟨rfl, _⟩
      show Option.map _ (Option.map _ (invMapChars a.out output)) = _
      rcases invMapChars a.out output with _ | o <;> rfl
  · unfold gmacDecryptF ff3DecryptF gmacStartF
    rw [if_pos ht]
    rcases cstr input with _ | s
    · rfl
    simp only [Option.bind_some]
    rw [Option.map_bind]
    refine fold_fin (fun (_ : List Nat) (t : MacSt) t' => t.1.1 = t'.1 ∧ t.2.1 = t'.2.1 + 1) ⟨rfl, rfl⟩ ?_ ?_
    · rintro i rest ⟨⟨a, mac⟩, ⟨k, R⟩⟩ ⟨a', ⟨k', R'⟩⟩ ⟨rfl, h⟩
      simp only at h
      subst h
      rcases gmacDecF_step ctx lg w s.length ((a, mac), (k' + 1, R)) i
        (fun x => ff3RoundSF ctx lg (fun k => w (k + 1)) s.length i x (k', zeroBlock)) (fun y => bin2bn y.2.toList)
        (fun s o y => (({ s with out := o } : FpeSt), y)) (fun y y' => y.1 = y'.1 + 1) (fun x => by
          rcases ff3RoundSF_ren ctx lg w s.length i x k' zeroBlock with h | ⟨S, h1, h2⟩
          · exact Or.inl h
          · exact Or.inr ⟨_, _, h1, h2, rfl, rfl⟩) with h | ⟨s, o, y, y', h1, h2, h3⟩
      · exact Or.inl h
      · exact Or.inr ⟨_, _, h1, h2, rfl, h3⟩
    · rintro ⟨⟨a, mac⟩, ⟨k, R⟩⟩ ⟨a', ⟨k', R'⟩⟩ ⟨rfl, _⟩
      show Option.map _ (Option.map _ (invMapChars a.out output)) = _
      rcases invMapChars a.out output with _ | o <;> rfl

/-! ### the tag -/

theorem fold_tag {S : Type} (g : S → Nat → Option S) (tag : S → Block) (mm : Nat → Block)
    (h : ∀ s i t, g s i = some t → tag t = tag s ^^^ mm i) : ∀ (l : List Nat) (s t : S), l.foldlM g s = some t →
      tag t = tag s ^^^ xorBlocks (l.map mm) := by
  intro l
  induction l with
  | nil =>
    intro s t e
    injection e with e
    subst e
    exact (Vec.xor_zero _).symm
  | cons i l ih =>
    intro s t e
    rw [List.foldlM_cons] at e
    rcases hg : g s i with _ | s'
    · rw [hg] at e; cases e
    · rw [hg] at e
      rw [ih s' t e, h s i s' hg, List.map_cons, xorBlocks_cons, Vec.xor_assoc]

section dead
variable (ctx : FpeCtx) (lg : Nat → Nat → Nat) (w : Faults) (junk mm ss : Nat → Block) (n : Nat)

theorem cmacRoundYF_mac (hw : ∀ k x old, w k x old = some old) (i x : Nat) (a : Nat × Block) :
    (cmacRoundYF ctx lg w junk mm ss n i x a = none ∧ cmacRoundYF ctx lg w junk mm ss n i x a = none) ∨
      ∃ y y', cmacRoundYF ctx lg w junk mm ss n i x a = some y ∧ cmacRoundYF ctx lg w junk mm ss n i x a = some y' ∧
        y.1.1 = y'.1.1 ∧ y.1.2 = mm i := by
  unfold cmacRoundYF
  simp only
  cases ff1QBytes ctx.tweak (ff1B lg ctx.radix (n - floor2 n 1)) i x with
  | none => exact Or.inl ⟨rfl, rfl⟩
  | some Q =>
    simp only [Option.bind_some]
    split
    · refine Or.inr ⟨_, _, rfl, rfl, rfl, ?_⟩
      show bufF _ _ _ _ (mm i) = mm i
      unfold bufF callF
      rw [hw]
    · exact Or.inl ⟨rfl, rfl⟩

theorem cmacEnc_tag (hw : ∀ k x old, w k x old = some old) (t : MacSt) (i : Nat) (t' : MacSt)
    (h : cmacEncryptRoundF ctx lg w junk mm ss n t i = some t') : t'.1.2 = t.1.2 ^^^ mm i := by
  rcases cmacEncF_step ctx lg w junk mm ss n t i (fun x => cmacRoundYF ctx lg w junk mm ss n i x t.2) (fun y => y.1.1)
    (fun _ _ _ => ()) (fun y _ => y.1.2 = mm i) (fun x => cmacRoundYF_mac ctx lg w junk mm ss n hw i x _) with ⟨h1, _⟩ | ⟨s, o, y, y', h1, _, h3⟩
  · rw [h1] at h; cases h
  · rw [h1] at h
    injection h with h
    rw [← h, ← h3]

theorem cmacDec_tag (hw : ∀ k x old, w k x old = some old) (t : MacSt) (i : Nat) (t' : MacSt)
    (h : cmacDecryptRoundF ctx lg w junk mm ss n t i = some t') : t'.1.2 = t.1.2 ^^^ mm i := by
  rcases cmacDecF_step ctx lg w junk mm ss n t i (fun x => cmacRoundYF ctx lg w junk mm ss n i x (t.2.1, zeroBlock)) (fun y => y.1.1)
    (fun _ _ _ => ()) (fun y _ => y.1.2 = mm i) (fun x => cmacRoundYF_mac ctx lg w junk mm ss n hw i x _) with ⟨h1, _⟩ | ⟨s, o, y, y', h1, _, h3⟩
  · rw [h1] at h; cases h
  · rw [h1] at h
    injection h with h
    rw [← h, ← h3]

end dead

/-- C136, FF1-CMAC with a cipher that always fails and leaves its buffer alone: the tag, of both directions, is the sum of what the ten
rounds found in `M_mac`. It does not depend on key, tweak or text. -/
theorem C136_cmac_tag (ctx : FpeCtx) (lg : Nat → Nat → Nat) (w : Faults) (hw : ∀ k x old, w k x old = some old)
    (junk mm ss : Nat → Block) (R0 : Block) (input output : List Byte) (r : Nat × (List Byte × Block))
    (h : cmacEncryptF ctx lg w junk mm ss R0 input output = some r ∨ cmacDecryptF ctx lg w junk mm ss input output = some r) :
    r.2.2 = xorBlocks ((List.range 10).map mm) := by
  have z : ∀ b : Block, zeroBlock ^^^ b = b := fun b => Vec.zero_xor b
  rcases h with h | h
  · unfold cmacEncryptF at h
    obtain ⟨str, _, h⟩ := Option.bind_eq_some_iff.mp h
    obtain ⟨_, _, h⟩ := Option.bind_eq_some_iff.mp h
    obtain ⟨t, h1, h2⟩ := Option.bind_eq_some_iff.mp h
    obtain ⟨o, _, h4⟩ := Option.map_eq_some_iff.mp h2
    rw [← h4]
    have := fold_tag _ (fun t : MacSt => t.1.2) mm (cmacEnc_tag ctx lg w junk mm ss str.length hw) _ _ _ h1
    simp only [z] at this
    exact this
  · unfold cmacDecryptF at h
    obtain ⟨str, _, h⟩ := Option.bind_eq_some_iff.mp h
    obtain ⟨_, _, h⟩ := Option.bind_eq_some_iff.mp h
    obtain ⟨t, h1, h2⟩ := Option.bind_eq_some_iff.mp h
    obtain ⟨o, _, h4⟩ := Option.map_eq_some_iff.mp h2
    rw [← h4]
    have := fold_tag _ (fun t : MacSt => t.1.2) mm (cmacDec_tag ctx lg w junk mm ss str.length hw) _ _ _ h1
    simp only [z, List.map_reverse, xorBlocks_reverse] at this
    exact this

theorem multByte_zero (x : Block) (i : Fin 16) : multByte (Vector.replicate 16 0) (Vector.replicate 16 0) x (0, 0) i = (0, 0) := by
  have h : ∀ n : BitVec 4, multStep (Vector.replicate 16 0) (Vector.replicate 16 0) 0 0 n = (0, 0) := by decide
  unfold multByte
  simp only
  split
  · rw [h, h]
  · rw [h]

theorem gmacMultH_zero (x : Block) : gmacMultH (Vector.replicate 16 0) (Vector.replicate 16 0) x = zeroBlock := by
  have h0 : ∀ n : Fin 16, (Vector.replicate 16 (0 : BitVec 64))[n] = 0 := by decide
  unfold gmacMultH gcmMult
  simp only [h0, List.foldl_cons, List.foldl_nil, multByte_zero]
  decide

theorem xorBlocks_zeros (l : List Nat) : xorBlocks (l.map fun _ => zeroBlock) = zeroBlock := by
  induction l with
  | nil => rfl
  | cons i l ih => rw [List.map_cons, xorBlocks_cons, ih]; exact Vec.xor_zero _

section gmac0
variable (ctx : FpeCtx) (lg : Nat → Nat → Nat) (w : Faults) (n : Nat) (b : Block) (h0 : w 0 zeroBlock zeroBlock = some b)
include h0

theorem gmacGenHF_zero : gmacGenHF ctx.E w = (Vector.replicate 16 0, Vector.replicate 16 0) := by
  unfold gmacGenHF callF
  rw [h0]
  rfl

theorem gmacEnc_tag (t : MacSt) (i : Nat) (t' : MacSt) (h : gmacEncryptRoundF ctx lg w n t i = some t') : t'.1.2 = t.1.2 ^^^ zeroBlock := by
  rcases gmacEncF_step ctx lg w n t i (fun x => ff3RoundSF ctx lg w n i x t.2) (fun y => bin2bn y.2.toList)
    (fun _ _ _ => ()) (fun _ _ => True) (fun x => by
      rcases ff3RoundSF ctx lg w n i x t.2 with _ | y
      · exact Or.inl ⟨rfl, rfl⟩
      · exact Or.inr ⟨y, y, rfl, rfl, rfl, trivial⟩) with ⟨h1, _⟩ | ⟨s, o, y, y', h1, _, _⟩
  · rw [h1] at h; cases h
  · rw [h1, gmacGenHF_zero ctx w b h0, gmacMultH_zero] at h
    injection h with h
    rw [← h]

theorem gmacDec_tag (t : MacSt) (i : Nat) (t' : MacSt) (h : gmacDecryptRoundF ctx lg w n t i = some t') : t'.1.2 = t.1.2 ^^^ zeroBlock := by
  rcases gmacDecF_step ctx lg w n t i (fun x => ff3RoundSF ctx lg w n i x (t.2.1, zeroBlock)) (fun y => bin2bn y.2.toList)
    (fun _ _ _ => ()) (fun _ _ => True) (fun x => by
      rcases ff3RoundSF ctx lg w n i x (t.2.1, zeroBlock) with _ | y
      · exact Or.inl ⟨rfl, rfl⟩
      · exact Or.inr ⟨y, y, rfl, rfl, rfl, trivial⟩) with ⟨h1, _⟩ | ⟨s, o, y, y', h1, _, _⟩
  · rw [h1] at h; cases h
  · rw [h1, gmacGenHF_zero ctx w b h0, gmacMultH_zero] at h
    injection h with h
    rw [← h]

end gmac0

/-- C136, FF3-GMAC: if the first call of the block cipher fails, whatever the other calls do, the tag is zero, in both directions. -/
theorem C136_gmac_tag (ctx : FpeCtx) (lg : Nat → Nat → Nat) (w : Faults) (b : Block) (h0 : w 0 zeroBlock zeroBlock = some b)
    (S0 : Block) (input output : List Byte) (r : Nat × (List Byte × Block))
    (h : gmacEncryptF ctx lg w S0 input output = some r ∨ gmacDecryptF ctx lg w input output = some r) : r.2.2 = zeroBlock := by
  have z : ∀ b : Block, zeroBlock ^^^ b = b := fun b => Vec.zero_xor b
  rcases h with h | h
  · unfold gmacEncryptF gmacStartF at h
    rw [gmacGenHF_zero ctx w b h0, gmacMultH_zero] at h
    obtain ⟨str, _, h⟩ := Option.bind_eq_some_iff.mp h
    obtain ⟨M, hM, h⟩ := Option.bind_eq_some_iff.mp h
    have hM : M = zeroBlock := by
      split at hM
      · injection hM with hM; exact hM.symm
      · cases hM
    subst hM
    obtain ⟨t, h1, h2⟩ := Option.bind_eq_some_iff.mp h
    obtain ⟨o, _, h4⟩ := Option.map_eq_some_iff.mp h2
    rw [← h4]
    have := fold_tag _ (fun t : MacSt => t.1.2) _ (gmacEnc_tag ctx lg w str.length b h0) _ _ _ h1
    simp only [z, xorBlocks_zeros] at this
    exact this
  · unfold gmacDecryptF gmacStartF at h
    rw [gmacGenHF_zero ctx w b h0, gmacMultH_zero] at h
    obtain ⟨str, _, h⟩ := Option.bind_eq_some_iff.mp h
    obtain ⟨M, hM, h⟩ := Option.bind_eq_some_iff.mp h
    have hM : M = zeroBlock := by
      split at hM
      · injection hM with hM; exact hM.symm
      · cases hM
    subst hM
    obtain ⟨t, h1, h2⟩ := Option.bind_eq_some_iff.mp h
    obtain ⟨o, _, h4⟩ := Option.map_eq_some_iff.mp h2
    rw [← h4]
    have := fold_tag _ (fun t : MacSt => t.1.2) _ (gmacDec_tag ctx lg w str.length b h0) _ _ _ h1
    simp only [z, xorBlocks_zeros] at this
    exact this

/-! ### what a user gets -/

theorem text_tag {x : Option (Nat × (List Byte × Block))} {y : Option (Nat × List Byte)} {tag : Block}
    (h1 : x.map (fun r => (r.1, r.2.1)) = y) (h2 : ∀ r, x = some r → r.2.2 = tag) : x = y.map fun r => (r.1, (r.2, tag)) := by
  subst h1
  rcases x with _ | ⟨a, o, t⟩
  · rfl
  · have := h2 _ rfl
    simp only at this
    subst this
    rfl

/-- C136, FF3-GMAC with a cipher whose first call fails and that works from then on: the right ciphertext or plaintext with the
tag zero and the result 1. So if this happens to the receiver, every text with a tag of zeros passes. -/
theorem C136_gmac_first (ctx : FpeCtx) (ht : 16 ≤ ctx.tweak.length) (lg : Nat → Nat → Nat) (w : Faults) (b : Block)
    (h0 : w 0 zeroBlock zeroBlock = some b) (hw : ∀ k x old, w (k + 1) x old = none) (S0 : Block) (input output : List Byte) :
    gmacEncryptF ctx lg w S0 input output = (ff3Encrypt ctx lg input output).map (fun o => (1, (o, zeroBlock))) ∧
    gmacDecryptF ctx lg w input output = (ff3Decrypt ctx lg input output).map (fun o => (1, (o, zeroBlock))) := by
  obtain ⟨t1, t2⟩ := C136_gmac_text ctx ht lg w S0 input output
  obtain ⟨_, _, e1, e2⟩ := C135_works ctx lg (fun k => w (k + 1)) hw (fun _ => zeroBlock) S0 input output
  rw [text_tag t1 fun r hr => C136_gmac_tag ctx lg w b h0 S0 input output r (Or.inl hr),
    text_tag t2 fun r hr => C136_gmac_tag ctx lg w b h0 S0 input output r (Or.inr hr), e1, e2, Option.map_map, Option.map_map]
  exact ⟨rfl, rfl⟩

/-- C136, FF1-CMAC with a cipher that always fails and leaves its buffer alone: decryption gives back any text of numerals as it came
(halves below `2^96`), and encryption too if `R` was zero; the result is 1 and the tag the sum of what was in `M_mac`, the same for
all texts. So a text and the tag of any other text pass if the stacks of sender and receiver look alike. -/
theorem C136_cmac_dead (ctx : FpeCtx) (tweak : List Byte) (radix : Nat) (E : Block → Block)
    (hc : fpeInit tweak radix E = some ctx) (lg : Nat → Nat → Nat) (hlg : LgOk lg) (w : Faults)
    (hw : ∀ k x old, w k x old = some old) (junk mm ss : Nat → Block)
    (s rest out : List Byte) (hs : ∀ c ∈ s, IsNumeral radix c) (hn : 2 ≤ s.length) (hT : QOk lg tweak radix s.length)
    (ho : s.length < out.length) (hz : (∀ i, ss i = zeroBlock) ∨ lg radix (s.length - s.length / 2) ≤ 96) :
    cmacEncryptF ctx lg w junk mm ss zeroBlock (s ++ 0 :: rest) out =
      some (1, (s ++ 0 :: out.drop (s.length + 1), xorBlocks ((List.range 10).map mm))) ∧
    cmacDecryptF ctx lg w junk mm ss (s ++ 0 :: rest) out =
      some (1, (s ++ 0 :: out.drop (s.length + 1), xorBlocks ((List.range 10).map mm))) := by
  obtain ⟨ι, _, _, h⟩ := C136_cmac_text ctx lg s.length
  obtain ⟨t1, t2⟩ := h w junk mm ss zeroBlock s rest out (fun c hc => numeral_ne_zero c (hs c hc)) rfl
  rw [text_tag t1 fun r hr => C136_cmac_tag ctx lg w hw junk mm ss zeroBlock _ _ r (Or.inl hr),
    text_tag t2 fun r hr => C136_cmac_tag ctx lg w hw junk mm ss zeroBlock _ _ r (Or.inr hr),
    C135_ff1_plain ctx tweak radix E hc lg hlg _ (fun k => hw (ι k)) ss s rest out hs hn hT ho hz,
    C135_ff1_decrypt ctx tweak radix E hc lg hlg _ (fun k => hw (ι k)) ss s rest out hs hn hT ho hz]
  exact ⟨rfl, rfl⟩

/-- C136, FF3-GMAC with such a cipher: decryption gives back any text of numerals as it came, with the tag zero and the result 1.
Encryption does the same if `S` was zero. -/
theorem C136_gmac_dead (ctx : FpeCtx) (tweak : List Byte) (radix : Nat) (E : Block → Block)
    (hc : fpeInit tweak radix E = some ctx) (ht : 16 ≤ tweak.length) (lg : Nat → Nat → Nat) (hlg : LgOk lg) (w : Faults)
    (hw : ∀ k x old, w k x old = some old) (s rest out : List Byte) (hs : ∀ c ∈ s, IsNumeral radix c) (hn : 1 ≤ s.length)
    (ho : s.length < out.length) :
    gmacEncryptF ctx lg w zeroBlock (s ++ 0 :: rest) out = some (1, (s ++ 0 :: out.drop (s.length + 1), zeroBlock)) ∧
    gmacDecryptF ctx lg w (s ++ 0 :: rest) out = some (1, (s ++ 0 :: out.drop (s.length + 1), zeroBlock)) := by
  have htw : ctx.tweak = tweak := by
    unfold fpeInit at hc
    split at hc
    · cases hc
    · injection hc with hc; rw [← hc]
  obtain ⟨t1, t2⟩ := C136_gmac_text ctx (by rw [htw]; exact ht) lg w zeroBlock (s ++ 0 :: rest) out
  rw [text_tag t1 fun r hr => C136_gmac_tag ctx lg w zeroBlock (hw _ _ _) zeroBlock _ _ r (Or.inl hr),
    text_tag t2 fun r hr => C136_gmac_tag ctx lg w zeroBlock (hw _ _ _) zeroBlock _ _ r (Or.inr hr),
    C135_ff3_decrypt ctx tweak radix E hc (by omega) lg hlg _ (fun k => hw (k + 1)) s rest out hs hn ho]
  refine ⟨?_, rfl⟩
  unfold fpeInit at hc
  split at hc
  · cases hc
  rename_i hrr
  injection hc with hc
  subst hc
  have hr : 2 ≤ radix := by omega
  rw [ff3EncryptF_dead E tweak radix hr (by omega) lg hlg _ (fun k => hw (k + 1)) zeroBlock s rest out hs hn ho]
  have hz : ∀ i, bin2bn (revBytes (sBefore zeroBlock i)).toList = 0 := by
    intro i
    unfold sBefore
    split <;> decide
  simp only [hz]
  rw [fenc_zero (dead3_ok ⟨E, radix, tweak⟩ lg hlg s.length hn hr (show 8 ≤ tweak.length by omega) fun _ => 0) (fun _ _ => rfl) 4 (vals s)
    (length_vals s) (vals_lt s hs), chars_vals s hs]
  rfl

/-- A cipher that works, one that always fails, and one whose first call fails. -/
example : (∀ k x old, (fun _ _ _ => none : Faults) k x old = none) ∧ (∀ k x old, (fun _ _ old => some old : Faults) k x old = some old) ∧
    (fun k _ old => if k = 0 then some old else none : Faults) 0 zeroBlock zeroBlock = some zeroBlock ∧
    ∀ k x old, (fun k _ old => if k = 0 then some old else none : Faults) (k + 1) x old = none :=
  ⟨fun _ _ _ => rfl, fun _ _ _ => rfl, rfl, fun _ _ _ => rfl⟩

/-- Context, text and logarithm. -/
example : fpeInit (List.replicate 16 7) 10 id = some ⟨id, 10, List.replicate 16 7⟩ ∧ LgOk (fun r k => Nat.clog 2 (r ^ k)) ∧
    QOk (fun r k => Nat.clog 2 (r ^ k)) (List.replicate 16 7) 10 4 ∧ (fun r k => Nat.clog 2 (r ^ k)) 10 (4 - 4 / 2) ≤ 96 ∧
    16 ≤ (List.replicate 16 (7 : Byte)).length ∧ ∀ c ∈ ([0x31, 0x32, 0x33, 0x34] : List Byte), IsNumeral 10 c := by
  refine ⟨rfl, lgOk_clog, Or.inl (by simp), ?_, by simp, ?_⟩
  · show Nat.clog 2 (10 ^ 2) ≤ 96
    exact Nat.clog_le_of_le_pow (by norm_num)
  · intro c hc; unfold IsNumeral; revert c; decide

end Verif.Props
