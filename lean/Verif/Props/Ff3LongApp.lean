import Verif.Props.Ff3Long
import Verif.Props.FpeAppNist

/-! C93: long Chinese texts in the FF3 mode of the FPE applications. -/
set_option autoImplicit false

namespace Verif.Props
open Verif Spec Model

theorem getElem?_four {α : Type} (a b c d : α) (l : List α) (j : Nat) : ([a, b, c, d] ++ l)[j + 4]? = l[j]? := by
  simp

theorem cnDigits_get (l : List Nat) : ∀ (t : Nat), (ht : t < l.length) →
    (cnDigits l)[4 * t]? = some ((l[t] - 0x4E00) % 12) ∧ (cnDigits l)[4 * t + 1]? = some ((l[t] - 0x4E00) / 12 % 12) ∧
    (cnDigits l)[4 * t + 2]? = some ((l[t] - 0x4E00) / 144 % 12) ∧
    (cnDigits l)[4 * t + 3]? = some ((l[t] - 0x4E00) / 1728 % 12) := by
  induction l with
  | nil => intro t ht; simp at ht
  | cons c l ih =>
    intro t ht
    have e : cnDigits (c :: l) = [(c - 0x4E00) % 12, (c - 0x4E00) / 12 % 12, (c - 0x4E00) / 144 % 12, (c - 0x4E00) / 1728 % 12] ++
      cnDigits l := by rw [cnDigits, List.flatMap_cons, ← cnDigits]
    rw [e]
    cases t with
    | zero => exact ⟨rfl, rfl, rfl, rfl⟩
    | succ t =>
      have := ih t (by simpa using ht)
      simp only [List.getElem_cons_succ]
      have sh : ∀ j, ([(c - 0x4E00) % 12, (c - 0x4E00) / 12 % 12, (c - 0x4E00) / 144 % 12, (c - 0x4E00) / 1728 % 12] ++
          cnDigits l)[j + 4]? = (cnDigits l)[j]? := by
        intro j
        exact getElem?_four _ _ _ _ _ j
      rw [show 4 * (t + 1) = 4 * t + 4 by omega, sh, show 4 * t + 4 + 1 = 4 * t + 1 + 4 by omega, sh,
        show 4 * t + 4 + 2 = 4 * t + 2 + 4 by omega, sh, show 4 * t + 4 + 3 = 4 * t + 3 + 4 by omega, sh]
      exact this

theorem cn_char (a b : Nat) (ha : InCnRange a) (hb : InCnRange b) (h0 : (a - 0x4E00) % 12 = (b - 0x4E00) % 12)
    (h1 : (a - 0x4E00) / 12 % 12 = (b - 0x4E00) / 12 % 12) (h2 : (a - 0x4E00) / 144 % 12 = (b - 0x4E00) / 144 % 12)
    (h3 : (a - 0x4E00) / 1728 % 12 = (b - 0x4E00) / 1728 % 12) : a = b := by
  unfold InCnRange at ha hb
  omega

/-- C93: Chinese text. In FF3 mode, for every cipher, every text and every sample that shows at least two characters:
among the hidden characters, counted from 0, take one with index at least 9 in the first half, or at least 9 characters
behind the middle. As soon as it is below `U+9840`, or its encryption is at least `U+54C0`, every later hidden character
in the same half is written to the output unchanged. -/
theorem C93_cn (app : FpeApp) (hf : app.ffx = .ff3) (lg : Nat → Nat → Nat) (hlg : LgOk lg) (cps : List Nat) (smp : List Byte)
    (mask : List Bool) (hr : ∀ cp ∈ cps, InCnRange cp) (hm : CnSample smp mask cps.length) (h2 : 2 ≤ mask.count true)
    (h1 : 1 ≤ mask.count false) :
    ∃ r : List Nat, r.length = mask.count false ∧ (∀ cp ∈ r, InCnRange cp) ∧
      (∀ (mem : AppMem) (rest more after : List Byte), 1 ≤ mem.slack → 3 * cps.length ≤ after.length →
        encryptCn app lg mem (utf8Text cps ++ 0 :: rest) (smp ++ 0 :: more) after =
          some (utf8Text (fill mask cps r) ++ after.drop (3 * cps.length))) ∧
      (∀ t₀ t, 9 ≤ t₀ → t₀ < t → 2 * t + 2 ≤ mask.count false →
        ((∃ cp, (pick false mask cps)[t₀]? = some cp ∧ cp < 0x9840) ∨ (∃ cp, r[t₀]? = some cp ∧ 0x54C0 ≤ cp)) →
        r[t]? = (pick false mask cps)[t]?) ∧
      (∀ t₀ t, mask.count false + 17 ≤ 2 * t₀ → t₀ < t → t < mask.count false →
        ((∃ cp, (pick false mask cps)[t₀]? = some cp ∧ cp < 0x9840) ∨ (∃ cp, r[t₀]? = some cp ∧ 0x54C0 ≤ cp)) →
        r[t]? = (pick false mask cps)[t]?) := by
  have hml := hm.length
  have hcf := length_pick false mask cps hml
  have hct := length_pick true mask cps hml
  have hpr : ∀ cp ∈ pick false mask cps, InCnRange cp := fun cp h => hr cp (mem_pick _ _ _ cp h)
  generalize hX : pick false mask cps = h at hcf hpr ⊢
  have hd := cnDigits_lt h
  have hlen : (cnDigits h).length = 4 * mask.count false := by
    rw [← vals_duoText, List.length_map, length_duoText, hcf]
  have ht8 : 8 ≤ (duoText (pick true mask cps) ++ [0]).length := by
    rw [List.length_append, length_duoText, hct]; simp; omega
  obtain ⟨l1, l2, -⟩ := ff3Out_ok ⟨app.E, 12, duoText (pick true mask cps) ++ [0]⟩ lg hlg (by simp) ht8 (cnDigits h) hd
    (by omega)
  obtain ⟨c1, c2⟩ := ff3Out_clear ⟨app.E, 12, duoText (pick true mask cps) ++ [0]⟩ lg hlg (by simp) ht8 (cnDigits h) hd
    (by omega) 37 (show 2 ^ 130 ≤ 12 ^ 37 by decide)
  obtain ⟨r, a1, a2, a3⟩ := cnDigits_surj (mask.count false) _ ⟨l1.trans hlen, l2⟩
  rw [← a3, hlen, show (4 * mask.count false + 1) / 2 = 2 * mask.count false by omega] at c1 c2
  have hcond : ∀ t₀, t₀ < mask.count false → ((∃ cp, h[t₀]? = some cp ∧ cp < 0x9840) ∨ (∃ cp, r[t₀]? = some cp ∧ 0x54C0 ≤ cp)) →
      ((cnDigits h)[4 * t₀ + 3]? ≠ some (12 - 1) ∨ (cnDigits r)[4 * t₀ + 3]? ≠ some 0) := by
    intro t₀ ht₀ hc
    rw [(cnDigits_get h t₀ (by omega)).2.2.2, (cnDigits_get r t₀ (by omega)).2.2.2]
    rcases hc with ⟨cp, e, hcp⟩ | ⟨cp, e, hcp⟩
    · left
      rw [List.getElem?_eq_getElem (by omega)] at e
      injection e with e
      rw [e]
      simp only [ne_eq, Option.some.injEq]
      omega
    · right
      rw [List.getElem?_eq_getElem (by omega)] at e
      injection e with e
      have := a2 _ (List.getElem_mem (show t₀ < r.length by omega))
      rw [e] at this ⊢
      unfold InCnRange at this
      simp only [ne_eq, Option.some.injEq]
      omega
  have hchar : ∀ t, t < mask.count false → (∀ e < 4, (cnDigits r)[4 * t + e]? = (cnDigits h)[4 * t + e]?) → r[t]? = h[t]? := by
    intro t ht he
    obtain ⟨g0, g1, g2, g3⟩ := cnDigits_get h t (by omega)
    obtain ⟨k0, k1, k2, k3⟩ := cnDigits_get r t (by omega)
    have f0 := he 0 (by omega)
    have f1 := he 1 (by omega)
    have f2 := he 2 (by omega)
    have f3 := he 3 (by omega)
    rw [Nat.add_zero, g0, k0] at f0
    rw [g1, k1] at f1
    rw [g2, k2] at f2
    rw [g3, k3] at f3
    rw [List.getElem?_eq_getElem (by omega), List.getElem?_eq_getElem (by omega)]
    congr 1
    exact cn_char _ _ (a2 _ (List.getElem_mem _)) (hpr _ (List.getElem_mem _)) (Option.some.inj f0) (Option.some.inj f1)
      (Option.some.inj f2) (Option.some.inj f3)
  refine ⟨r, a1, a2, ?_, ?_, ?_⟩
  · intro mem rest more after hsl ha
    have he := ff3Encrypt_eq ⟨app.E, 12, duoText (pick true mask cps) ++ [0]⟩ lg hlg (by simp) ht8 (duoText h) []
      (vla mem.ans (4 * mask.count false + mem.slack)) (duoText_numeral _) (by rw [length_duoText]; omega)
      (by rw [length_duoText, hcf, length_vla]; omega)
    rw [show vals (duoText h) = cnDigits h from vals_duoText h, ← a3, ← duoText_digits] at he
    have hfn : ∀ c i o, ff3Encrypt c lg i o = encFn app lg c i o := by
      intro c i o
      unfold encFn
      rw [hf]
    rw [hfn] at he
    subst hX
    exact cn_some app mem cps r smp rest more after mask hr hm ha _ _ a1 a2 he
  · intro t₀ t h9 htt hth hc
    exact hchar t (by omega) fun e he => c1 (4 * t₀ + 3) (4 * t + e) (by omega) (by omega) (by omega) (hcond t₀ (by omega) hc)
  · intro t₀ t h9 htt hth hc
    exact hchar t (by omega) fun e he => c2 (4 * t₀ + 3) (4 * t + e) (by omega) (by omega) (by omega) (hcond t₀ (by omega) hc)

/-- For 30 hidden characters: after characters 9 and 24 (if below `U+9840`), characters 10 to 14 and 25 to 29 are visible. -/
example : 9 ≤ 9 ∧ 2 * 14 + 2 ≤ 30 ∧ 30 + 17 ≤ 2 * 24 ∧ 24 < 29 ∧ InCnRange 0x4E2D ∧ 0x4E2D < 0x9840 := by
  unfold InCnRange; decide

end Verif.Props
