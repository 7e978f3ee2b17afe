import Verif.Model.Shuffle

/-! C58: the byte shuffle. -/
set_option autoImplicit false

namespace Verif.Props
open Verif Model

theorem exchange_some (l : List Byte) (i j : Nat) (hi : i < l.length) (hj : j < l.length) :
    ∃ l', exchange l i j = some l' ∧ l'.Perm l := by
  refine ⟨(l.set i l[j]).set j l[i], ?_, ?_⟩
  · simp [exchange, hi, hj]
  · rw [List.perm_iff_count]
    intro a
    rw [List.count_set (by simpa using hj), List.count_set hi, List.getElem_set]
    have h1 : l[i] ∈ l := List.getElem_mem hi
    have h2 : l[j] ∈ l := List.getElem_mem hj
    have hc : ∀ k (hk : k < l.length), l[k] = a → 0 < l.count a := by
      intro k hk h
      exact List.count_pos_iff.mpr (h ▸ List.getElem_mem hk)
    have hci := hc i hi
    have hcj := hc j hj
    by_cases hij : i = j
    · subst hij
      simp only [if_true]
      by_cases ha : l[i] = a
      · have := hci ha
        simp [ha]; omega
      · simp [ha]
    · rw [if_neg hij]
      by_cases ha : l[i] = a <;> by_cases hb : l[j] = a
      · have := hci ha
        simp [ha, hb]; omega
      · have := hci ha
        simp [ha, hb]; omega
      · have := hcj hb
        simp [ha, hb]
      · simp [ha, hb]

theorem shuffleLoop_some (rn : Nat → BitVec 32) (len : Nat) (l : List Byte) (h : len ≤ l.length) :
    ∃ l', shuffleLoop rn len l = some l' ∧ l'.Perm l := by
  induction len generalizing l with
  | zero => exact ⟨l, rfl, .refl _⟩
  | succ len ih =>
    have hr := Nat.mod_lt (rn (len + 1)).toNat (show 0 < len + 1 by omega)
    obtain ⟨l1, h1, p1⟩ := exchange_some l len ((rn (len + 1)).toNat % (len + 1)) (by omega) (by omega)
    obtain ⟨l2, h2, p2⟩ := ih l1 (by rw [p1.length_eq]; omega)
    exact ⟨l2, by rw [shuffleLoop, h1]; exact h2, p2.trans p1⟩

/-- C58: for every stream of random numbers the shuffle stays inside the list and returns a rearrangement of it. -/
theorem C58_shuffle (rnd : Nat → BitVec 32) (l : List Byte) :
    ∃ l', randomShuffleU8 rnd l = some l' ∧ l'.Perm l :=
  shuffleLoop_some _ _ l (Nat.le_refl _)

example : randomShuffleU8 (fun k => BitVec.ofNat 32 (3 * k)) [1, 2, 3, 4, 5] = some [2, 3, 4, 5, 1] := by decide +kernel

end Verif.Props
