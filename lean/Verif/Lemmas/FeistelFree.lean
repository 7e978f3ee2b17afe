import Verif.Lemmas.Fpe

/-! The first two rounds of the Feistel networks on digits that may be too large. -/
set_option autoImplicit false

namespace Verif
open Model Spec

section free
variable {τ : Type} {n u r : Nat} {q : Nat → Nat} {num : List Nat → Nat} {str : Nat → Nat → List Nat}
  {F : Nat → Nat → Option (Nat × τ)} {f : Nat → Nat → Nat × τ}

theorem two_rounds (ok : FeistelOk n u r q num str F f) (A B : List Nat) (hA : A.length = u) (hB : B.length = n - u)
    (y : Nat) (t : τ) (hF : F 0 (num B) = some (y, t)) :
    [0, 1].foldlM (encR n u q num str F (fun (_ : Unit) _ => ())) (lay u 0 (A, B), ()) =
      some (lay u 2 (str ((num A + y) % r ^ u) u,
        str ((num B + (f 1 ((num A + y) % r ^ u)).1) % r ^ (n - u)) (n - u)), ()) := by
  have hr := ok.r2
  have hu := ok.hu
  have l0 : halfLen n u 0 = u := rfl
  have l1 : halfLen n u 1 = n - u := rfl
  have q0 : q 0 = r ^ u := ok.hq 0
  have q1 : q 1 = r ^ (n - u) := ok.hq 1
  have hlt : (num A + y) % r ^ u < r ^ u := Nat.mod_lt _ (by positivity)
  simp only [List.foldlM_cons, List.foldlM_nil, Option.bind_eq_bind]
  rw [encR_lay n u hu ok.hu0 q num str ok.len F _ 0 (A, B) () hA hB y t hF, Option.bind_some]
  have hF1 : F 1 (num (str ((num A + y) % r ^ u) u)) = some ((f 1 ((num A + y) % r ^ u)).1, (f 1 ((num A + y) % r ^ u)).2) := by
    rw [ok.num_str _ _ hlt, ok.hF 1 _ (by omega) (by rw [l1, show n - (n - u) = u by omega]; exact hlt)]
  simp only [l0, q0]
  rw [encR_lay n u hu ok.hu0 q num str ok.len F _ 1 (B, str ((num A + y) % r ^ u) u) () (by rw [l1]; exact hB)
    (by show (str _ u).length = _; rw [ok.len, l1]; omega) _ _ hF1, Option.bind_some]
  simp only [l1, q1]
  rfl

/-- Halves with the same fate as `A`, `B`, whose digits may be too large. -/
theorem exists_halves (ok : FeistelOk n u r q num str F f) (A B : List Nat) (hA : A.length = u) (hB : B.length = n - u)
    (y : Nat) (t : τ) (hF : F 0 (num B) = some (y, t)) : ∃ A' B', Halves n u r 0 (A', B') ∧
      num B' = num B % r ^ (n - u) ∧ (num B < r ^ (n - u) → num A' = num A % r ^ u) ∧
      [0, 1].foldlM (encR n u q num str F (fun (_ : Unit) _ => ())) (lay u 0 (A, B), ()) =
        [0, 1].foldlM (encR n u q num str F (fun (_ : Unit) _ => ())) (lay u 0 (A', B'), ()) := by
  have hr := ok.r2
  have l0 : halfLen n u 0 = u := rfl
  have hltv : num B % r ^ (n - u) < r ^ (n - u) := Nat.mod_lt _ (by positivity)
  have hltu : (num A + y) % r ^ u < r ^ u := Nat.mod_lt _ (by positivity)
  have hx : bnModSub ((num A + y) % r ^ u) (f 0 (num B % r ^ (n - u))).1 (r ^ u) < r ^ u := modSub_lt _ _ _ (by positivity)
  have nB : num (str (num B % r ^ (n - u)) (n - u)) = num B % r ^ (n - u) := ok.num_str _ _ hltv
  refine ⟨str (bnModSub ((num A + y) % r ^ u) (f 0 (num B % r ^ (n - u))).1 (r ^ u)) u, str (num B % r ^ (n - u)) (n - u),
    ⟨ok.len _ _, ?_, ok.dig _ _, ok.dig _ _⟩, nB, ?_, ?_⟩
  · exact ok.len _ _
  · intro h
    have hf : f 0 (num B) = (y, t) := by
      have := ok.hF 0 (num B) (by omega) (by rw [l0]; exact h)
      rw [hF] at this
      exact (Option.some.inj this).symm
    rw [ok.num_str _ _ hx, Nat.mod_eq_of_lt h, hf, ← Nat.mod_add_mod]
    exact modSub_add _ _ _ (Nat.mod_lt _ (by positivity))
  · have hF' : F 0 (num (str (num B % r ^ (n - u)) (n - u))) = some ((f 0 (num B % r ^ (n - u))).1, (f 0 (num B % r ^ (n - u))).2) := by
      rw [nB, ok.hF 0 _ (by omega) (by rw [l0]; exact hltv)]
    rw [two_rounds ok A B hA hB y t hF, two_rounds ok _ _ (ok.len _ _) (ok.len _ _) _ _ hF', ok.num_str _ _ hx, nB,
      add_modSub _ _ _ hltu, Nat.mod_add_mod]

end free

end Verif
