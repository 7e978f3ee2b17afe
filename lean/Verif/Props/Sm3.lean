import Verif.Model.Sm3
import Verif.Spec.Sm3
import Verif.Props.Sm4
import Verif.Lemmas.GcmStream

/-! Properties C27, C28 of `/repo/src/sm3`. -/
set_option autoImplicit false
set_option linter.unusedSimpArgs false

namespace Verif.Props
open Verif Spec Model

/-! ### word operations -/

theorem rotate32_eq (a : BitVec 32) (n : Nat) (h0 : 0 < n) (h : n < 32) : rotate32 a n = a.rotateLeft n := by
  have : a &&& 0xffffffff = a := by
    rw [show (0xffffffff : BitVec 32) = BitVec.allOnes 32 by decide, BitVec.and_allOnes]
  rw [rotate32, this]
  exact rotl_eq a n h0 h

theorem p0_eq (x : BitVec 32) : p0 x = sm3P0 x := by
  simp only [p0, sm3P0, rotate32_eq _ 9 (by decide) (by decide), rotate32_eq _ 17 (by decide) (by decide)]

theorem p1_eq (x : BitVec 32) : p1 x = sm3P1 x := by
  simp only [p1, sm3P1, rotate32_eq _ 15 (by decide) (by decide), rotate32_eq _ 23 (by decide) (by decide)]

theorem ff_eq (j : Nat) (x y z : BitVec 32) : ff (decide (16 ≤ j)) x y z = sm3FF j x y z := by
  by_cases h : j < 16
  · simp [ff, sm3FF, h, show ¬ 16 ≤ j by omega]
  · simp only [ff, sm3FF, h, show 16 ≤ j by omega, decide_true, if_true, if_false]
    ext i hi
    simp only [BitVec.getElem_or, BitVec.getElem_and]
    cases x[i] <;> cases y[i] <;> cases z[i] <;> rfl

theorem gg_eq (j : Nat) (x y z : BitVec 32) : gg (decide (16 ≤ j)) x y z = sm3GG j x y z := by
  by_cases h : j < 16
  · simp [gg, sm3GG, h, show ¬ 16 ≤ j by omega]
  · simp only [gg, sm3GG, h, show 16 ≤ j by omega, decide_true, if_true, if_false]
    ext i hi
    simp only [BitVec.getElem_or, BitVec.getElem_and, BitVec.getElem_xor, BitVec.getElem_not]
    cases x[i] <;> cases y[i] <;> cases z[i] <;> rfl

/-! ### the unrolled program -/

/-- What the instruction of step `j` should be. -/
def expInstr (j : Nat) : Sm3Instr :=
  { r2 := decide (16 ≤ j)
    regs := Vector.ofFn fun m : Fin 8 => ⟨4 * (m.1 / 4) + (m.1 % 4 + 3 * j) % 4, by omega⟩
    tj := (sm3T j).rotateLeft (j % 32)
    wi := Fin.ofNat 16 j
    wj1 := Fin.ofNat 16 j
    wj2 := Fin.ofNat 16 (j + 4)
    expand := if j < 52 then
      some #v[Fin.ofNat 16 j, Fin.ofNat 16 j, Fin.ofNat 16 (j + 7), Fin.ofNat 16 (j + 13), Fin.ofNat 16 (j + 3), Fin.ofNat 16 (j + 10)]
      else none }

theorem sm3Prog_eq : sm3Prog = (List.range 64).map expInstr := by decide +kernel

/-- The physical registers holding the logical ones at step `j`. -/
def phys (j : Nat) (v : Oct) : Regs :=
  match j % 4 with
  | 0 => #v[v.a, v.b, v.c, v.d, v.e, v.f, v.g, v.h]
  | 1 => #v[v.b, v.c, v.d, v.a, v.f, v.g, v.h, v.e]
  | 2 => #v[v.c, v.d, v.a, v.b, v.g, v.h, v.e, v.f]
  | _ => #v[v.d, v.a, v.b, v.c, v.h, v.e, v.f, v.g]

theorem phys_cases (j : Nat) (v : Oct) :
    (j % 4 = 0 → phys j v = #v[v.a, v.b, v.c, v.d, v.e, v.f, v.g, v.h]) ∧
    (j % 4 = 1 → phys j v = #v[v.b, v.c, v.d, v.a, v.f, v.g, v.h, v.e]) ∧
    (j % 4 = 2 → phys j v = #v[v.c, v.d, v.a, v.b, v.g, v.h, v.e, v.f]) ∧
    (j % 4 = 3 → phys j v = #v[v.d, v.a, v.b, v.c, v.h, v.e, v.f, v.g]) := by
  refine ⟨?_, ?_, ?_, ?_⟩ <;> (intro h; unfold phys; rw [h]; rfl)

theorem regs_cases (j : Nat) : (j % 4 = 0 ∧ (expInstr j).regs = #v[0, 1, 2, 3, 4, 5, 6, 7]) ∨
    (j % 4 = 1 ∧ (expInstr j).regs = #v[3, 0, 1, 2, 7, 4, 5, 6]) ∨
    (j % 4 = 2 ∧ (expInstr j).regs = #v[2, 3, 0, 1, 6, 7, 4, 5]) ∨
    (j % 4 = 3 ∧ (expInstr j).regs = #v[1, 2, 3, 0, 5, 6, 7, 4]) := by
  have h4 : j % 4 = 0 ∨ j % 4 = 1 ∨ j % 4 = 2 ∨ j % 4 = 3 := by omega
  have hm : (expInstr j).regs = (expInstr (j % 4)).regs := by
    unfold expInstr
    simp only
    apply Vector.ext
    intro i hi
    simp only [Vector.getElem_ofFn, Fin.mk.injEq]
    omega
  rcases h4 with h | h | h | h <;> rw [hm, h]
  · exact Or.inl ⟨rfl, by decide⟩
  · exact Or.inr (Or.inl ⟨rfl, by decide⟩)
  · exact Or.inr (Or.inr (Or.inl ⟨rfl, by decide⟩))
  · exact Or.inr (Or.inr (Or.inr ⟨rfl, by decide⟩))

theorem rnd_eq (ws : List W32) (j : Nat) (v : Oct) (w : WBuf)
    (hi : w[(expInstr j).wi] = ws.getD j 0) (h1 : w[(expInstr j).wj1] = ws.getD j 0)
    (h2 : w[(expInstr j).wj2] = ws.getD (j + 4) 0) :
    rnd (expInstr j) (phys j v) w = phys (j + 1) (sm3Step ws v j) := by
  have hI : expInstr j = ⟨decide (16 ≤ j), (expInstr j).regs, (sm3T j).rotateLeft (j % 32), (expInstr j).wi,
    (expInstr j).wj1, (expInstr j).wj2, (expInstr j).expand⟩ := rfl
  have hc := regs_cases j
  generalize (expInstr j).regs = regs at hI hc
  rw [hI]
  unfold rnd sm3Step
  simp only [hi, h1, h2, p0_eq, rotate32_eq _ 12 (by decide) (by decide), rotate32_eq _ 7 (by decide) (by decide),
    rotate32_eq _ 9 (by decide) (by decide), rotate32_eq _ 19 (by decide) (by decide), ff_eq, gg_eq]
  rcases hc with ⟨h, e⟩ | ⟨h, e⟩ | ⟨h, e⟩ | ⟨h, e⟩
  · rw [(phys_cases j v).1 h, (phys_cases (j + 1) _).2.1 (by omega)]
    subst e
    rfl
  · rw [(phys_cases j v).2.1 h, (phys_cases (j + 1) _).2.2.1 (by omega)]
    subst e
    rfl
  · rw [(phys_cases j v).2.2.1 h, (phys_cases (j + 1) _).2.2.2 (by omega)]
    subst e
    rfl
  · rw [(phys_cases j v).2.2.2 h, (phys_cases (j + 1) _).1 (by omega)]
    subst e
    rfl

/-! ### message expansion -/

def schedN (blk : List Byte) (n : Nat) : List W32 := (List.range n).foldl (fun w _ => sm3Extend w) (sm3Words blk)

theorem schedN_succ (blk : List Byte) (n : Nat) : schedN blk (n + 1) = sm3Extend (schedN blk n) := by
  simp [schedN, List.range_succ]

theorem length_schedN (blk : List Byte) (n : Nat) : (schedN blk n).length = 16 + n := by
  induction n with
  | zero => simp [schedN, sm3Words]
  | succ n ih => rw [schedN_succ, sm3Extend]; simp [ih]; omega

theorem schedN_getD (blk : List Byte) (n m k : Nat) (h : n ≤ m) (hk : k < 16 + n) :
    (schedN blk m).getD k 0 = (schedN blk n).getD k 0 := by
  induction m with
  | zero => have : n = 0 := by omega
            subst this; rfl
  | succ m ih =>
    by_cases hm : n ≤ m
    · rw [← ih hm, schedN_succ, sm3Extend]
      simp only [List.getD_eq_getElem?_getD]
      rw [List.getElem?_append_left (by rw [length_schedN]; omega)]
    · have : n = m + 1 := by omega
      subst this; rfl

theorem sched_rec (blk : List Byte) (j : Nat) (hj : j < 52) :
    (sm3Schedule blk).getD (j + 16) 0 =
      sm3P1 ((sm3Schedule blk).getD j 0 ^^^ (sm3Schedule blk).getD (j + 7) 0 ^^^
        ((sm3Schedule blk).getD (j + 13) 0).rotateLeft 15) ^^^
      ((sm3Schedule blk).getD (j + 3) 0).rotateLeft 7 ^^^ (sm3Schedule blk).getD (j + 10) 0 := by
  have e : sm3Schedule blk = schedN blk 52 := rfl
  rw [e, schedN_getD blk (j + 1) 52 (j + 16) (by omega) (by omega), schedN_getD blk j 52 j (by omega) (by omega),
    schedN_getD blk j 52 (j + 7) (by omega) (by omega), schedN_getD blk j 52 (j + 13) (by omega) (by omega),
    schedN_getD blk j 52 (j + 3) (by omega) (by omega), schedN_getD blk j 52 (j + 10) (by omega) (by omega)]
  rw [schedN_succ, sm3Extend]
  simp only [length_schedN]
  rw [show 16 + j - 16 = j by omega, show 16 + j - 9 = j + 7 by omega, show 16 + j - 3 = j + 13 by omega,
    show 16 + j - 13 = j + 3 by omega, show 16 + j - 6 = j + 10 by omega]
  have hl : (schedN blk j).length = j + 16 := by rw [length_schedN]; omega
  rw [List.getD_eq_getElem?_getD, List.getElem?_append_right (by omega)]
  simp [hl]

theorem sched_start (blk : List Byte) (k : Nat) (hk : k < 16) :
    (sm3Schedule blk).getD k 0 = hostC2l blk (4 * k) := by
  have e : sm3Schedule blk = schedN blk 52 := rfl
  rw [e, schedN_getD blk 0 52 k (by omega) (by omega)]
  simp only [schedN, List.range_zero, List.foldl_nil, sm3Words, hostC2l, or4_eq_append]
  simp [List.getD_eq_getElem?_getD, hk]

structure WInv (blk : List Byte) (j : Nat) (w : WBuf) : Prop where
  val : ∀ t, t < 16 → j + t < 68 → w[(j + t) % 16]'(Nat.mod_lt _ (by decide)) = (sm3Schedule blk).getD (j + t) 0

theorem expandW_inv (blk : List Byte) (j : Nat) (hj : j < 64) (w : WBuf) (inv : WInv blk j w) :
    WInv blk (j + 1) (expandW (expInstr j) w) := by
  constructor
  intro t ht hlt
  by_cases h52 : j < 52
  · have he : expandW (expInstr j) w = w.set (j % 16) ((sm3Schedule blk).getD (j + 16) 0) (Nat.mod_lt _ (by decide)) := by
      rw [sched_rec blk j h52]
      have hx : (expInstr j).expand = some #v[Fin.ofNat 16 j, Fin.ofNat 16 j, Fin.ofNat 16 (j + 7), Fin.ofNat 16 (j + 13),
        Fin.ofNat 16 (j + 3), Fin.ofNat 16 (j + 10)] := by
        simp [expInstr, h52]
      unfold expandW
      rw [hx]
      simp only [p1_eq, rotate32_eq _ 15 (by decide) (by decide), rotate32_eq _ 7 (by decide) (by decide)]
      rw [← inv.val 7 (by omega) (by omega), ← inv.val 13 (by omega) (by omega), ← inv.val 3 (by omega) (by omega),
        ← inv.val 10 (by omega) (by omega)]
      have h0 := inv.val 0 (by omega) (by omega)
      simp only [Nat.add_zero] at h0
      rw [← h0]
      rfl
    simp only [he]
    by_cases h15 : t = 15
    · subst h15
      have : (j + 1 + 15) % 16 = j % 16 := by omega
      simp only [this]
      rw [Vector.getElem_set_self, show j + 1 + 15 = j + 16 by omega]
    · rw [Vector.getElem_set_ne _ _ (by omega)]
      have := inv.val (t + 1) (by omega) (by omega)
      simp only [show j + (t + 1) = j + 1 + t by omega] at this
      exact this
  · have he : expandW (expInstr j) w = w := by
      have hx : (expInstr j).expand = none := by simp [expInstr, h52]
      unfold expandW
      rw [hx]
    simp only [he]
    have := inv.val (t + 1) (by omega) (by omega)
    simp only [show j + (t + 1) = j + 1 + t by omega] at this
    exact this

theorem exec_inv (blk : List Byte) (v : Oct) (w : WBuf) (hw : WInv blk 0 w) (n : Nat) (hn : n ≤ 64) :
    (((List.range n).map expInstr).foldl sm3Exec (phys 0 v, w)).1 =
      phys n ((List.range n).foldl (sm3Step (sm3Schedule blk)) v) ∧
    WInv blk n (((List.range n).map expInstr).foldl sm3Exec (phys 0 v, w)).2 := by
  induction n with
  | zero => exact ⟨rfl, hw⟩
  | succ n ih =>
    obtain ⟨h1, h2⟩ := ih (by omega)
    rw [List.range_succ, List.map_append, List.foldl_append, List.foldl_append]
    generalize ((List.range n).map expInstr).foldl sm3Exec (phys 0 v, w) = s at h1 h2
    simp only [List.map_cons, List.map_nil, List.foldl_cons, List.foldl_nil, sm3Exec]
    refine ⟨?_, expandW_inv blk n (by omega) _ h2⟩
    rw [h1]
    have a0 := h2.val 0 (by omega) (by omega)
    have a4 := h2.val 4 (by omega) (by omega)
    simp only [Nat.add_zero] at a0
    exact rnd_eq (sm3Schedule blk) n _ s.2 a0 a0 a4

theorem feedForward (v u : Oct) :
    (Vector.ofFn fun i : Fin 8 => (phys 0 v)[i] ^^^ (phys 64 u)[i]) = phys 0 (u.xor v) := by
  rw [(phys_cases 64 u).1 (by decide), (phys_cases 0 v).1 (by decide), (phys_cases 0 _).1 (by decide)]
  have h8 : ∀ a b c d e f g h a' b' c' d' e' f' g' h' : W32,
      (Vector.ofFn fun i : Fin 8 => #v[a, b, c, d, e, f, g, h][i] ^^^ #v[a', b', c', d', e', f', g', h'][i]) =
      #v[a' ^^^ a, b' ^^^ b, c' ^^^ c, d' ^^^ d, e' ^^^ e, f' ^^^ f, g' ^^^ g, h' ^^^ h] := by
    intro a b c d e f g h a' b' c' d' e' f' g' h'
    rw [BitVec.xor_comm a', BitVec.xor_comm b', BitVec.xor_comm c', BitVec.xor_comm d', BitVec.xor_comm e',
      BitVec.xor_comm f', BitVec.xor_comm g', BitVec.xor_comm h']
    rfl
  exact h8 _ _ _ _ _ _ _ _ _ _ _ _ _ _ _ _

theorem sm3Block_eq (v : Oct) (blk : List Byte) : sm3Block (phys 0 v) blk = phys 0 (sm3CF v blk) := by
  unfold sm3Block
  rw [sm3Prog_eq]
  have hw : WInv blk 0 (Vector.ofFn fun i : Fin 16 => hostC2l blk (4 * i.1)) := by
    constructor
    intro t ht _
    simp only [Nat.zero_add, Nat.mod_eq_of_lt ht, Vector.getElem_ofFn]
    exact (sched_start blk t ht).symm
  have h := (exec_inv blk v _ hw 64 (Nat.le_refl _)).1
  simp only [h]
  unfold sm3CF
  exact feedForward v _

/-! ### blocks -/

theorem splitAux_fuel (n : Nat) : ∀ (m : Nat) (l : List Byte), l.length ≤ n → l.length ≤ m →
    splitAux 64 n l = splitAux 64 m l := by
  induction n with
  | zero =>
    intro m l h _
    have : l = [] := List.length_eq_zero_iff.mp (by omega)
    subst this
    cases m <;> rfl
  | succ n ih =>
    intro m l h1 h2
    cases l with
    | nil => cases m <;> rfl
    | cons b l =>
      cases m with
      | zero => simp at h2
      | succ m =>
        simp only [splitAux]
        rw [ih m _ (by simp at *; omega) (by simp at *; omega)]

theorem split64_of_ne_nil {l : List Byte} (h : l ≠ []) : split64 l = l.take 64 :: split64 (l.drop 64) := by
  cases l with
  | nil => exact absurd rfl h
  | cons b l =>
    show (b :: l).take 64 :: splitAux 64 l.length ((b :: l).drop 64) = _
    rw [splitAux_fuel l.length ((b :: l).drop 64).length _ (by simp) (Nat.le_refl _)]
    rfl

theorem sm3Blocks_eq (n : Nat) : ∀ (v : Oct) (d : List Byte), 64 * n ≤ d.length →
    sm3Blocks (phys 0 v) d n = phys 0 ((split64 (d.take (64 * n))).foldl sm3CF v) := by
  induction n with
  | zero => intro v d _; simp [sm3Blocks, split64, splitAux]
  | succ n ih =>
    intro v d h
    have hne : d.take (64 * (n + 1)) ≠ [] := by
      intro h0; have := congrArg List.length h0; rw [List.length_take, List.length_nil] at this; omega
    rw [split64_of_ne_nil hne, List.foldl_cons, sm3Blocks, sm3Block_eq, ih _ _ (by rw [List.length_drop]; omega),
      List.take_take, Nat.min_eq_left (by omega), List.drop_take, show 64 * (n + 1) - 64 = 64 * n by omega]

theorem split64_append (b : List Byte) (n : Nat) : ∀ a : List Byte, a.length = 64 * n →
    split64 (a ++ b) = split64 a ++ split64 b := by
  induction n with
  | zero =>
    intro a h
    have : a = [] := List.length_eq_zero_iff.mp (by omega)
    subst this; rfl
  | succ n ih =>
    intro a h
    have ha : a ≠ [] := by intro h0; rw [h0] at h; simp at h
    rw [split64_of_ne_nil ha, split64_of_ne_nil (by simp [ha]), List.take_append_of_le_length (by omega),
      List.drop_append_of_le_length (by omega), ih _ (by rw [List.length_drop]; omega), List.cons_append]

theorem split64_one (a : List Byte) (h : a.length = 64) : split64 a = [a] := by
  have ha : a ≠ [] := by intro h0; rw [h0] at h; simp at h
  rw [split64_of_ne_nil ha, List.take_of_length_le (by omega), List.drop_of_length_le (by omega)]; rfl

theorem sm3Blocks_one (v : Oct) (d : List Byte) (h : d.length = 64) :
    sm3Blocks (phys 0 v) d 1 = phys 0 (sm3CF v d) := by
  rw [sm3Blocks_eq 1 v d (by omega), Nat.mul_one, List.take_of_length_le (by omega), split64_one d h]; rfl

/-! ### streaming -/

theorem putAt_append (a b s : List Byte) : putAt (a ++ b) a.length s = a ++ s ++ b.drop s.length := by
  simp [putAt, List.drop_append]

/-- The context represents the absorbed message `m`; its counter is that of `m` and `off` more. -/
structure Rep (off : BitVec 64) (c : Sm3Ctx) (m : List Byte) : Prop where
  split : ∃ full rest n, m = full ++ rest ∧ full.length = 64 * n ∧ rest.length < 64 ∧
    c.st = phys 0 ((split64 full).foldl sm3CF sm3IV) ∧ c.num = rest.length ∧ c.data.take c.num = rest
  len : c.data.length = 64
  count : (c.nh ++ c.nl : BitVec 64) = off + BitVec.ofNat 64 (8 * m.length)

theorem init_rep : Rep 0 sm3Init [] := by
  refine ⟨⟨[], [], 0, rfl, rfl, by decide, rfl, rfl, rfl⟩, by decide, by decide⟩

theorem count_eq (c : Sm3Ctx) (n : Nat) :
    ((sm3Count c n).nh ++ (sm3Count c n).nl : BitVec 64) = (c.nh ++ c.nl : BitVec 64) + BitVec.ofNat 64 (8 * n) := by
  apply BitVec.eq_of_toNat_eq
  rw [toNat_append', BitVec.toNat_add, toNat_append']
  have h8 : (BitVec.ofNat 32 n <<< 3).toNat = 8 * n % 2 ^ 32 := by
    rw [BitVec.toNat_shiftLeft, BitVec.toNat_ofNat, Nat.shiftLeft_eq]; omega
  have hl : (sm3Count c n).nl.toNat = (c.nl.toNat + 8 * n % 2 ^ 32) % 2 ^ 32 := by
    show (c.nl + (BitVec.ofNat 32 n <<< 3)).toNat = _
    rw [BitVec.toNat_add, h8]
  have hs : (BitVec.ofNat 32 (n >>> 29)).toNat = n / 2 ^ 29 % 2 ^ 32 := by
    rw [BitVec.toNat_ofNat, Nat.shiftRight_eq_div_pow]
  have hnl := c.nl.isLt
  have hnh := c.nh.isLt
  have hh : (sm3Count c n).nh.toNat = (c.nh.toNat + (if c.nl.toNat + 8 * n % 2 ^ 32 < 2 ^ 32 then 0 else 1) +
      n / 2 ^ 29 % 2 ^ 32) % 2 ^ 32 := by
    show ((if c.nl + (BitVec.ofNat 32 n <<< 3) < c.nl then c.nh + 1 else c.nh) + BitVec.ofNat 32 (n >>> 29)).toNat = _
    have hc : (c.nl + (BitVec.ofNat 32 n <<< 3) < c.nl) ↔ ¬ (c.nl.toNat + 8 * n % 2 ^ 32 < 2 ^ 32) := by
      rw [BitVec.lt_def, BitVec.toNat_add, h8]; omega
    by_cases h : c.nl.toNat + 8 * n % 2 ^ 32 < 2 ^ 32
    · rw [if_neg (fun hx => hc.mp hx h), if_pos h, BitVec.toNat_add, hs]; omega
    · rw [if_pos (hc.mpr h), if_neg h, BitVec.toNat_add, BitVec.toNat_add, hs]
      rw [show (1 : BitVec 32).toNat = 1 by decide]; omega
  rw [hh, hl, BitVec.toNat_ofNat]
  split <;> omega

/-- `sm3Tail` absorbs its argument after full blocks. -/
theorem tail_rep (off : BitVec 64) (c : Sm3Ctx) (full d : List Byte) (n : Nat) (hf : full.length = 64 * n)
    (hst : c.st = phys 0 ((split64 full).foldl sm3CF sm3IV)) (hnum : c.num = 0) (hlen : c.data.length = 64)
    (hcount : (c.nh ++ c.nl : BitVec 64) = off + BitVec.ofNat 64 (8 * (full ++ d).length)) :
    Rep off (sm3Tail c d) (full ++ d) := by
  have hst' : (if d.length / 64 > 0 then { c with st := sm3Blocks c.st d (d.length / 64) } else c) =
      { c with st := phys 0 ((split64 (full ++ d.take (64 * (d.length / 64)))).foldl sm3CF sm3IV) } := by
    rw [split64_append _ n full hf, List.foldl_append]
    split
    · rw [hst, sm3Blocks_eq _ _ _ (by omega)]
    · have : d.length / 64 = 0 := by omega
      rw [this, Nat.mul_zero, List.take_zero]
      show c = { c with st := phys 0 ((split64 full).foldl sm3CF sm3IV) }
      rw [← hst]
  unfold sm3Tail
  simp only [hst', Nat.mul_comm (d.length / 64) 64]
  have hsplit : full ++ d = (full ++ d.take (64 * (d.length / 64))) ++ d.drop (64 * (d.length / 64)) := by
    rw [List.append_assoc, List.take_append_drop]
  have hl2 : (full ++ d.take (64 * (d.length / 64))).length = 64 * (n + d.length / 64) := by
    rw [List.length_append, List.length_take, hf]; omega
  have hr : (d.drop (64 * (d.length / 64))).length < 64 := by rw [List.length_drop]; omega
  split
  · refine ⟨⟨_, _, _, hsplit, hl2, hr, rfl, rfl, ?_⟩, ?_, hcount⟩
    · simp [putAt]
    · simp only [putAt, List.take_zero, List.nil_append, List.length_append, List.length_drop, Nat.zero_add, hlen]
      rw [List.length_drop] at hr
      omega
  · next h0 =>
    have h0' : d.drop (64 * (d.length / 64)) = [] := List.length_eq_zero_iff.mp (by omega)
    refine ⟨⟨_, _, _, hsplit, hl2, hr, rfl, ?_, ?_⟩, hlen, hcount⟩
    · rw [h0']; exact hnum
    · rw [h0']; show c.data.take c.num = []; rw [hnum]; rfl

theorem update_rep (off : BitVec 64) (c : Sm3Ctx) (m d : List Byte) (h : Rep off c m) : Rep off (sm3Update c d) (m ++ d) := by
  unfold sm3Update
  simp only []
  split
  · next h0 =>
    have : d = [] := List.length_eq_zero_iff.mp h0
    rw [this, List.append_nil]; exact h
  · next hd =>
    obtain ⟨⟨full, rest, n, hm, hf, hr, hst, hnum, hdat⟩, hlen, hcount⟩ := h
    have hc := count_eq c d.length
    rw [hcount, BitVec.add_assoc, ← BitVec.ofNat_add, ← Nat.mul_add, ← List.length_append] at hc
    generalize hc' : sm3Count c d.length = c' at hc
    have e1 : c'.st = c.st := by rw [← hc']; rfl
    have e2 : c'.num = c.num := by rw [← hc']; rfl
    have e3 : c'.data = c.data := by rw [← hc']; rfl
    split
    · next hn =>
      split
      · next hbig =>
        have hdl : d.length + rest.length ≥ 64 := by rw [e2, hnum] at hbig; omega
        have hbuf : putAt c'.data c'.num (d.take (64 - c'.num)) = rest ++ d.take (64 - c'.num) := by
          rw [putAt, e2, e3, hdat, List.drop_of_length_le, List.append_nil]
          rw [List.length_take, hlen]; omega
        have hbl : (rest ++ d.take (64 - c'.num)).length = 64 := by
          rw [List.length_append, List.length_take, e2, hnum]; omega
        have hmd : m ++ d = (full ++ (rest ++ d.take (64 - c'.num))) ++ d.drop (64 - c'.num) := by
          rw [hm]; simp only [List.append_assoc, List.take_append_drop]
        rw [hmd] at hc ⊢
        apply tail_rep off _ _ _ (n + 1)
        · rw [List.length_append, hbl, hf]; omega
        · show sm3Blocks c'.st _ 1 = _
          rw [hbuf, e1, hst, sm3Blocks_one _ _ hbl, split64_append _ n full hf, split64_one _ hbl, List.foldl_append]
          rfl
        · rfl
        · simp
        · exact hc
      · next hsm =>
        have hsm' : d.length + rest.length < 64 := by rw [e2, hnum] at hsm; omega
        refine ⟨⟨full, rest ++ d, n, by rw [hm, List.append_assoc], hf, ?_, by rw [← hst]; exact e1, ?_, ?_⟩, ?_, hc⟩
        · rw [List.length_append]; omega
        · show c'.num + d.length = _
          rw [e2, hnum, List.length_append]
        · show (putAt c'.data c'.num d).take (c'.num + d.length) = _
          rw [putAt, e2, e3, hdat, hnum, List.take_left' (by rw [List.length_append])]
        · show (putAt c'.data c'.num d).length = 64
          rw [putAt, e2, e3, hdat, hnum, List.length_append, List.length_append, List.length_drop, hlen]; omega
    · next hn =>
      have hn' : c'.num = 0 := by omega
      have : rest = [] := List.length_eq_zero_iff.mp (by omega)
      subst this
      rw [List.append_nil] at hm
      subst hm
      exact tail_rep off c' m d n hf (by rw [e1, hst]) hn' (by rw [e3]; exact hlen) hc

theorem hostL2c_eq (w : BitVec 32) : hostL2c w = wordToBytes w := by
  have h : ∀ k, ((w >>> k) &&& 0xff).truncate 8 = w.extractLsb' k 8 := by
    intro k
    rw [← trunc_shift]
    generalize w >>> k = x
    ext i hi
    simp only [BitVec.truncate_eq_setWidth, BitVec.getElem_setWidth, BitVec.getLsbD_and]
    have : (0xff : BitVec 32).getLsbD i = true := by
      have h8 : ∀ i : Fin 8, (0xff : BitVec 32).getLsbD i.1 = true := by decide
      exact h8 ⟨i, hi⟩
    rw [this, Bool.and_true]
  have h0 := h 0
  simp only [BitVec.ushiftRight_zero] at h0
  simp only [hostL2c, wordToBytes, h, h0]

theorem lenBytes_eq (a b : BitVec 32) :
    (List.range 8).map (fun i => ((a ++ b : BitVec 64) >>> (56 - 8 * i)).truncate 8) = wordToBytes a ++ wordToBytes b := by
  have hlo : ∀ k, k + 8 ≤ 32 → ((a ++ b : BitVec 64) >>> k).truncate 8 = b.extractLsb' k 8 := by
    intro k hk
    ext i hi
    simp only [BitVec.truncate_eq_setWidth, BitVec.getElem_setWidth, BitVec.getLsbD_ushiftRight, BitVec.getLsbD_append, BitVec.getElem_extractLsb']
    rw [if_pos (by omega)]
  have hhi : ∀ k, k + 8 ≤ 32 → ((a ++ b : BitVec 64) >>> (32 + k)).truncate 8 = a.extractLsb' k 8 := by
    intro k hk
    ext i hi
    simp only [BitVec.truncate_eq_setWidth, BitVec.getElem_setWidth, BitVec.getLsbD_ushiftRight, BitVec.getLsbD_append, BitVec.getElem_extractLsb']
    rw [if_neg (by omega), show 32 + k + i - 32 = k + i by omega]
  have h8 : List.range 8 = [0, 1, 2, 3, 4, 5, 6, 7] := by decide
  rw [h8]
  simp only [List.map_cons, List.map_nil, wordToBytes, List.cons_append, List.nil_append]
  rw [← hhi 24 (by omega), ← hhi 16 (by omega), ← hhi 8 (by omega), ← hhi 0 (by omega), ← hlo 24 (by omega),
    ← hlo 16 (by omega), ← hlo 8 (by omega), ← hlo 0 (by omega)]

theorem final_st (off : BitVec 64) (c : Sm3Ctx) (m : List Byte) (h : Rep off c m) :
    sm3FinalSt c = phys 0 ((split64 (sm3PadWith (c.nh ++ c.nl : BitVec 64) m)).foldl sm3CF sm3IV) := by
  obtain ⟨⟨full, rest, n, hm, hf, hr, hst, hnum, hdat⟩, hlen, hcount⟩ := h
  have hdata : c.data = rest ++ c.data.drop rest.length := by
    have := List.take_append_drop c.num c.data
    rw [hdat, hnum] at this; exact this.symm
  have hp1 : putAt c.data c.num [0x80] = (rest ++ [0x80]) ++ c.data.drop (rest.length + 1) := by
    rw [hnum]
    conv => lhs; rw [hdata]
    rw [putAt_append]
    simp
  have hml : m.length % 64 = rest.length := by rw [hm, List.length_append, hf]; omega
  have hlb := lenBytes_eq c.nh c.nl
  have hpad : sm3PadWith (c.nh ++ c.nl : BitVec 64) m = full ++ (rest ++ [0x80] ++ List.replicate ((119 - rest.length) % 64) 0 ++
      (hostL2c c.nh ++ hostL2c c.nl)) := by
    unfold sm3PadWith
    simp only [hlb, hml, hostL2c_eq]
    rw [hm]; simp only [List.append_assoc]
  have hfin : ∀ (v : Oct) (a : List Byte) (b : List Byte), a.length = 56 → b.length = 8 →
      sm3Blocks (phys 0 v) (putAt (putAt (a ++ b) 56 (hostL2c c.nh)) 60 (hostL2c c.nl)) 1 =
      phys 0 (sm3CF v (a ++ (hostL2c c.nh ++ hostL2c c.nl))) := by
    intro v a b ha hb
    have h1 : putAt (a ++ b) 56 (hostL2c c.nh) = (a ++ hostL2c c.nh) ++ b.drop 4 := by
      have := putAt_append a b (hostL2c c.nh)
      rw [ha] at this; exact this
    have h2 : putAt ((a ++ hostL2c c.nh) ++ b.drop 4) 60 (hostL2c c.nl) = a ++ (hostL2c c.nh ++ hostL2c c.nl) := by
      have := putAt_append (a ++ hostL2c c.nh) (b.drop 4) (hostL2c c.nl)
      rw [show (a ++ hostL2c c.nh).length = 60 by simp [ha, hostL2c]] at this
      rw [this, List.drop_of_length_le (by simp [hb, hostL2c])]
      simp
    rw [h1, h2, sm3Blocks_one _ _ (by simp [ha, hostL2c])]
  have hdl : (c.data.drop (rest.length + 1)).length = 63 - rest.length := by rw [List.length_drop, hlen]; omega
  rw [hpad, split64_append _ n full hf, List.foldl_append]
  unfold sm3FinalSt
  simp only [hp1]
  by_cases hbig : c.num + 1 > 64 - 8
  · simp only [hbig, if_true]
    have hz : putAt (rest ++ [0x80] ++ c.data.drop (rest.length + 1)) (c.num + 1) (List.replicate (64 - (c.num + 1)) 0) =
        rest ++ [0x80] ++ List.replicate (63 - rest.length) 0 := by
      have := putAt_append (rest ++ [0x80]) (c.data.drop (rest.length + 1)) (List.replicate (64 - (c.num + 1)) 0)
      rw [List.length_append, List.length_singleton] at this
      rw [hnum] at this ⊢
      rw [this, List.drop_of_length_le (by rw [hdl, List.length_replicate]; omega), List.append_nil,
        show 64 - (rest.length + 1) = 63 - rest.length by omega]
    have hzl : (rest ++ [(0x80 : Byte)] ++ List.replicate (63 - rest.length) 0).length = 64 := by
      simp; omega
    rw [hz, hst, sm3Blocks_one _ _ hzl]
    have hz2 : putAt (rest ++ [(0x80 : Byte)] ++ List.replicate (63 - rest.length) 0) 0 (List.replicate (64 - 8 - 0) 0) =
        List.replicate 56 0 ++ (rest ++ [(0x80 : Byte)] ++ List.replicate (63 - rest.length) 0).drop 56 := by
      have := putAt_append [] (rest ++ [(0x80 : Byte)] ++ List.replicate (63 - rest.length) 0) (List.replicate (64 - 8 - 0) 0)
      simpa using this
    rw [hz2, hfin _ _ _ (by simp) (by rw [List.length_drop, hzl])]
    have hnum56 : (119 - rest.length) % 64 = (63 - rest.length) + 56 := by omega
    rw [hnum56, ← List.replicate_append_replicate]
    have : rest ++ [(0x80 : Byte)] ++ (List.replicate (63 - rest.length) 0 ++ List.replicate 56 0) ++
        (hostL2c c.nh ++ hostL2c c.nl) = (rest ++ [(0x80 : Byte)] ++ List.replicate (63 - rest.length) 0) ++
        (List.replicate 56 0 ++ (hostL2c c.nh ++ hostL2c c.nl)) := by simp only [List.append_assoc]
    rw [this, split64_append _ 1 _ (by rw [hzl]), split64_one _ hzl,
      split64_one (List.replicate 56 0 ++ (hostL2c c.nh ++ hostL2c c.nl)) (by simp [hostL2c])]
    rfl
  · simp only [hbig, if_false]
    have hz : putAt (rest ++ [0x80] ++ c.data.drop (rest.length + 1)) (c.num + 1) (List.replicate (64 - 8 - (c.num + 1)) 0) =
        (rest ++ [0x80] ++ List.replicate (55 - rest.length) 0) ++ c.data.drop 56 := by
      have := putAt_append (rest ++ [0x80]) (c.data.drop (rest.length + 1)) (List.replicate (64 - 8 - (c.num + 1)) 0)
      rw [List.length_append, List.length_singleton] at this
      rw [hnum] at this hbig ⊢
      rw [this, List.drop_drop, List.length_replicate, show rest.length + 1 + (64 - 8 - (rest.length + 1)) = 56 by omega,
        show 64 - 8 - (rest.length + 1) = 55 - rest.length by omega]
    rw [hz, hst, hfin _ _ _ (by simp; omega) (by rw [List.length_drop, hlen])]
    have hnum55 : (119 - rest.length) % 64 = 55 - rest.length := by omega
    rw [hnum55, split64_one (rest ++ [0x80] ++ List.replicate (55 - rest.length) 0 ++ (hostL2c c.nh ++ hostL2c c.nl))
      (by simp [hostL2c]; omega)]
    rfl

theorem bytes_eq (v : Oct) : ((phys 0 v).toList.map hostL2c).flatten = v.bytes := by
  rw [(phys_cases 0 v).1 (by decide)]
  simp [hostL2c_eq, Oct.bytes]

theorem final_eq (c : Sm3Ctx) (m : List Byte) (h : Rep 0 c m) : sm3Final c = Spec.sm3 m := by
  rw [sm3Final, final_st 0 c m h, bytes_eq, h.count, show (0 : BitVec 64) = 0#64 from rfl, BitVec.zero_add]
  rfl

theorem updates_rep (off : BitVec 64) (chunks : List (List Byte)) : ∀ (c : Sm3Ctx) (m : List Byte), Rep off c m →
    Rep off (chunks.foldl sm3Update c) (m ++ chunks.flatten) := by
  induction chunks with
  | nil => intro c m h; simpa using h
  | cons d ds ih =>
    intro c m h
    rw [List.foldl_cons, List.flatten_cons, ← List.append_assoc]
    exact ih _ _ (update_rep off c m d h)

/-- C27: any sequence of updates gives the digest of the concatenation in one call. -/
theorem C27_sm3_streaming (parts : List (List Byte)) :
    sm3Final (parts.foldl sm3Update sm3Init) = sm3Hash parts.flatten := by
  have h1 := final_eq _ _ (updates_rep 0 parts sm3Init [] init_rep)
  have h2 := final_eq _ _ (update_rep 0 sm3Init [] parts.flatten init_rep)
  rw [h1, sm3Hash, h2]

/- Three pieces, one of them empty, crossing a block boundary. -/
example : [List.replicate 60 (1 : Byte), [], List.replicate 10 2].flatten.length = 70 := by decide

/-- C28: the digest is that of GB/T 32905 (the standard covers messages shorter than 2^64 bits; for longer ones the
length field is reduced modulo 2^64). -/
theorem C28_sm3_standard (m : List Byte) : sm3Hash m = Spec.sm3 m := by
  have h := final_eq _ _ (update_rep 0 sm3Init [] m init_rep)
  rwa [List.nil_append] at h

end Verif.Props
