import Verif.Lemmas.Gf2
import Verif.Lemmas.SeHints
import Verif.Model.SeWbsm4

/-! The 2039 pairs of `se_wbsm4_local.c` are self-equivalences of the S-box: `B (S (A x)) = S x`. -/
set_option autoImplicit false
set_option maxRecDepth 20000

namespace Verif
open Spec Model

def seS (x : Byte) : Byte := SE_SBOX[x.toFin]

/-- `(A, B)` is a self-equivalence of the S-box. -/
def SelfEq (A B : Aff 8) : Prop := ∀ x, affineU B (seS (affineU A x)) = seS x

/-! ### products of packed entries -/

/-- Bit `k` as 0 or 1. -/
def nbit (r k : Nat) : Nat := Nat.land (Nat.shiftRight r k) 1

def nrow (n i : Nat) : Nat := Nat.land (Nat.shiftRight n (Nat.sub 64 (Nat.mul 8 i))) 255

/-- Row vector times the matrix of `b`. -/
def nmul (r b : Nat) : Nat :=
  Nat.xor (Nat.mul (nbit r 7) (nrow b 0)) <| Nat.xor (Nat.mul (nbit r 6) (nrow b 1)) <|
  Nat.xor (Nat.mul (nbit r 5) (nrow b 2)) <| Nat.xor (Nat.mul (nbit r 4) (nrow b 3)) <|
  Nat.xor (Nat.mul (nbit r 3) (nrow b 4)) <| Nat.xor (Nat.mul (nbit r 2) (nrow b 5)) <|
  Nat.xor (Nat.mul (nbit r 1) (nrow b 6)) (Nat.mul (nbit r 0) (nrow b 7))

def npar (x : Nat) : Nat :=
  Nat.xor (nbit x 7) <| Nat.xor (nbit x 6) <| Nat.xor (nbit x 5) <| Nat.xor (nbit x 4) <|
  Nat.xor (nbit x 3) <| Nat.xor (nbit x 2) <| Nat.xor (nbit x 1) (nbit x 0)

/-- Matrix of `a` times a column. -/
def ncol (a v : Nat) : Nat :=
  Nat.xor (Nat.mul (npar (Nat.land (nrow a 0) v)) 128) <| Nat.xor (Nat.mul (npar (Nat.land (nrow a 1) v)) 64) <|
  Nat.xor (Nat.mul (npar (Nat.land (nrow a 2) v)) 32) <| Nat.xor (Nat.mul (npar (Nat.land (nrow a 3) v)) 16) <|
  Nat.xor (Nat.mul (npar (Nat.land (nrow a 4) v)) 8) <| Nat.xor (Nat.mul (npar (Nat.land (nrow a 5) v)) 4) <|
  Nat.xor (Nat.mul (npar (Nat.land (nrow a 6) v)) 2) (Nat.mul (npar (Nat.land (nrow a 7) v)) 1)

def nvec (a : Nat) : Nat := Nat.land a 255

def rowOk (c a b i : Nat) : Bool := Nat.beq (nrow c i) (nmul (nrow a i) b)

/-- The entry `c` is the composition of `a` after `b`. -/
def prodOk (c a b : Nat) : Bool :=
  rowOk c a b 0 && (rowOk c a b 1 && (rowOk c a b 2 && (rowOk c a b 3 && (rowOk c a b 4 && (rowOk c a b 5 &&
    (rowOk c a b 6 && (rowOk c a b 7 && Nat.beq (nvec c) (Nat.xor (ncol a (nvec b)) (nvec a)))))))))

theorem bits_ofNat8 (n : Nat) {j : Nat} (hj : j < 8) : bits (BitVec.ofNat 8 n) j = n.testBit (7 - j) := by
  unfold bits
  rw [BitVec.getMsbD, BitVec.getLsbD_ofNat]
  have : 8 - 1 - j = 7 - j := by omega
  rw [this]
  simp [hj]
  omega

theorem testBit_255 (n : Nat) {j : Nat} (hj : j < 8) : (Nat.land n 255).testBit j = n.testBit j := by
  have h : Nat.land n 255 = n % 2 ^ 8 := Nat.and_two_pow_sub_one_eq_mod n 8
  rw [h, Nat.testBit_mod_two_pow]
  simp [hj]

theorem nbit_eq (r k : Nat) : nbit r k = (r.testBit k).toNat := by
  have h : Nat.land (Nat.shiftRight r k) 1 = Nat.shiftRight r k % 2 := Nat.and_one_is_mod _
  rw [nbit, h, Nat.toNat_testBit]
  congr 1
  exact Nat.shiftRight_eq_div_pow r k

theorem testBit_toNat_mul (b : Bool) (x k : Nat) : (Nat.mul b.toNat x).testBit k = (b && x.testBit k) := by
  cases b
  · have : Nat.mul false.toNat x = 0 := Nat.zero_mul x
    rw [this]; simp
  · have : Nat.mul true.toNat x = x := Nat.one_mul x
    rw [this]; simp

theorem testBit_xor' (x y k : Nat) : (Nat.xor x y).testBit k = (x.testBit k ^^ y.testBit k) := Nat.testBit_xor x y k

theorem mbit_seAff (n : Nat) {i j : Nat} (hi : i < 8) (hj : j < 8) :
    mbit (seAff n).mat i j = (nrow n i).testBit (7 - j) := by
  unfold mbit seAff
  rw [row_ofFn _ hi, bits_ofNat8 _ hj]
  unfold nrow
  rw [testBit_255 _ (by omega)]
  rfl

theorem testBit_nmul (r b k : Nat) : (nmul r b).testBit k = gsum 8 (fun t => r.testBit (7 - t) && (nrow b t).testBit k) := by
  simp only [nmul, nbit_eq, testBit_xor', testBit_toNat_mul, gsum, Bool.false_xor, Bool.xor_assoc, Nat.reduceSub]

theorem xor_toNat (a b : Bool) : Nat.xor a.toNat b.toNat = (a ^^ b).toNat := by cases a <;> cases b <;> rfl

theorem npar_eq (x : Nat) : npar x = (gsum 8 (fun t => x.testBit (7 - t))).toNat := by
  simp only [npar, nbit_eq, xor_toNat, gsum, Bool.false_xor, Bool.xor_assoc, Nat.reduceSub]

theorem testBit_ncol (a v : Nat) {k : Nat} (hk : k < 8) :
    (ncol a v).testBit (7 - k) = gsum 8 (fun t => (Nat.land (nrow a k) v).testBit (7 - t)) := by
  simp only [ncol, npar_eq, testBit_xor', testBit_toNat_mul]
  match k, hk with
  | 0, _ => simp [Nat.testBit]
  | 1, _ => simp [Nat.testBit]
  | 2, _ => simp [Nat.testBit]
  | 3, _ => simp [Nat.testBit]
  | 4, _ => simp [Nat.testBit]
  | 5, _ => simp [Nat.testBit]
  | 6, _ => simp [Nat.testBit]
  | 7, _ => simp [Nat.testBit]

/-- A checked product acts as the composition. -/
theorem prodOk_spec (c a b : Nat) (h : prodOk c a b = true) (x : Byte) :
    affineU (seAff c) x = affineU (seAff a) (affineU (seAff b) x) := by
  unfold prodOk at h
  simp only [Bool.and_eq_true] at h
  obtain ⟨h0, h1, h2, h3, h4, h5, h6, h7, hv⟩ := h
  have hm : ∀ i, i < 8 → rowOk c a b i = true := by
    intro i hi
    match i, hi with
    | 0, _ => exact h0
    | 1, _ => exact h1
    | 2, _ => exact h2
    | 3, _ => exact h3
    | 4, _ => exact h4
    | 5, _ => exact h5
    | 6, _ => exact h6
    | 7, _ => exact h7
  have hmat : (seAff c).mat = matMulMat (seAff a).mat (seAff b).mat := by
    apply mat_ext
    intro i j hi hj
    have this := Nat.eq_of_beq_eq_true (hm i hi)
    rw [mbit_seAff c hi hj, this, testBit_nmul, mbit_matMulMat _ _ hi hj]
    apply gsum_congr
    intro t ht
    rw [mbit_seAff a hi ht, mbit_seAff b ht hj]
  have hvec : (seAff c).vec = matMulNum (seAff a).mat (seAff b).vec ^^^ (seAff a).vec := by
    apply bits_ext
    intro i hi
    have hv := Nat.eq_of_beq_eq_true hv
    rw [bits_xor, bits_matMulNum _ _ hi]
    have e : ∀ n, bits (seAff n).vec i = n.testBit (7 - i) := fun n => bits_ofNat8 n hi
    have ev : ∀ n, (nvec n).testBit (7 - i) = n.testBit (7 - i) := fun n => testBit_255 n (by omega)
    rw [e c, e a, ← ev c, hv, testBit_xor', ev a, testBit_ncol _ _ hi]
    congr 1
    apply gsum_congr
    intro t ht
    have e2 : bits (seAff b).vec t = b.testBit (7 - t) := bits_ofNat8 b ht
    have e3 : (Nat.land (nrow a i) (nvec b)).testBit (7 - t) = ((nrow a i).testBit (7 - t) && (nvec b).testBit (7 - t)) :=
      Nat.testBit_and _ _ _
    rw [mbit_seAff a hi ht, e2, e3, nvec, testBit_255 b (by omega)]
  unfold affineU
  rw [hmat, hvec, matMulNum_matMulMat, matMulNum_xor, BitVec.xor_assoc]

theorem selfEq_comp (c1 c2 a1 a2 b1 b2 : Nat) (ha : SelfEq (seAff a1) (seAff a2)) (hb : SelfEq (seAff b1) (seAff b2))
    (h1 : prodOk c1 a1 b1 = true) (h2 : prodOk c2 b2 a2 = true) : SelfEq (seAff c1) (seAff c2) := by
  intro x
  rw [prodOk_spec c1 a1 b1 h1, prodOk_spec c2 b2 a2 h2, ha, hb]

/-! ### checking the data -/

/-- Consecutive entries differ by the generator. -/
def chainOk (g1 g2 : Nat) : List (Nat × Nat) → Bool
  | (x1, x2) :: (y1, y2) :: l => prodOk y1 g1 x1 && prodOk y2 x2 g2 && chainOk g1 g2 ((y1, y2) :: l)
  | _ => true

theorem chain_selfEq (g1 g2 : Nat) (hg : SelfEq (seAff g1) (seAff g2)) (l : List (Nat × Nat)) (h : chainOk g1 g2 l = true)
    (h0 : ∀ p, l.head? = some p → SelfEq (seAff p.1) (seAff p.2)) : ∀ p ∈ l, SelfEq (seAff p.1) (seAff p.2) := by
  induction l with
  | nil => simp
  | cons a l ih =>
    intro p hp
    rcases List.mem_cons.mp hp with rfl | hp
    · exact h0 p rfl
    · cases l with
      | nil => simp at hp
      | cons b l =>
        rw [chainOk, Bool.and_eq_true, Bool.and_eq_true] at h
        have ha := h0 a rfl
        refine ih h.2 ?_ p hp
        rintro q hq
        rw [List.head?_cons, Option.some.injEq] at hq
        subst hq
        exact selfEq_comp _ _ _ _ _ _ hg ha h.1.1 h.1.2

def seG : List (Nat × Nat) := seGA.zip seGB
def seF : List (Nat × Nat) := seFA.zip seFB

/-- Evaluation of a packed entry. -/
def nap (n x : Nat) : Nat := Nat.xor (ncol n x) (nvec n)

theorem nap_spec (n : Nat) (x : Byte) : affineU (seAff n) x = BitVec.ofNat 8 (nap n x.toNat) := by
  apply bits_ext
  intro i hi
  unfold affineU nap
  have hx : ∀ t, t < 8 → bits x t = x.toNat.testBit (7 - t) := by
    intro t ht
    have := bits_ofNat8 x.toNat ht
    rwa [BitVec.ofNat_toNat, BitVec.setWidth_eq] at this
  have e : bits (seAff n).vec i = n.testBit (7 - i) := bits_ofNat8 n hi
  rw [bits_xor, bits_matMulNum _ _ hi, e, bits_ofNat8 _ hi, testBit_xor', nvec, testBit_255 n (by omega), testBit_ncol _ _ hi]
  congr 1
  apply gsum_congr
  intro t ht
  rw [mbit_seAff n hi ht, hx t ht]
  exact (Nat.testBit_and _ _ _).symm

def selfEqOk (a b : Nat) : Bool :=
  (List.range 256).all fun x => nap b (seS (BitVec.ofNat 8 (nap a x))).toNat == (seS (BitVec.ofNat 8 x)).toNat

theorem selfEqOk_spec (a b : Nat) (h : selfEqOk a b = true) : SelfEq (seAff a) (seAff b) := by
  intro x
  rw [selfEqOk, List.all_eq_true] at h
  have := h x.toNat (List.mem_range.mpr x.isLt)
  rw [beq_iff_eq] at this
  rw [nap_spec, nap_spec, this]
  simp

theorem id_selfEq : SelfEq (seAff 0x804020100804020100) (seAff 0x804020100804020100) :=
  selfEqOk_spec _ _ (by decide +kernel)

theorem g_selfEq : SelfEq (seAff (seGA.getD 1 0)) (seAff (seGB.getD 1 0)) := selfEqOk_spec _ _ (by decide +kernel)
theorem f_selfEq : SelfEq (seAff (seFA.getD 1 0)) (seAff (seFB.getD 1 0)) := selfEqOk_spec _ _ (by decide +kernel)

theorem g_chain : chainOk (seGA.getD 1 0) (seGB.getD 1 0) seG = true ∧
    seG.head? = some (0x804020100804020100, 0x804020100804020100) := by decide +kernel
theorem f_chain : chainOk (seFA.getD 1 0) (seFB.getD 1 0) seF = true ∧
    seF.head? = some (0x804020100804020100, 0x804020100804020100) := by decide +kernel

theorem seG_selfEq : ∀ p ∈ seG, SelfEq (seAff p.1) (seAff p.2) :=
  chain_selfEq _ _ g_selfEq _ g_chain.1 (by
    intro p hp
    rw [g_chain.2, Option.some.injEq] at hp
    subst hp
    exact id_selfEq)

theorem seF_selfEq : ∀ p ∈ seF, SelfEq (seAff p.1) (seAff p.2) :=
  chain_selfEq _ _ f_selfEq _ f_chain.1 (by
    intro p hp
    rw [f_chain.2, Option.some.injEq] at hp
    subst hp
    exact id_selfEq)

/-- Entry `(a, b)` is `g^e . f^i`. -/
def entryOk (a b e i : Nat) : Bool :=
  match seG[e]?, seF[i]? with
  | some g, some f => prodOk a g.1 f.1 && prodOk b f.2 g.2
  | _, _ => false

def entriesOk : List Nat → List Nat → List (Nat × Nat) → Bool
  | [], [], [] => true
  | a :: as, b :: bs, h :: hs => entryOk a b h.1 h.2 && entriesOk as bs hs
  | _, _, _ => false

theorem entries_spec (as bs : List Nat) (hs : List (Nat × Nat)) (h : entriesOk as bs hs = true) (k : Nat)
    (hk : k < as.length) : SelfEq (seAff (as.getD k 0)) (seAff (bs.getD k 0)) := by
  induction as generalizing bs hs k with
  | nil => simp at hk
  | cons a as ih =>
    match bs, hs, h with
    | b :: bs, hh :: hs, h =>
      rw [entriesOk, Bool.and_eq_true] at h
      cases k with
      | zero =>
        have h1 := h.1
        unfold entryOk at h1
        split at h1
        · rename_i g f hg hf
          rw [Bool.and_eq_true] at h1
          exact selfEq_comp _ _ _ _ _ _ (seG_selfEq g (List.mem_of_getElem? hg)) (seF_selfEq f (List.mem_of_getElem? hf))
            h1.1 h1.2
        · simp at h1
      | succ k =>
        exact ih bs hs h.2 k (by simpa using hk)

theorem entries_ok : entriesOk SE_A SE_B seHints = true := by decide +kernel

theorem seA_length : SE_A.length = 2039 := by decide +kernel

/-- Every pair of the table is a self-equivalence of the S-box. -/
theorem se_selfEq (k : Nat) (hk : k < 2039) : SelfEq (seA k) (seB k) :=
  entries_spec _ _ _ entries_ok k (by rw [seA_length]; exact hk)

end Verif
