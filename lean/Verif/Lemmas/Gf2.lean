import Verif.Spec.Gf2
import Verif.Model.Matrix

/-! Sums over GF(2), bits of words, and the matrix library on bits. -/
set_option autoImplicit false
set_option linter.unusedSectionVars false

namespace Verif
open Spec Model

/-! ### sums -/

theorem gsum_congr {n : Nat} {f g : Nat → Bool} (h : ∀ i, i < n → f i = g i) : gsum n f = gsum n g := by
  induction n with
  | zero => rfl
  | succ n ih => rw [gsum, gsum, ih (fun i hi => h i (by omega)), h n (by omega)]

theorem gsum_xor (n : Nat) (f g : Nat → Bool) : gsum n (fun i => f i ^^ g i) = (gsum n f ^^ gsum n g) := by
  induction n with
  | zero => rfl
  | succ n ih =>
    simp only [gsum, ih]
    cases gsum n f <;> cases gsum n g <;> cases f n <;> cases g n <;> rfl

theorem gsum_false (n : Nat) : gsum n (fun _ => false) = false := by
  induction n with
  | zero => rfl
  | succ n ih => simp [gsum, ih]

theorem gsum_and_left (n : Nat) (b : Bool) (f : Nat → Bool) : gsum n (fun i => b && f i) = (b && gsum n f) := by
  cases b
  · simp [gsum_false]
  · simp

theorem gsum_and_right (n : Nat) (b : Bool) (f : Nat → Bool) : gsum n (fun i => f i && b) = (gsum n f && b) := by
  cases b
  · simp [gsum_false]
  · simp

theorem gsum_comm (n m : Nat) (f : Nat → Nat → Bool) :
    gsum n (fun i => gsum m (fun j => f i j)) = gsum m (fun j => gsum n (fun i => f i j)) := by
  induction n with
  | zero => simp [gsum, gsum_false]
  | succ n ih => simp only [gsum, ih, gsum_xor]

theorem gsum_delta (n k : Nat) (f : Nat → Bool) : gsum n (fun i => decide (i = k) && f i) = (decide (k < n) && f k) := by
  induction n with
  | zero => simp [gsum]
  | succ n ih =>
    rw [gsum, ih]
    by_cases h : n = k
    · subst h; simp
    · have : (decide (k < n + 1)) = decide (k < n) := by simp; omega
      simp [h, this]

theorem gsum_add (m n : Nat) (f : Nat → Bool) : gsum (m + n) f = (gsum m f ^^ gsum n (fun i => f (m + i))) := by
  induction n with
  | zero => simp [gsum]
  | succ n ih => rw [← Nat.add_assoc, gsum, ih, gsum, Bool.xor_assoc]

/-! ### bits -/

theorem bits_ext {n : Nat} {x y : BitVec n} (h : ∀ i, i < n → bits x i = bits y i) : x = y := by
  apply BitVec.eq_of_getMsbD_eq
  intro i hi
  exact h i hi

theorem bits_of_ge {n : Nat} (x : BitVec n) {i : Nat} (h : n ≤ i) : bits x i = false := by
  simp [bits, BitVec.getMsbD]; intro h'; omega

theorem bits_xor {n : Nat} (x y : BitVec n) (i : Nat) : bits (x ^^^ y) i = (bits x i ^^ bits y i) := by
  by_cases h : i < n
  · simp [bits, BitVec.getMsbD_xor]
  · simp [bits_of_ge _ (Nat.le_of_not_lt h)]

theorem bits_and {n : Nat} (x y : BitVec n) (i : Nat) : bits (x &&& y) i = (bits x i && bits y i) := by
  by_cases h : i < n
  · simp [bits, BitVec.getMsbD_and]
  · simp [bits_of_ge _ (Nat.le_of_not_lt h)]

theorem bits_zero {n : Nat} (i : Nat) : bits (0 : BitVec n) i = false := by
  simp [bits]

/-- Parity of a word. -/
def parity {n : Nat} (x : BitVec n) : Bool := gsum n (bits x)

theorem parity_append {m n : Nat} (a : BitVec m) (b : BitVec n) : parity (a ++ b) = (parity a ^^ parity b) := by
  unfold parity
  rw [gsum_add]
  congr 1
  · apply gsum_congr
    intro i hi
    simp [bits, BitVec.getMsbD_append]; intro h'; omega
  · apply gsum_congr
    intro i hi
    simp [bits, BitVec.getMsbD_append]

theorem parity_xor {n : Nat} (a b : BitVec n) : parity (a ^^^ b) = (parity a ^^ parity b) := by
  unfold parity
  rw [← gsum_xor]
  exact gsum_congr fun i _ => bits_xor a b i

/-! ### word sizes -/

/-- What the proofs need of a word size. -/
class LawfulWSize (n : Nat) [WSize n] : Prop where
  idM_bits : ∀ i j, i < n → j < n → bits (idRow n i) j = decide (i = j)
  xorU_eq : ∀ x : BitVec n, WSize.xorU x = parity x

theorem xorU8_eq (x : BitVec 8) : xorU8 x = parity x := by
  have h : ∀ i : Fin 256, xorU8 (BitVec.ofFin i) = parity (BitVec.ofFin (w := 8) i) := by decide +kernel
  exact h x.toFin

theorem xorU4_eq (x : BitVec 4) : xorU4 x = parity x := by
  have h : ∀ i : Fin 16, xorU4 (BitVec.ofFin i) = parity (BitVec.ofFin (w := 4) i) := by decide +kernel
  exact h x.toFin

theorem half_append (k : Nat) (x : BitVec (k + k)) : x = (x >>> k).truncate k ++ x.truncate k := by
  ext i hi
  simp only [BitVec.truncate_eq_setWidth, BitVec.getElem_append, BitVec.getElem_setWidth, BitVec.getLsbD_ushiftRight]
  split
  · exact (BitVec.getLsbD_eq_getElem hi).symm
  · rw [show k + (i - k) = i by omega]; exact (BitVec.getLsbD_eq_getElem hi).symm

theorem parity_half (k : Nat) (x : BitVec (k + k)) : parity (x.truncate k ^^^ (x >>> k).truncate k) = parity x := by
  rw [parity_xor, Bool.xor_comm, ← parity_append, ← half_append]

theorem xorU16_eq (x : BitVec 16) : xorU16 x = parity x := by
  rw [xorU16, xorU8_eq]; exact parity_half 8 x

theorem xorU32_eq (x : BitVec 32) : xorU32 x = parity x := by
  rw [xorU32, xorU16_eq]; exact parity_half 16 x

theorem xorU64_eq (x : BitVec 64) : xorU64 x = parity x := by
  rw [xorU64, xorU32_eq]; exact parity_half 32 x

theorem idM_of_table {n : Nat} [WSize n] (h : ∀ i j : Fin n, bits (idRow n i) j = decide (i.1 = j.1)) :
    ∀ i j, i < n → j < n → bits (idRow n i) j = decide (i = j) :=
  fun i j hi hj => h ⟨i, hi⟩ ⟨j, hj⟩

instance : LawfulWSize 4 := ⟨idM_of_table (by decide +kernel), xorU4_eq⟩
instance : LawfulWSize 8 := ⟨idM_of_table (by decide +kernel), xorU8_eq⟩
instance : LawfulWSize 16 := ⟨idM_of_table (by decide +kernel), xorU16_eq⟩
instance : LawfulWSize 32 := ⟨idM_of_table (by decide +kernel), xorU32_eq⟩
instance : LawfulWSize 64 := ⟨idM_of_table (by decide +kernel), xorU64_eq⟩

variable {n : Nat} [WSize n] [LawfulWSize n]

/-- Bit `(i, j)` of a matrix. -/
def mbit (M : Mat n) (i j : Nat) : Bool := bits (M.row i) j

theorem idRow_bits {i j : Nat} (hi : i < n) : bits (idRow n i) j = decide (i = j) := by
  by_cases hj : j < n
  · exact LawfulWSize.idM_bits i j hi hj
  · rw [bits_of_ge _ (Nat.le_of_not_lt hj)]; simp; omega

theorem row_of_ge (M : Mat n) {i : Nat} (h : n ≤ i) : M.row i = 0 := by
  simp [Mat.row, h]

theorem has_eq (M : Mat n) {i j : Nat} (hj : j < n) : M.has i j = mbit M i j := by
  unfold Mat.has mbit
  rw [Bool.eq_iff_iff, beq_iff_eq]
  constructor
  · intro h
    have := congrArg (fun x => bits x j) h
    simp only [bits_and, idRow_bits hj, decide_true, Bool.and_true] at this
    exact this
  · intro h
    apply bits_ext
    intro k _
    rw [bits_and, idRow_bits hj]
    by_cases hk : j = k
    · subst hk; simp [h]
    · simp [hk]

theorem mat_ext {A B : Mat n} (h : ∀ i j, i < n → j < n → mbit A i j = mbit B i j) : A = B := by
  apply Vector.ext
  intro i hi
  have : A.row i = B.row i := bits_ext fun j hj => h i j hi hj
  simpa [Mat.row, hi] using this

theorem row_set (M : Mat n) (a : Nat) (v : BitVec n) (ha : a < n) (k : Nat) :
    Mat.row (M.setIfInBounds a v) k = if k = a then v else M.row k := by
  unfold Mat.row
  rw [Vector.getElem?_setIfInBounds]
  by_cases h : k = a
  · subst h; simp [ha]
  · have : ¬ a = k := fun e => h e.symm
    simp [h, this]

theorem row_ofFn (f : Fin n → BitVec n) {i : Nat} (h : i < n) : Mat.row (Vector.ofFn f) i = f ⟨i, h⟩ := by
  simp [Mat.row, h]

theorem bits_foldl (l : List Nat) (c : Nat → Bool) (e : Nat → BitVec n) (z : BitVec n) (k : Nat) :
    bits (l.foldl (fun t i => if c i then t ^^^ e i else t) z) k =
      (bits z k ^^ l.foldr (fun i b => (c i && bits (e i) k) ^^ b) false) := by
  induction l generalizing z with
  | nil => simp
  | cons i l ih =>
    rw [List.foldl_cons, ih, List.foldr_cons]
    cases c i <;> simp [bits_xor]

theorem foldr_range (m : Nat) (f : Nat → Bool) :
    (List.range m).foldr (fun i b => f i ^^ b) false = gsum m f := by
  induction m with
  | zero => rfl
  | succ m ih =>
    rw [List.range_succ, List.foldr_append, gsum, ← ih]
    simp only [List.foldr_cons, List.foldr_nil, Bool.xor_false]
    generalize List.range m = l
    induction l with
    | nil => simp
    | cons i l ih2 => rw [List.foldr_cons, List.foldr_cons, ih2, Bool.xor_assoc]

theorem bits_select (c : Nat → Bool) {k : Nat} (hk : k < n) :
    bits ((List.range n).foldl (fun t i => if c i then t ^^^ idRow n i else t) 0) k = c k := by
  rw [bits_foldl, foldr_range, bits_zero, Bool.false_xor]
  rw [gsum_congr (g := fun i => decide (i = k) && c i) (by
    intro i hi; rw [idRow_bits hi, Bool.and_comm]), gsum_delta]
  simp [hk]

/-- Meaning of `MatMulNum`: bit `i` of the result is the scalar product of row `i` with the argument. -/
theorem bits_matMulNum (M : Mat n) (x : BitVec n) {i : Nat} (hi : i < n) :
    bits (matMulNum M x) i = gsum n (fun k => mbit M i k && bits x k) := by
  unfold matMulNum
  rw [bits_select _ hi, LawfulWSize.xorU_eq, parity]
  exact gsum_congr fun k _ => bits_and _ _ k

theorem bits_matMulNum' (M : Mat n) (x : BitVec n) {i : Nat} (hi : i < n) :
    bits (matMulNum M x) i = parity (M.row i &&& x) := by
  unfold matMulNum
  rw [bits_select _ hi, LawfulWSize.xorU_eq]

theorem matMulNum_xor (M : Mat n) (x y : BitVec n) : matMulNum M (x ^^^ y) = matMulNum M x ^^^ matMulNum M y := by
  apply bits_ext
  intro i hi
  rw [bits_xor, bits_matMulNum _ _ hi, bits_matMulNum _ _ hi, bits_matMulNum _ _ hi, ← gsum_xor]
  apply gsum_congr
  intro k _
  rw [bits_xor]
  cases mbit M i k <;> rfl

theorem matMulNum_zero (M : Mat n) : matMulNum M 0 = 0 := by
  apply bits_ext
  intro i hi
  rw [bits_matMulNum _ _ hi]
  simp only [bits_zero, Bool.and_false, gsum_false]

theorem mbit_identity {i j : Nat} (hi : i < n) : mbit (identityM n) i j = decide (i = j) := idRow_bits hi

theorem matMulNum_identity (x : BitVec n) : matMulNum (identityM n) x = x := by
  apply bits_ext
  intro i hi
  rw [bits_matMulNum _ _ hi, gsum_congr (g := fun k => decide (k = i) && bits x k), gsum_delta]
  · simp [hi]
  · intro k _
    rw [mbit_identity hi]
    simp [eq_comm]

/-- A matrix is determined by its action. -/
theorem mbit_of_action (M : Mat n) {i j : Nat} (hi : i < n) (hj : j < n) :
    mbit M i j = bits (matMulNum M (idRow n j)) i := by
  rw [bits_matMulNum _ _ hi, gsum_congr (g := fun k => decide (k = j) && mbit M i k), gsum_delta]
  · simp [hj]
  · intro k _
    rw [idRow_bits hj, Bool.and_comm]
    simp [eq_comm]

theorem mat_eq_of_action {A B : Mat n} (h : ∀ x, matMulNum A x = matMulNum B x) : A = B :=
  mat_ext fun i j hi hj => by rw [mbit_of_action A hi hj, mbit_of_action B hi hj, h]

/-! ### transposition and product -/

theorem idRow_ne_zero {j : Nat} (M : Mat n) (i : Nat) (hj : j < n) :
    (M.row i &&& idRow n j ≠ 0) ↔ mbit M i j = true := by
  constructor
  · intro h
    apply Decidable.byContradiction
    intro hb
    apply h
    apply bits_ext
    intro k _
    rw [bits_and, idRow_bits hj, bits_zero]
    by_cases hk : j = k
    · subst hk
      have : bits (M.row i) j = false := by simpa [mbit] using hb
      simp [this]
    · simp [hk]
  · intro h h0
    have := congrArg (fun x => bits x j) h0
    simp only [bits_and, idRow_bits hj, bits_zero] at this
    rw [mbit] at h
    simp [h] at this

/-- Loop over rows `l` xoring row-dependent words into the rows. -/
theorem row_foldl_set (l : List Nat) (hnd : l.Nodup) (hl : ∀ j ∈ l, j < n) (c : Nat → Bool) (v : Nat → BitVec n)
    (T : Mat n) (k : Nat) :
    Mat.row (l.foldl (fun T j => if c j then T.setIfInBounds j (Mat.row T j ^^^ v j) else T) T) k =
      if k ∈ l ∧ c k = true then T.row k ^^^ v k else T.row k := by
  induction l generalizing T with
  | nil => simp
  | cons j l ih =>
    rw [List.foldl_cons, ih (List.nodup_cons.mp hnd).2 (fun x hx => hl x (List.mem_cons_of_mem _ hx))]
    have hj := hl j (List.mem_cons_self ..)
    have hjl := (List.nodup_cons.mp hnd).1
    by_cases hc : c j = true
    · rw [if_pos hc]
      simp only [row_set _ _ _ hj]
      by_cases hk : k = j
      · subst hk; simp [hjl, hc]
      · simp [hk]
    · rw [if_neg hc]
      by_cases hk : k = j
      · subst hk; simp [hjl, hc]
      · simp [hk]

theorem mbit_mattrans_aux (M : Mat n) (l : List Nat) (hl : ∀ i ∈ l, i < n) (T : Mat n) {j k : Nat} (hj : j < n) :
    mbit (l.foldl (fun T i =>
      (List.range n).foldl (fun T j =>
        if M.row i &&& idRow n j ≠ 0 then T.setIfInBounds j (Mat.row T j ^^^ idRow n i) else T) T) T) j k =
      (mbit T j k ^^ l.foldr (fun i b => (mbit M i j && decide (i = k)) ^^ b) false) := by
  induction l generalizing T with
  | nil => simp
  | cons i l ih =>
    have hi := hl i (List.mem_cons_self ..)
    rw [List.foldl_cons, ih (fun x hx => hl x (List.mem_cons_of_mem _ hx)), List.foldr_cons, ← Bool.xor_assoc]
    congr 1
    have h := row_foldl_set (List.range n) List.nodup_range (fun j hj => List.mem_range.mp hj)
      (fun j => decide (M.row i &&& idRow n j ≠ 0)) (fun _ => idRow n i) T j
    simp only [decide_eq_true_eq] at h
    simp only [mbit, h, List.mem_range, hj, true_and]
    by_cases hb : M.row i &&& idRow n j ≠ 0
    · rw [if_pos hb, bits_xor, idRow_bits hi]
      have := (idRow_ne_zero M i hj).mp hb
      rw [mbit] at this
      simp [this]
    · rw [if_neg hb]
      have : ¬ (mbit M i j = true) := fun hx => hb ((idRow_ne_zero M i hj).mpr hx)
      rw [mbit] at this
      simp [this]

theorem mbit_replicate (i j : Nat) : mbit (Vector.replicate n 0 : Mat n) i j = false := by
  unfold mbit
  have : Mat.row (Vector.replicate n 0 : Mat n) i = 0 := by
    by_cases h : i < n <;> simp [Mat.row, h]
  rw [this, bits_zero]

theorem mbit_mattrans (M : Mat n) {i j : Nat} (hi : i < n) (hj : j < n) : mbit (mattrans M) j i = mbit M i j := by
  unfold mattrans
  rw [mbit_mattrans_aux M _ (fun i hi => List.mem_range.mp hi) _ hj, mbit_replicate, Bool.false_xor, foldr_range,
    gsum_congr (g := fun k => decide (k = i) && mbit M k j) (fun k _ => Bool.and_comm _ _), gsum_delta]
  simp [hi]

theorem row_matMulMat_aux (A B : Mat n) (l : List Nat) (hnd : l.Nodup) (hl : ∀ i ∈ l, i < n) (C : Mat n) (k : Nat) :
    Mat.row (l.foldl (fun C i =>
      (List.range n).foldl (fun C j =>
        if WSize.xorU (A.row i &&& (mattrans B).row j) then C.setIfInBounds i (Mat.row C i ^^^ idRow n j) else C) C) C) k =
      if k ∈ l then (List.range n).foldl (fun t j =>
        if WSize.xorU (A.row k &&& (mattrans B).row j) then t ^^^ idRow n j else t) (C.row k) else C.row k := by
  induction l generalizing C with
  | nil => simp
  | cons i l ih =>
    have hi := hl i (List.mem_cons_self ..)
    rw [List.foldl_cons, ih (List.nodup_cons.mp hnd).2 (fun x hx => hl x (List.mem_cons_of_mem _ hx))]
    have hil := (List.nodup_cons.mp hnd).1
    have inner : ∀ (m : List Nat) (C : Mat n) (k : Nat), Mat.row (m.foldl (fun C j =>
        if WSize.xorU (A.row i &&& (mattrans B).row j) then C.setIfInBounds i (Mat.row C i ^^^ idRow n j) else C) C) k =
        if k = i then m.foldl (fun t j =>
          if WSize.xorU (A.row i &&& (mattrans B).row j) then t ^^^ idRow n j else t) (C.row i) else C.row k := by
      intro m
      induction m with
      | nil => intro C k; by_cases hk : k = i <;> simp [hk]
      | cons j m ih2 =>
        intro C k
        rw [List.foldl_cons, ih2, List.foldl_cons]
        by_cases hx : WSize.xorU (A.row i &&& (mattrans B).row j) = true
        · rw [if_pos hx, if_pos hx]
          simp only [row_set _ _ _ hi, if_true]
          by_cases hk : k = i <;> simp [hk]
        · rw [if_neg hx, if_neg hx]
    rw [inner]
    by_cases hk : k = i
    · subst hk; simp [hil]
    · simp [hk]

/-- Meaning of `MatMulMat`. -/
theorem mbit_matMulMat (A B : Mat n) {i j : Nat} (hi : i < n) (hj : j < n) :
    mbit (matMulMat A B) i j = gsum n (fun k => mbit A i k && mbit B k j) := by
  unfold mbit matMulMat
  rw [row_matMulMat_aux A B _ List.nodup_range (fun i hi => List.mem_range.mp hi), if_pos (List.mem_range.mpr hi)]
  have h0 : Mat.row (Vector.replicate n 0 : Mat n) i = 0 := by simp [Mat.row, hi]
  rw [h0, bits_select _ hj, LawfulWSize.xorU_eq, parity]
  apply gsum_congr
  intro k hk
  rw [bits_and]
  have := mbit_mattrans B hk hj
  rw [mbit, mbit] at this
  rw [this]

theorem matMulNum_matMulMat (A B : Mat n) (x : BitVec n) :
    matMulNum (matMulMat A B) x = matMulNum A (matMulNum B x) := by
  apply bits_ext
  intro i hi
  rw [bits_matMulNum _ _ hi, bits_matMulNum _ _ hi]
  have h1 : gsum n (fun k => mbit (matMulMat A B) i k && bits x k) =
      gsum n (fun k => gsum n (fun m => (mbit A i m && mbit B m k) && bits x k)) := by
    apply gsum_congr
    intro k hk
    rw [mbit_matMulMat _ _ hi hk, gsum_and_right]
  have h2 : gsum n (fun k => mbit A i k && bits (matMulNum B x) k) =
      gsum n (fun m => gsum n (fun k => (mbit A i m && mbit B m k) && bits x k)) := by
    apply gsum_congr
    intro m hm
    rw [bits_matMulNum _ _ hm, ← gsum_and_left]
    apply gsum_congr
    intro k _
    rw [Bool.and_assoc]
  rw [h1, h2, gsum_comm]

theorem affineU_affinemix (a b : Aff n) (x : BitVec n) : affineU (affinemix a b) x = affineU a (affineU b x) := by
  unfold affineU affinemix
  simp only [matMulNum_matMulMat, matMulNum_xor, BitVec.xor_assoc]

/-! ### four bytes -/

theorem bits_append {a b : Nat} (x : BitVec a) (y : BitVec b) (i : Nat) :
    bits (x ++ y) i = if i < a then bits x i else bits y (i - a) := by
  by_cases h : i < a
  · simp [bits, BitVec.getMsbD_append, h]; intro h'; omega
  · simp [bits, BitVec.getMsbD_append, h]

theorem matMulNum_com (m1 m2 m3 m4 : Mat 8) (a b c d : Byte) :
    matMulNum (matrixcom8to32 m1 m2 m3 m4) (a ++ b ++ c ++ d : BitVec 32) =
      (matMulNum m1 a ++ matMulNum m2 b ++ matMulNum m3 c ++ matMulNum m4 d : BitVec 32) := by
  apply bits_ext
  intro i hi
  have h1 := bits_append (matMulNum m1 a ++ matMulNum m2 b ++ matMulNum m3 c) (matMulNum m4 d) i
  have h2 := bits_append (matMulNum m1 a ++ matMulNum m2 b) (matMulNum m3 c) i
  have h3 := bits_append (matMulNum m1 a) (matMulNum m2 b) i
  simp only [Nat.reduceAdd] at h1 h2 h3
  rw [bits_matMulNum' _ _ hi, matrixcom8to32, row_ofFn _ hi, h1, h2, h3]
  have e0 : parity (0 : Byte) = false := by decide
  have z : ∀ y : Byte, 0 &&& y = 0 := fun y => BitVec.zero_and
  have key : ∀ p q r s : Byte, parity ((p ++ q ++ r ++ s : BitVec 32) &&& (a ++ b ++ c ++ d : BitVec 32)) =
      (((parity (p &&& a) ^^ parity (q &&& b)) ^^ parity (r &&& c)) ^^ parity (s &&& d)) := by
    intro p q r s
    have h : ((p ++ q ++ r ++ s : BitVec 32) &&& (a ++ b ++ c ++ d : BitVec 32)) =
        ((p &&& a) ++ (q &&& b) ++ (r &&& c) ++ (s &&& d) : BitVec 32) := by
      have e1 := BitVec.and_append (x₁ := p ++ q ++ r) (x₂ := a ++ b ++ c) (y₁ := s) (y₂ := d)
      have e2 := BitVec.and_append (x₁ := p ++ q) (x₂ := a ++ b) (y₁ := r) (y₂ := c)
      have e3 := BitVec.and_append (x₁ := p) (x₂ := a) (y₁ := q) (y₂ := b)
      simp only [Nat.reduceAdd] at e1 e2 e3
      rw [e1, e2, e3]
    rw [h]
    have p1 := parity_append ((p &&& a) ++ (q &&& b) ++ (r &&& c)) (s &&& d)
    have p2 := parity_append ((p &&& a) ++ (q &&& b)) (r &&& c)
    have p3 := parity_append (p &&& a) (q &&& b)
    simp only [Nat.reduceAdd] at p1 p2 p3
    rw [p1, p2, p3]
  by_cases h8 : i < 8
  · simp only [h8, show i < 16 by omega, show i < 24 by omega, if_true, key, z, e0, Bool.xor_false]
    rw [bits_matMulNum' _ _ h8]
  · by_cases h16 : i < 16
    · simp only [h8, h16, show i < 24 by omega, if_true, if_false, key, z, e0, Bool.xor_false, Bool.false_xor]
      rw [bits_matMulNum' _ _ (by omega)]
    · by_cases h24 : i < 24
      · simp only [h8, h16, h24, if_true, if_false, key, z, e0, Bool.xor_false, Bool.false_xor]
        rw [bits_matMulNum' _ _ (by omega)]
      · simp only [h8, h16, h24, if_false, key, z, e0, Bool.xor_false, Bool.false_xor]
        rw [bits_matMulNum' _ _ (by omega)]

theorem affineU_com (a1 a2 a3 a4 : Aff 8) (a b c d : Byte) :
    affineU (affinecom8to32 a1 a2 a3 a4) (a ++ b ++ c ++ d : BitVec 32) =
      (affineU a1 a ++ affineU a2 b ++ affineU a3 c ++ affineU a4 d : BitVec 32) := by
  unfold affineU affinecom8to32
  simp only [matMulNum_com]
  have e1 := BitVec.xor_append (x₁ := matMulNum a1.mat a ++ matMulNum a2.mat b ++ matMulNum a3.mat c)
    (x₂ := a1.vec ++ a2.vec ++ a3.vec) (y₁ := matMulNum a4.mat d) (y₂ := a4.vec)
  have e2 := BitVec.xor_append (x₁ := matMulNum a1.mat a ++ matMulNum a2.mat b)
    (x₂ := a1.vec ++ a2.vec) (y₁ := matMulNum a3.mat c) (y₂ := a3.vec)
  have e3 := BitVec.xor_append (x₁ := matMulNum a1.mat a)
    (x₂ := a1.vec) (y₁ := matMulNum a2.mat b) (y₂ := a2.vec)
  simp only [Nat.reduceAdd] at e1 e2 e3
  rw [e1, e2, e3]

end Verif
