import Mathlib.Algebra.Polynomial.Roots
import Mathlib.Algebra.CharP.Lemmas
import Verif.Lemmas.Gf128
import Verif.Props.FpeMac

/-! The multiplication of GHASH makes the 128-bit strings a field. -/
set_option autoImplicit false

namespace Verif
open Spec Model Props

/-! ### multiplication is bilinear, commutative, associative -/

theorem horner_xor_right (a b : BitVec 128) (bits : List Bool) : horner (a ^^^ b) bits = horner a bits ^^^ horner b bits := by
  induction bits with
  | nil => simp [horner]
  | cons c bits ih =>
    simp only [horner, List.foldr_cons] at ih ⊢
    rw [ih, mulx_xor]
    cases c
    · simp [sel]
    · simp only [sel, if_true]
      ac_rfl

theorem horner_sel (c : Bool) (y : BitVec 128) (bits : List Bool) : horner (sel c y) bits = sel c (horner y bits) := by
  cases c
  · show horner 0 bits = 0
    have := horner_xor_right 0 0 bits
    rw [BitVec.xor_self, BitVec.xor_self] at this
    exact this
  · rfl

theorem horner_horner (z : BitVec 128) (as bs : List Bool) : horner (horner z as) bs = horner (horner z bs) as := by
  induction bs with
  | nil =>
    show 0 = horner 0 as
    have := horner_xor_right 0 0 as
    rw [BitVec.xor_self, BitVec.xor_self] at this
    exact this.symm
  | cons b bs ih =>
    show mulx (horner (horner z as) bs) ^^^ sel b (horner z as) = horner (mulx (horner z bs) ^^^ sel b z) as
    rw [ih, horner_xor_right, horner_mulx, horner_sel]

/-- Additive functions that agree on single bits agree. -/
theorem linear_ext (f g : BitVec 128 → BitVec 128) (hf : ∀ a b, f (a ^^^ b) = f a ^^^ f b) (hg : ∀ a b, g (a ^^^ b) = g a ^^^ g b)
    (h : ∀ i : Fin 128, f (BitVec.twoPow 128 i.1) = g (BitVec.twoPow 128 i.1)) (x : BitVec 128) : f x = g x := by
  have f0 : f 0#128 = 0#128 := by
    have := hf 0#128 0#128
    rw [BitVec.xor_self, BitVec.xor_self] at this
    exact this
  have g0 : g 0#128 = 0#128 := by
    have := hg 0#128 0#128
    rw [BitVec.xor_self, BitVec.xor_self] at this
    exact this
  have key : ∀ n, n ≤ 128 → ∀ x : BitVec 128, (∀ i, n ≤ i → x.getLsbD i = false) → f x = g x := by
    intro n
    induction n with
    | zero =>
      intro _ x hx
      have : x = 0#128 := by
        apply BitVec.eq_of_getLsbD_eq
        intro i _
        rw [hx i (by omega)]
        simp
      rw [this, f0, g0]
    | succ n ih =>
      intro hn x hx
      by_cases hb : x.getLsbD n = true
      · have e : x = (x ^^^ BitVec.twoPow 128 n) ^^^ BitVec.twoPow 128 n := by
          rw [BitVec.xor_assoc, BitVec.xor_self, BitVec.xor_zero]
        rw [e, hf, hg, h ⟨n, by omega⟩, ih (by omega) (x ^^^ BitVec.twoPow 128 n)]
        intro i hi
        rw [BitVec.getLsbD_xor, BitVec.getLsbD_twoPow]
        by_cases hin : i = n
        · subst hin
          simp [hb, show i < 128 by omega]
        · rw [hx i (by omega)]
          simp
          omega
      · refine ih (by omega) x ?_
        intro i hi
        by_cases hin : i = n
        · subst hin; simpa using hb
        · exact hx i (by omega)
  refine key 128 (Nat.le_refl _) x ?_
  intro i hi
  exact BitVec.getLsbD_of_ge x i hi

def gfOne : BitVec 128 := BitVec.twoPow 128 127

theorem gfMul_xor_right (a b x : BitVec 128) : gfMul x (a ^^^ b) = gfMul x a ^^^ gfMul x b := by
  rw [gfMul_eq_horner, gfMul_eq_horner, gfMul_eq_horner, horner_xor_right]

theorem gfMul_one (x : BitVec 128) : gfMul x gfOne = x := by
  refine linear_ext (fun x => gfMul x gfOne) id (fun a b => gfMul_xor a b _) (fun _ _ => rfl) ?_ x
  decide +kernel

theorem gfMul_left_comm (x y z : BitVec 128) : gfMul x (gfMul y z) = gfMul y (gfMul x z) := by
  simp only [gfMul_eq_horner, horner_horner]

theorem gfMul_comm (x y : BitVec 128) : gfMul x y = gfMul y x := by
  have h := gfMul_left_comm x y gfOne
  rwa [gfMul_one, gfMul_one] at h

theorem gfMul_assoc (x y z : BitVec 128) : gfMul (gfMul x y) z = gfMul x (gfMul y z) := by
  rw [gfMul_comm, gfMul_left_comm, gfMul_comm z]

theorem gf_zero_mul (x : BitVec 128) : gfMul 0#128 x = 0#128 := by
  have := gfMul_xor 0#128 0#128 x
  rw [BitVec.xor_self, BitVec.xor_self] at this
  exact this

/-! ### the ring -/

/-- A 128-bit string as an element of the ring of GHASH. -/
@[ext] structure Gf where
  val : BitVec 128

namespace Gf

instance : Zero Gf := ⟨⟨0#128⟩⟩
instance : One Gf := ⟨⟨gfOne⟩⟩
instance : Add Gf := ⟨fun a b => ⟨a.val ^^^ b.val⟩⟩
instance : Neg Gf := ⟨fun a => a⟩
instance : Mul Gf := ⟨fun a b => ⟨gfMul a.val b.val⟩⟩

theorem val_zero : (0 : Gf).val = 0#128 := rfl
theorem val_one : (1 : Gf).val = gfOne := rfl
theorem val_add (a b : Gf) : (a + b).val = a.val ^^^ b.val := rfl
theorem val_mul (a b : Gf) : (a * b).val = gfMul a.val b.val := rfl

instance : CommRing Gf where
  add_assoc a b c := Gf.ext (BitVec.xor_assoc _ _ _)
  zero_add a := Gf.ext (BitVec.zero_xor)
  add_zero a := Gf.ext (BitVec.xor_zero)
  add_comm a b := Gf.ext (BitVec.xor_comm _ _)
  nsmul := nsmulRec
  zsmul := zsmulRec
  neg_add_cancel a := Gf.ext (BitVec.xor_self)
  mul_assoc a b c := Gf.ext (by simp only [val_mul]; exact gfMul_assoc _ _ _)
  mul_comm a b := Gf.ext (by simp only [val_mul]; exact gfMul_comm _ _)
  one_mul a := Gf.ext (by rw [val_mul, val_one, gfMul_comm, gfMul_one])
  mul_one a := Gf.ext (by rw [val_mul, val_one, gfMul_one])
  left_distrib a b c := Gf.ext (by simp only [val_mul, val_add]; exact gfMul_xor_right _ _ _)
  right_distrib a b c := Gf.ext (by simp only [val_mul, val_add]; exact gfMul_xor _ _ _)
  zero_mul a := Gf.ext (by rw [val_mul, val_zero]; exact gf_zero_mul _)
  mul_zero a := Gf.ext (by rw [val_mul, gfMul_comm, val_zero]; exact gf_zero_mul _)

instance : Nontrivial Gf := ⟨⟨0, 1, by
  intro h
  have := congrArg Gf.val h
  revert this
  rw [val_zero, val_one]
  decide⟩⟩

theorem add_self (a : Gf) : a + a = 0 := Gf.ext BitVec.xor_self

theorem sq_add (a b : Gf) : (a + b) * (a + b) = a * a + b * b := by
  have : (a + b) * (a + b) = a * a + b * b + (a * b + a * b) := by ring
  rw [this, add_self, add_zero]

/-! ### Frobenius -/

/-- `k` squarings. -/
def sqN : Nat → Gf → Gf
  | 0, a => a
  | k + 1, a => sqN k (a * a)

theorem sqN_pow (k : Nat) : ∀ a, sqN k a = a ^ 2 ^ k := by
  induction k with
  | zero => intro a; rw [pow_zero, pow_one]; rfl
  | succ k ih => intro a; rw [sqN, ih, pow_succ, Nat.mul_comm, pow_mul, sq]

theorem sqN_add (k : Nat) : ∀ a b, sqN k (a + b) = sqN k a + sqN k b := by
  induction k with
  | zero => intros; rfl
  | succ k ih => intro a b; rw [sqN, sq_add, ih]; rfl

theorem sqN_mul (k : Nat) : ∀ a b, sqN k (a * b) = sqN k a * sqN k b := by
  induction k with
  | zero => intros; rfl
  | succ k ih => intro a b; rw [sqN, mul_mul_mul_comm, ih]; rfl

/-- The element `x` of the ring. -/
def xx : Gf := ⟨BitVec.twoPow 128 126⟩

theorem mulx_eq_mul (v : BitVec 128) : mulx v = gfMul (BitVec.twoPow 128 126) v := by
  refine linear_ext mulx (fun v => gfMul (BitVec.twoPow 128 126) v) mulx_xor (fun a b => gfMul_xor_right a b _) ?_ v
  decide +kernel

theorem sqN_xx : sqN 128 xx = xx := by
  have h : ∀ (k : Nat) (a : Gf), (sqN k a).val = Nat.rec (motive := fun _ => BitVec 128 → BitVec 128) id (fun _ f v => f (gfMul v v)) k a.val := by
    intro k
    induction k with
    | zero => intro a; rfl
    | succ k ih => intro a; rw [sqN, ih]; rfl
  apply Gf.ext
  rw [h]
  decide +kernel

theorem sqN_one (k : Nat) : sqN k 1 = 1 := by
  rw [sqN_pow, one_pow]

theorem sqN_zero (k : Nat) : sqN k 0 = 0 := by
  induction k with
  | zero => rfl
  | succ k ih => rw [sqN, mul_zero, ih]

theorem sqN_horner (bits : List Bool) : sqN 128 ⟨horner gfOne bits⟩ = ⟨horner gfOne bits⟩ := by
  induction bits with
  | nil => exact sqN_zero 128
  | cons b bits ih =>
    have h : (⟨horner gfOne (b :: bits)⟩ : Gf) = xx * ⟨horner gfOne bits⟩ + if b then 1 else 0 := by
      apply Gf.ext
      rw [val_add, val_mul]
      show mulx (horner gfOne bits) ^^^ sel b gfOne = gfMul (BitVec.twoPow 128 126) (horner gfOne bits) ^^^ _
      rw [mulx_eq_mul]
      cases b <;> rfl
    rw [h, sqN_add, sqN_mul, ih, sqN_xx]
    cases b
    · simp only [Bool.false_eq_true, if_false, sqN_zero]
    · simp only [if_true, sqN_one]

/-- `a ^ (2 ^ 128) = a`. -/
theorem sqN_all (a : Gf) : sqN 128 a = a := by
  have h := sqN_horner (msbBits a.val)
  rw [← gfMul_eq_horner, gfMul_one] at h
  exact h

/-! ### idempotents -/

/-- Values of a linear map that undoes `e ↦ e² + e` up to the first bit. -/
def unArtin : List (BitVec 128) := [
  0x0, 0x4a2ade42a1db558927495c4d4e62fc1, 0x35bd0e43ef6cf78dcef750ee63bd3171,
  0x41d77801d619af2a38dab35b297373a6, 0x36dc3b3404788e15d4cfd6f8f5447461, 0x7adc3b3404788e15d4cfd6f8f5447467,
  0x5f67891c31b7edb03c86875f90384d1c, 0x646cca29e3d6cc8fd093e2fc4c0f4ad5, 0x51eae8be2fe60df61bf9191de1788d94,
  0x36e717e02724b8e1d1527df73b8e8241, 0x5f86cdbc744e28fe3430f49ddf071154, 0x2561da5c536a901fe562896ae4899333,
  0x99a6e1cca2f8641a0b0910804c90841, 0x2cfbb4409945165e45d21862e0409b32, 0xd94d9da18080030c4db699e5dc0,
  0x197d9b438cafcf2f8e88275824a90133, 0x645919a4b35879f7d7a68d71cb5770d5, 0x7348a7e5645f93d076e747a9d181ec26,
  0x602105ae977251e64834e0c2dd2d5a94, 0x2c14dbb71e26fc964f314b9433eb3eb2, 0x44eaa59bd8819a999287fa5ed58ad81,
  0x77dcb1c60e3ad5c9e2190477682adba7, 0x701c741cbd9fc8b06b94eadf79b8c426, 0x46f806225397f491bb49eab33e4cf467,
  0x79b07befedd921e9cd751ec18ebeebe7, 0x56f3167fe31302df9eb885b869165d55, 0x6462e2cc93c28627d2d0526e0d66c2d5,
  0x1a24eaaa541c8b0f9092b01169688933, 0x4bf6a9a1f02e1f698fec4b1a74166be7, 0x21ce3a83c07744de74dad50f0d583b32,
  0x634efa836deeebf650dae654442b4894, 0x224d20acccef41ee67fd0ac2e3641972, 0x4bf8b9d33b8f38198de17cdee54751e7,
  0x698e6217d7fa8627ef6aa903c013fa95, 0x457534e82f16f649aa2d862c91005ba7, 0x144558bb6c9dfcd7bc4c239cf48626f3,
  0x3cfddc25f2ae2df86391fd8d3387a7c0, 0x2bd77bb364af6b3fc733d8875e039333, 0x26d44eb77ddd535ff0b1c738de72bb33,
  0x6aef57603cdbfceff55228f556d54755, 0x285aabc679b16ad7d6c2852abfdb1eb3, 0x38e6217d7f479d8109554569546afc0,
  0x79880aa666d696d9c926622882fff1e7, 0x312705524db61730583bcf844c342240, 0x5c33b52f8947e9462158188b7248d294,
  0x3bdc8ad604b36599e246fae899f68fc1, 0x72ccff3fd3d186182e1ce9a41041041, 0x5252e8c1d3a8e3be0d2c5beb59e57554,
  0x489a0b11781e0c1196cc4fdebc394c27, 0x1af0929920b9589f9fb368dce89d2373, 0x2f76850d57908a5e54a716d46cf0bb32,
  0x3f46b4c41d7d395874f4e33b9d331780, 0x7986f6afcfc951e9cb9188c1a5beebe7, 0x258e6f54bc4bf6f7ef54f70e70ef2ef3,
  0x55aabdbeec28a2078079924a4cd2f295, 0x229a33517c61d3ee69739a8be16c1972, 0x49a065cd7758d5196f0e3578d383201,
  0x428019a10caacb8824c8241264b2fba6, 0x4622ba58b211bb21b69fb337b1785627, 0x5cea6fd5b105659e2d1ccaeb5d2c7d54,
  0x36e9eb0be64d6b99d3ec2e5e502bb781, 0x5ce7c3e3d68e47f62e5390ab45fe70d4, 0x329f337db88e12004e8e904902080000,
  0x48afd66e759a994991d0e977a9aa5ba7, 0x4a2ade42a1db559927495c4d4e62fc1, 0x41d77801d619af2838dab35b297373a6,
  0x7adc3b3404788e11d4cfd6f8f5447467, 0x646cca29e3d6cc87d093e2fc4c0f4ad5, 0x36e717e02724b8f1d1527df73b8e8241,
  0x2561da5c536a903fe562896ae4899333, 0x2cfbb4409945161e45d21862e0409b32, 0x197d9b438cafcfaf8e88275824a90133,
  0x7348a7e5645f92d076e747a9d181ec26, 0x2c14dbb71e26fe964f314b9433eb3eb2, 0x77dcb1c60e3ad1c9e2190477682adba7,
  0x46f806225397fc91bb49eab33e4cf467, 0x56f3167fe31312df9eb885b869165d55, 0x1a24eaaa541cab0f9092b01169688933,
  0x21ce3a83c07704de74dad50f0d583b32, 0x224d20acccefc1ee67fd0ac2e3641972, 0x698e6217d7fb8627ef6aa903c013fa95,
  0x144558bb6c9ffcd7bc4c239cf48626f3, 0x2bd77bb364ab6b3fc733d8875e039333, 0x6aef57603cd3fceff55228f556d54755,
  0x38e6217d7e479d8109554569546afc0, 0x312705524d961730583bcf844c342240, 0x3bdc8ad604f36599e246fae899f68fc1,
  0x5252e8c1d328e3be0d2c5beb59e57554, 0x1af0929921b9589f9fb368dce89d2373, 0x3f46b4c41f7d395874f4e33b9d331780,
  0x258e6f54b84bf6f7ef54f70e70ef2ef3, 0x229a33517461d3ee69739a8be16c1972, 0x428019a11caacb8824c8241264b2fba6,
  0x5cea6fd59105659e2d1ccaeb5d2c7d54, 0x5ce7c3e3968e47f62e5390ab45fe70d4, 0x48afd66ef59a994991d0e977a9aa5ba7,
  0x41d77800d619af2838dab35b297373a6, 0x646cca2be3d6cc87d093e2fc4c0f4ad5, 0x2561da58536a903fe562896ae4899333,
  0x197d9b4b8cafcfaf8e88275824a90133, 0x2c14dba71e26fe964f314b9433eb3eb2, 0x46f806025397fc91bb49eab33e4cf467,
  0x1a24eaea541cab0f9092b01169688933, 0x224d202cccefc1ee67fd0ac2e3641972, 0x144559bb6c9ffcd7bc4c239cf48626f3,
  0x6aef55603cd3fceff55228f556d54755, 0x312701524d961730583bcf844c342240, 0x5252e0c1d328e3be0d2c5beb59e57554,
  0x3f46a4c41f7d395874f4e33b9d331780, 0x229a13517461d3ee69739a8be16c1972, 0x5cea2fd59105659e2d1ccaeb5d2c7d54,
  0x48af566ef59a994991d0e977a9aa5ba7, 0x646dca2be3d6cc87d093e2fc4c0f4ad5, 0x197f9b4b8cafcfaf8e88275824a90133,
  0x46fc06025397fc91bb49eab33e4cf467, 0x2245202cccefc1ee67fd0ac2e3641972, 0x6aff55603cd3fceff55228f556d54755,
  0x5272e0c1d328e3be0d2c5beb59e57554, 0x22da13517461d3ee69739a8be16c1972, 0x482f566ef59a994991d0e977a9aa5ba7,
  0x187f9b4b8cafcfaf8e88275824a90133, 0x2045202cccefc1ee67fd0ac2e3641972, 0x5672e0c1d328e3be0d2c5beb59e57554,
  0x402f566ef59a994991d0e977a9aa5ba7, 0x3045202cccefc1ee67fd0ac2e3641972, 0x602f566ef59a994991d0e977a9aa5ba7,
  0x202f566ef59a994991d0e977a9aa5ba7, 0x10d04d25f93556e69f58ce2f8d035a94]

def linApply (t : List (BitVec 128)) (y : BitVec 128) : BitVec 128 :=
  (List.range 128).foldl (fun z i => z ^^^ sel (y.getLsbD i) (t.getD i 0)) 0#128

theorem linApply_xor (t : List (BitVec 128)) (a b : BitVec 128) : linApply t (a ^^^ b) = linApply t a ^^^ linApply t b := by
  have key : ∀ (l : List Nat) (u v : BitVec 128),
      l.foldl (fun z i => z ^^^ sel ((a ^^^ b).getLsbD i) (t.getD i 0)) (u ^^^ v) =
        l.foldl (fun z i => z ^^^ sel (a.getLsbD i) (t.getD i 0)) u ^^^ l.foldl (fun z i => z ^^^ sel (b.getLsbD i) (t.getD i 0)) v := by
    intro l
    induction l with
    | nil => intros; rfl
    | cons i l ih =>
      intro u v
      rw [List.foldl_cons, List.foldl_cons, List.foldl_cons, ← ih]
      congr 1
      rw [BitVec.getLsbD_xor]
      generalize t.getD i 0 = w
      cases a.getLsbD i <;> cases b.getLsbD i <;> simp [sel]
      · ac_rfl
      · ac_rfl
      · have : u ^^^ w ^^^ (v ^^^ w) = u ^^^ v ^^^ (w ^^^ w) := by ac_rfl
        rw [this, BitVec.xor_self, BitVec.xor_zero]
  have := key (List.range 128) 0#128 0#128
  rwa [BitVec.xor_self] at this

theorem unArtin_spec (e : BitVec 128) : linApply unArtin (gfMul e e ^^^ e) = e &&& ~~~gfOne := by
  refine linear_ext (fun e => linApply unArtin (gfMul e e ^^^ e)) (fun e => e &&& ~~~gfOne) ?_ ?_ ?_ e
  · intro a b
    have h := congrArg Gf.val (sq_add ⟨a⟩ ⟨b⟩)
    rw [val_mul, val_add, val_add, val_mul, val_mul] at h
    show linApply unArtin (gfMul (a ^^^ b) (a ^^^ b) ^^^ (a ^^^ b)) = _
    rw [h, ← linApply_xor]
    congr 1
    ac_rfl
  · intro a b
    apply BitVec.eq_of_getLsbD_eq
    intro i _
    simp only [BitVec.getLsbD_and, BitVec.getLsbD_xor]
    cases a.getLsbD i <;> cases b.getLsbD i <;> simp
  · decide +kernel

theorem idem (e : Gf) (h : e * e = e) : e = 0 ∨ e = 1 := by
  have h1 := unArtin_spec e.val
  rw [show gfMul e.val e.val = e.val from congrArg Gf.val h, BitVec.xor_self,
    show linApply unArtin 0#128 = 0#128 by decide +kernel] at h1
  have hb : ∀ i, i < 128 → i ≠ 127 → e.val.getLsbD i = false := by
    intro i hi hne
    have := congrArg (fun v => v.getLsbD i) h1
    simp only [BitVec.getLsbD_zero, BitVec.getLsbD_and, BitVec.getLsbD_not, gfOne, BitVec.getLsbD_twoPow] at this
    simpa [hi, hne, Ne.symm hne] using this.symm
  by_cases h127 : e.val.getLsbD 127 = true
  · right
    apply Gf.ext
    rw [val_one, gfOne]
    apply BitVec.eq_of_getLsbD_eq
    intro i hi
    rw [BitVec.getLsbD_twoPow]
    by_cases hi7 : i = 127
    · subst hi7; simp [h127]
    · rw [hb i hi hi7]; simp [Ne.symm hi7]
  · left
    apply Gf.ext
    rw [val_zero]
    apply BitVec.eq_of_getLsbD_eq
    intro i hi
    rw [BitVec.getLsbD_zero]
    by_cases hi7 : i = 127
    · subst hi7; simpa using h127
    · exact hb i hi hi7

/-! ### no zero divisors -/

theorem inverse_of {m : Nat} (hm : ∀ a : Gf, a ^ (m + 2) = a) (a : Gf) (ha : a ≠ 0) : a * a ^ m = 1 := by
  have he : (a * a ^ m) * (a * a ^ m) = a * a ^ m := by
    have : (a * a ^ m) * (a * a ^ m) = a ^ (m + 2) * a ^ m := by ring
    rw [this, hm]
  rcases idem _ he with h | h
  · exfalso
    apply ha
    have : a ^ (m + 2) = a * (a * a ^ m) := by ring
    rw [← hm a, this, h, mul_zero]
  · exact h

theorem exists_inv (a : Gf) (ha : a ≠ 0) : ∃ b, a * b = 1 := by
  obtain ⟨m, hm⟩ : ∃ m, 2 ^ 128 = m + 2 := ⟨2 ^ 128 - 2, by norm_num⟩
  refine ⟨a ^ m, inverse_of ?_ a ha⟩
  intro b
  rw [← hm, ← sqN_pow, sqN_all]

instance : IsDomain Gf := by
  have : NoZeroDivisors Gf := ⟨by
    intro a b h
    by_cases ha : a = 0
    · exact Or.inl ha
    · right
      obtain ⟨c, hc⟩ := exists_inv a ha
      rw [← one_mul b, ← hc, mul_comm a c, mul_assoc, h, mul_zero]⟩
  exact NoZeroDivisors.to_isDomain Gf

end Gf

end Verif
