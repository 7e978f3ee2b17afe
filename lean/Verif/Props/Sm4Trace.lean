import Verif.Model.Sm4Trace
import Verif.Spec.WbExtract
import Verif.Props.WbExtract

/-! Property C105: what the table lookups of SM4 reveal. -/
set_option autoImplicit false

namespace Verif.Props
open Verif Spec Model

/-! ### the record does not change the program -/

theorem foldlM_val {α β : Type} (f : β → α → Traced β) (g : β → α → β) (h : ∀ b a, (f b a).val = g b a) (l : List α) :
    ∀ b, (l.foldlM f b).val = l.foldl g b := by
  induction l with
  | nil => intro b; rfl
  | cons a l ih =>
    intro b
    rw [List.foldlM_cons, List.foldl_cons, ← h, ← ih]
    rfl

theorem keyStepTr_val (mode : EncMode) (s : Vector (BitVec 32) 4 × Sm4Ctx) (i : Fin 32) : (keyStepTr mode s i).val = keyStep mode s i := by
  cases mode <;> rfl

/-- C105: with the lookups recorded the functions compute what they compute. -/
theorem C105_same (key : List Byte) (mode : EncMode) (rk : Sm4Ctx) (x : Block) :
    (sm4InitKeyTr key mode).val = sm4InitKey key mode ∧ (sm4EncryptTr rk x).val = Model.sm4Encrypt rk x ∧
      (sm4DecryptTr rk x).val = Model.sm4Decrypt rk x := by
  refine ⟨?_, rfl, rfl⟩
  show ((List.finRange 32).foldlM (keyStepTr mode) _).val.2 = _
  rw [foldlM_val _ _ (keyStepTr_val mode)]
  rfl

/-! ### which tables -/

theorem rnds_tabs (F : BitVec 32 → Traced (BitVec 32)) (l : List LookTab) (hF : ∀ x, (F x).log.map Look.tab = l) (rk : Sm4Ctx)
    (k0 k1 k2 k3 : Fin 32) (s : B4) : (sm4RndsTr F rk k0 k1 k2 k3 s).log.map Look.tab = l ++ l ++ l ++ l := by
  show List.map _ (_ ++ (_ ++ (_ ++ (_ ++ [])))) = _
  simp only [List.map_append, hF, List.append_nil, List.append_assoc]

/-- C105: which tables are looked up, and how often, depends on nothing. -/
theorem C105_shape (rk : Sm4Ctx) (x : Block) :
    (sm4EncryptTr rk x).log.map Look.tab = List.replicate 16 .s ++ List.replicate 96 .t ++ List.replicate 16 .s ∧
      (sm4DecryptTr rk x).log.map Look.tab = List.replicate 16 .s ++ List.replicate 96 .t ++ List.replicate 16 .s := by
  have hs : ∀ x, (tSlowTr x).log.map Look.tab = List.replicate 4 .s := fun _ => rfl
  have ht : ∀ x, (tFastTr x).log.map Look.tab = List.replicate 4 .t := fun _ => rfl
  constructor
  · show List.map _ (_ ++ (_ ++ (_ ++ (_ ++ (_ ++ (_ ++ (_ ++ (_ ++ [])))))))) = _
    simp only [List.map_append, rnds_tabs _ _ hs, rnds_tabs _ _ ht]
    decide
  · show List.map _ (_ ++ (_ ++ (_ ++ (_ ++ (_ ++ (_ ++ (_ ++ (_ ++ [])))))))) = _
    simp only [List.map_append, rnds_tabs _ _ hs, rnds_tabs _ _ ht]
    decide

/-! ### which entries -/

/-- The lookups in `SM4_S` for a word. -/
def looksS (w : Word) : List Look := [⟨.s, w.extractLsb' 24 8⟩, ⟨.s, w.extractLsb' 16 8⟩, ⟨.s, w.extractLsb' 8 8⟩, ⟨.s, w.extractLsb' 0 8⟩]

/-- Four lookups as a word. -/
def wordAt (l : List Look) (k : Nat) : Word :=
  ((l.getD (4 * k) ⟨.s, 0⟩).idx ++ (l.getD (4 * k + 1) ⟨.s, 0⟩).idx) ++ ((l.getD (4 * k + 2) ⟨.s, 0⟩).idx ++ (l.getD (4 * k + 3) ⟨.s, 0⟩).idx)

theorem subWordTr_log (w : Word) : (subWordTr w).log = looksS w := by
  show [_, _, _, _] = _
  simp only [trunc_shift]
  simp only [trunc_zero, looksS]

theorem tSlowTr_log (w : Word) : (tSlowTr w).log = looksS w := by
  show (subWordTr w).log ++ [] = _
  rw [List.append_nil, subWordTr_log]

theorem wordAt_four (a b c d : Word) (r : List Look) :
    wordAt (looksS a ++ (looksS b ++ (looksS c ++ (looksS d ++ r)))) 0 = a ∧
    wordAt (looksS a ++ (looksS b ++ (looksS c ++ (looksS d ++ r)))) 1 = b ∧
    wordAt (looksS a ++ (looksS b ++ (looksS c ++ (looksS d ++ r)))) 2 = c ∧
    wordAt (looksS a ++ (looksS b ++ (looksS c ++ (looksS d ++ r)))) 3 = d :=
  ⟨append4_extract a, append4_extract b, append4_extract c, append4_extract d⟩

/-- One round from what went into `T`: the round key and the next state. -/
def backRound (X : Quad) (t : Word) : Word × Quad := (X.b ^^^ X.c ^^^ X.d ^^^ t, ⟨X.b, X.c, X.d, X.a ^^^ sm4T t⟩)

/-- The round keys of the first four rounds, from the input and the lookups. -/
def rksOf (x : Block) (l : List Look) : Quad :=
  let r0 := backRound (quadOf x) (wordAt l 0)
  let r1 := backRound r0.2 (wordAt l 1)
  let r2 := backRound r1.2 (wordAt l 2)
  let r3 := backRound r2.2 (wordAt l 3)
  ⟨r0.1, r1.1, r2.1, r3.1⟩

/-- What goes into `T` in a round. -/
def tIn (X : Quad) (k : Word) : Word := X.b ^^^ X.c ^^^ X.d ^^^ k

theorem backRound_eq (X : Quad) (k : Word) : backRound X (tIn X k) = (k, sm4Round X k) := by
  rw [backRound, tIn, sm4Round, ← BitVec.xor_assoc, BitVec.xor_self, BitVec.zero_xor]

theorem rnds_log (rk : Sm4Ctx) (k0 k1 k2 k3 : Fin 32) (x : Block) (r : List Look) :
    rksOf x ((sm4RndsTr tSlowTr rk k0 k1 k2 k3 (B4.load x)).log ++ r) = ⟨rk[k0], rk[k1], rk[k2], rk[k3]⟩ := by
  have hl := load_eq x
  generalize B4.load x = s at hl
  obtain ⟨X, hX⟩ : ∃ X, quadOf x = X := ⟨_, rfl⟩
  have e : (sm4RndsTr tSlowTr rk k0 k1 k2 k3 s).log = looksS (tIn X rk[k0]) ++ (looksS (tIn (sm4Round X rk[k0]) rk[k1]) ++
      (looksS (tIn (sm4Round (sm4Round X rk[k0]) rk[k1]) rk[k2]) ++
        looksS (tIn (sm4Round (sm4Round (sm4Round X rk[k0]) rk[k1]) rk[k2]) rk[k3]))) := by
    show (tSlowTr _).log ++ ((tSlowTr _).log ++ ((tSlowTr _).log ++ ((tSlowTr _).log ++ []))) = _
    have hv : ∀ w, (tSlowTr w).val = sm4T w := tSlow_eq
    simp only [tSlowTr_log, hv, List.append_nil]
    rw [← hX, ← hl]
    have h1 : ∀ f k : Word, s.b0 ^^^ f ^^^ s.b2 ^^^ s.b3 ^^^ k = s.b2 ^^^ s.b3 ^^^ (s.b0 ^^^ f) ^^^ k := fun f k => by ac_rfl
    have h2 : ∀ f g k : Word, s.b0 ^^^ f ^^^ (s.b1 ^^^ g) ^^^ s.b3 ^^^ k = s.b3 ^^^ (s.b0 ^^^ f) ^^^ (s.b1 ^^^ g) ^^^ k :=
      fun f g k => by ac_rfl
    simp only [tIn, sm4Round, B4.toQuad, h1, h2]
  rw [e, List.append_assoc, List.append_assoc, List.append_assoc]
  obtain ⟨w0, w1, w2, w3⟩ := wordAt_four (tIn X rk[k0]) (tIn (sm4Round X rk[k0]) rk[k1])
    (tIn (sm4Round (sm4Round X rk[k0]) rk[k1]) rk[k2]) (tIn (sm4Round (sm4Round (sm4Round X rk[k0]) rk[k1]) rk[k2]) rk[k3]) r
  simp only [rksOf, w0, w1, w2, w3, hX, backRound_eq]

theorem take16 (rk : Sm4Ctx) (k0 k1 k2 k3 : Fin 32) (x : Block) (r : List Look) :
    rksOf x (((sm4RndsTr tSlowTr rk k0 k1 k2 k3 (B4.load x)).log ++ r).take 16) = ⟨rk[k0], rk[k1], rk[k2], rk[k3]⟩ := by
  have hl : (sm4RndsTr tSlowTr rk k0 k1 k2 k3 (B4.load x)).log.length = 16 := rfl
  rw [← hl, List.take_left, ← rnds_log rk k0 k1 k2 k3 x [], List.append_nil]

theorem rk_window (key : List Byte) (i : Nat) (hi : i < 32) : (sm4InitKey key .encrypt)[i] = sm4Rk (quadOf (padKey key)) i := by
  have h := (initKey_eq key).1
  have : (sm4InitKey key .encrypt).toList[i]'(by simpa using hi) = (sm4RoundKeys (quadOf (padKey key)))[i]'(by simpa [sm4RoundKeys] using hi) := by
    simp only [h]
  simpa [sm4RoundKeys] using this

/-- C105: the input of an encryption and the entries looked up in its first four rounds give the key. -/
theorem C105_encrypt : ∃ f : Block → List Look → Block, ∀ (key : List Byte) (x : Block),
    f x ((sm4EncryptTr (sm4InitKey key .encrypt) x).log.take 16) = padKey key := by
  refine ⟨fun x l => (unschedule 4 (rksOf x l)).toBlock, fun key x => ?_⟩
  have h : rksOf x ((sm4EncryptTr (sm4InitKey key .encrypt) x).log.take 16) = sm4KeyWindow (quadOf (padKey key)) 4 := by
    refine (take16 (sm4InitKey key .encrypt) 0 1 2 3 x _).trans ?_
    show (⟨(sm4InitKey key .encrypt)[0], (sm4InitKey key .encrypt)[1], (sm4InitKey key .encrypt)[2],
      (sm4InitKey key .encrypt)[3]⟩ : Quad) = _
    rw [rk_window key 0, rk_window key 1, rk_window key 2, rk_window key 3]
    rfl
  show (unschedule 4 (rksOf x _)).toBlock = _
  rw [h, unschedule_eq, toBlock_quadOf]

/-- C105: the input of a decryption and the entries looked up in its first four rounds give the key. -/
theorem C105_decrypt : ∃ f : Block → List Look → Block, ∀ (key : List Byte) (x : Block),
    f x ((sm4DecryptTr (sm4InitKey key .encrypt) x).log.take 16) = padKey key := by
  refine ⟨fun x l => (unschedule 32 (rksOf x l).rev).toBlock, fun key x => ?_⟩
  have h : rksOf x ((sm4DecryptTr (sm4InitKey key .encrypt) x).log.take 16) = (sm4KeyWindow (quadOf (padKey key)) 32).rev := by
    refine (take16 (sm4InitKey key .encrypt) 31 30 29 28 x _).trans ?_
    show (⟨(sm4InitKey key .encrypt)[31], (sm4InitKey key .encrypt)[30], (sm4InitKey key .encrypt)[29],
      (sm4InitKey key .encrypt)[28]⟩ : Quad) = _
    rw [rk_window key 31, rk_window key 30, rk_window key 29, rk_window key 28]
    rfl
  show (unschedule 32 (rksOf x _).rev).toBlock = _
  rw [h]
  show (unschedule 32 (sm4KeyWindow (quadOf (padKey key)) 32)).toBlock = _
  rw [unschedule_eq, toBlock_quadOf]

/-- What goes into the S-boxes in step `i` of the key schedule. -/
def keyIn (K : Vector (BitVec 32) 4) (i : Fin 32) : Word :=
  K[(i.1 + 1) % 4]'(Nat.mod_lt _ (by decide)) ^^^ K[(i.1 + 2) % 4]'(Nat.mod_lt _ (by decide)) ^^^
    K[(i.1 + 3) % 4]'(Nat.mod_lt _ (by decide)) ^^^ SM4_CK[i]

theorem keyStepTr_log (mode : EncMode) (s : Vector (BitVec 32) 4 × Sm4Ctx) (i : Fin 32) :
    (keyStepTr mode s i).log = looksS (keyIn s.1 i) := by
  cases mode
  · show (subWordTr (keyIn s.1 i)).log ++ [] = _
    rw [List.append_nil, subWordTr_log]
  · show (subWordTr (keyIn s.1 i)).log ++ [] = _
    rw [List.append_nil, subWordTr_log]

theorem keyStepTr_fst (mode : EncMode) (s : Vector (BitVec 32) 4 × Sm4Ctx) (i : Fin 32) :
    (keyStepTr mode s i).val.1 = s.1.set (i.1 % 4) (s.1[i.1 % 4]'(Nat.mod_lt _ (by decide)) ^^^ sm4T' (keyIn s.1 i))
      (Nat.mod_lt _ (by decide)) := by
  have h : subWord (keyIn s.1 i) ^^^ rotl (subWord (keyIn s.1 i)) 13 ^^^ rotl (subWord (keyIn s.1 i)) 23 = sm4T' (keyIn s.1 i) := by
    rw [subWord_eq, rotl_eq _ _ (by decide) (by decide), rotl_eq _ _ (by decide) (by decide)]
    rfl
  rw [← h]
  cases mode <;> rfl

theorem setup_log (key : List Byte) (mode : EncMode) : ∃ r, (sm4InitKeyTr key mode).log =
    let k := sm4KeyWindow (quadOf (padKey key)) 0
    let s0 := k.b ^^^ k.c ^^^ k.d ^^^ SM4_CK[0]
    let s1 := k.c ^^^ k.d ^^^ (k.a ^^^ sm4T' s0) ^^^ SM4_CK[1]
    let s2 := k.d ^^^ (k.a ^^^ sm4T' s0) ^^^ (k.b ^^^ sm4T' s1) ^^^ SM4_CK[2]
    let s3 := (k.a ^^^ sm4T' s0) ^^^ (k.b ^^^ sm4T' s1) ^^^ (k.c ^^^ sm4T' s2) ^^^ SM4_CK[3]
    looksS s0 ++ (looksS s1 ++ (looksS s2 ++ (looksS s3 ++ r))) := by
  have hfr : List.finRange 32 = 0 :: 1 :: 2 :: 3 :: (List.finRange 32).drop 4 := by decide
  have hq := load_eq (padKey key)
  obtain ⟨st, hst⟩ : ∃ st : Vector (BitVec 32) 4 × Sm4Ctx, st = (#v[loadU32 (padKey key) 0 ^^^ SM4_FK[0],
    loadU32 (padKey key) 1 ^^^ SM4_FK[1], loadU32 (padKey key) 2 ^^^ SM4_FK[2], loadU32 (padKey key) 3 ^^^ SM4_FK[3]],
    Vector.replicate 32 0) := ⟨_, rfl⟩
  obtain ⟨k, hk⟩ : ∃ k, sm4KeyWindow (quadOf (padKey key)) 0 = k := ⟨_, rfl⟩
  have hK : st.1 = #v[k.a, k.b, k.c, k.d] := by
    rw [hst, ← hk, sm4KeyWindow, ← hq]
    rfl
  have hl : (sm4InitKeyTr key mode).log = ((List.finRange 32).foldlM (keyStepTr mode) st).log ++ [] := by
    rw [hst]
    rfl
  rw [hl, List.append_nil, hfr, hk]
  simp only [List.foldlM_cons]
  refine ⟨((List.finRange 32).drop 4 |>.foldlM (keyStepTr mode)
    (keyStepTr mode (keyStepTr mode (keyStepTr mode (keyStepTr mode st 0).val 1).val 2).val 3).val).log, ?_⟩
  · show (keyStepTr mode st 0).log ++ ((keyStepTr mode (keyStepTr mode st 0).val 1).log ++
      ((keyStepTr mode (keyStepTr mode (keyStepTr mode st 0).val 1).val 2).log ++
        ((keyStepTr mode (keyStepTr mode (keyStepTr mode (keyStepTr mode st 0).val 1).val 2).val 3).log ++ _))) = _
    simp only [keyStepTr_log, keyStepTr_fst, hK]
    rfl

/-- The key from what went into the S-boxes in the first four steps. -/
def setupKey (l : List Look) : Block :=
  let s0 := wordAt l 0
  let s1 := wordAt l 1
  let s2 := wordAt l 2
  let s3 := wordAt l 3
  let u0 := s0 ^^^ SM4_CK[0]
  let u1 := s1 ^^^ SM4_CK[1] ^^^ sm4T' s0
  let u2 := s2 ^^^ SM4_CK[2] ^^^ sm4T' s0 ^^^ sm4T' s1
  let u3 := s3 ^^^ SM4_CK[3] ^^^ sm4T' s0 ^^^ sm4T' s1 ^^^ sm4T' s2
  (unschedule 0 ⟨u1 ^^^ u2 ^^^ u3, u0 ^^^ u2 ^^^ u3, u0 ^^^ u1 ^^^ u3, u0 ^^^ u1 ^^^ u2⟩).toBlock

theorem solve4_bool : ∀ a b c d x y z p q r t : Bool,
    (((c ^^ d ^^ (a ^^ x) ^^ q ^^ q ^^ x) ^^ (d ^^ (a ^^ x) ^^ (b ^^ y) ^^ r ^^ r ^^ x ^^ y) ^^
      ((a ^^ x) ^^ (b ^^ y) ^^ (c ^^ z) ^^ t ^^ t ^^ x ^^ y ^^ z)) = a) ∧
    (((b ^^ c ^^ d ^^ p ^^ p) ^^ (d ^^ (a ^^ x) ^^ (b ^^ y) ^^ r ^^ r ^^ x ^^ y) ^^
      ((a ^^ x) ^^ (b ^^ y) ^^ (c ^^ z) ^^ t ^^ t ^^ x ^^ y ^^ z)) = b) ∧
    (((b ^^ c ^^ d ^^ p ^^ p) ^^ (c ^^ d ^^ (a ^^ x) ^^ q ^^ q ^^ x) ^^
      ((a ^^ x) ^^ (b ^^ y) ^^ (c ^^ z) ^^ t ^^ t ^^ x ^^ y ^^ z)) = c) ∧
    (((b ^^ c ^^ d ^^ p ^^ p) ^^ (c ^^ d ^^ (a ^^ x) ^^ q ^^ q ^^ x) ^^
      (d ^^ (a ^^ x) ^^ (b ^^ y) ^^ r ^^ r ^^ x ^^ y)) = d) := by
  decide +kernel

theorem solve4 (a b c d x y z p q r t : Word) :
    (c ^^^ d ^^^ (a ^^^ x) ^^^ q ^^^ q ^^^ x) ^^^ (d ^^^ (a ^^^ x) ^^^ (b ^^^ y) ^^^ r ^^^ r ^^^ x ^^^ y) ^^^
      ((a ^^^ x) ^^^ (b ^^^ y) ^^^ (c ^^^ z) ^^^ t ^^^ t ^^^ x ^^^ y ^^^ z) = a ∧
    (b ^^^ c ^^^ d ^^^ p ^^^ p) ^^^ (d ^^^ (a ^^^ x) ^^^ (b ^^^ y) ^^^ r ^^^ r ^^^ x ^^^ y) ^^^
      ((a ^^^ x) ^^^ (b ^^^ y) ^^^ (c ^^^ z) ^^^ t ^^^ t ^^^ x ^^^ y ^^^ z) = b ∧
    (b ^^^ c ^^^ d ^^^ p ^^^ p) ^^^ (c ^^^ d ^^^ (a ^^^ x) ^^^ q ^^^ q ^^^ x) ^^^
      ((a ^^^ x) ^^^ (b ^^^ y) ^^^ (c ^^^ z) ^^^ t ^^^ t ^^^ x ^^^ y ^^^ z) = c ∧
    (b ^^^ c ^^^ d ^^^ p ^^^ p) ^^^ (c ^^^ d ^^^ (a ^^^ x) ^^^ q ^^^ q ^^^ x) ^^^
      (d ^^^ (a ^^^ x) ^^^ (b ^^^ y) ^^^ r ^^^ r ^^^ x ^^^ y) = d := by
  refine ⟨?_, ?_, ?_, ?_⟩ <;> ext i hi <;> simp only [BitVec.getElem_xor]
  · exact (solve4_bool a[i] b[i] c[i] d[i] x[i] y[i] z[i] p[i] q[i] r[i] t[i]).1
  · exact (solve4_bool a[i] b[i] c[i] d[i] x[i] y[i] z[i] p[i] q[i] r[i] t[i]).2.1
  · exact (solve4_bool a[i] b[i] c[i] d[i] x[i] y[i] z[i] p[i] q[i] r[i] t[i]).2.2.1
  · exact (solve4_bool a[i] b[i] c[i] d[i] x[i] y[i] z[i] p[i] q[i] r[i] t[i]).2.2.2

/-- C105: the entries looked up in the first four steps of the key schedule give the key, and nothing else is needed. -/
theorem C105_setup : ∃ f : List Look → Block, ∀ (key : List Byte) (mode : EncMode),
    f ((sm4InitKeyTr key mode).log.take 16) = padKey key := by
  refine ⟨setupKey, fun key mode => ?_⟩
  obtain ⟨r, hr⟩ := setup_log key mode
  obtain ⟨k, hk⟩ : ∃ k, sm4KeyWindow (quadOf (padKey key)) 0 = k := ⟨_, rfl⟩
  rw [hk] at hr
  simp only at hr
  generalize h0 : k.b ^^^ k.c ^^^ k.d ^^^ SM4_CK[0] = s0 at hr
  generalize h1 : k.c ^^^ k.d ^^^ (k.a ^^^ sm4T' s0) ^^^ SM4_CK[1] = s1 at hr
  generalize h2 : k.d ^^^ (k.a ^^^ sm4T' s0) ^^^ (k.b ^^^ sm4T' s1) ^^^ SM4_CK[2] = s2 at hr
  generalize h3 : (k.a ^^^ sm4T' s0) ^^^ (k.b ^^^ sm4T' s1) ^^^ (k.c ^^^ sm4T' s2) ^^^ SM4_CK[3] = s3 at hr
  have ht : (sm4InitKeyTr key mode).log.take 16 = looksS s0 ++ (looksS s1 ++ (looksS s2 ++ (looksS s3 ++ []))) := by
    rw [hr]
    rfl
  obtain ⟨w0, w1, w2, w3⟩ := wordAt_four s0 s1 s2 s3 []
  obtain ⟨e0, e1, e2, e3⟩ := solve4 k.a k.b k.c k.d (sm4T' s0) (sm4T' s1) (sm4T' s2) SM4_CK[0] SM4_CK[1] SM4_CK[2] SM4_CK[3]
  rw [h0, h1, h2, h3] at *
  rw [ht]
  unfold setupKey
  simp only [w0, w1, w2, w3]
  rw [e0, e1, e2, e3]
  show (unschedule 0 k).toBlock = _
  rw [← hk, unschedule_eq, toBlock_quadOf]

/-! ### what cache lines show -/

/-- The line of 64 bytes of `SM4_S` with an entry, for a table that begins at a line. -/
def sLine (l : Look) : Byte := l.idx >>> 6

theorem first_looks (rk : Sm4Ctx) (x : Block) : (sm4EncryptTr rk x).log.take 4 =
    looksS ((loadU32 x 1 ^^^ loadU32 x 2 ^^^ loadU32 x 3) ^^^ rk[0]) := by
  show List.take 4 ((tSlowTr ((loadU32 x 1 ^^^ loadU32 x 2 ^^^ loadU32 x 3) ^^^ rk[0])).log ++ _ ++ _) = _
  rw [tSlowTr_log]
  rfl

theorem xor_line (c a b : Byte) : (c ^^^ a) >>> 6 = (c ^^^ b) >>> 6 ↔ a >>> 6 = b >>> 6 := by
  rw [BitVec.ushiftRight_xor_distrib, BitVec.ushiftRight_xor_distrib]
  exact BitVec.xor_right_inj _

theorem lines_iff (c k k' : Word) : ((looksS (c ^^^ k)).map sLine = (looksS (c ^^^ k')).map sLine) ↔
    ∀ j : Fin 4, byteOf j k >>> 6 = byteOf j k' >>> 6 := by
  have hx : ∀ (u v : Word) (n : Nat), (u ^^^ v).extractLsb' n 8 = u.extractLsb' n 8 ^^^ v.extractLsb' n 8 := by
    intro u v n
    ext i hi
    simp
  simp only [looksS, List.map_cons, List.map_nil, sLine, hx, List.cons.injEq, and_true, xor_line]
  constructor
  · rintro ⟨h0, h1, h2, h3⟩ j
    match j with
    | 0 => exact h0
    | 1 => exact h1
    | 2 => exact h2
    | 3 => exact h3
  · intro h
    exact ⟨h 0, h 1, h 2, h 3⟩

/-- C105: the lines touched in the first round are those of the two upper bits of the bytes of the first round key. All
messages together show no more of it than one does. -/
theorem C105_lines (rk rk' : Sm4Ctx) (x : Block) :
    ((((sm4EncryptTr rk x).log.take 4).map sLine = ((sm4EncryptTr rk' x).log.take 4).map sLine) ↔
      ∀ j : Fin 4, byteOf j rk[0] >>> 6 = byteOf j rk'[0] >>> 6) ∧
    ((((sm4EncryptTr rk x).log.take 4).map sLine = ((sm4EncryptTr rk' x).log.take 4).map sLine) ↔
      ∀ y, ((sm4EncryptTr rk y).log.take 4).map sLine = ((sm4EncryptTr rk' y).log.take 4).map sLine) := by
  have h : ∀ y, (((sm4EncryptTr rk y).log.take 4).map sLine = ((sm4EncryptTr rk' y).log.take 4).map sLine) ↔
      ∀ j : Fin 4, byteOf j rk[0] >>> 6 = byteOf j rk'[0] >>> 6 := by
    intro y
    rw [first_looks, first_looks]
    exact lines_iff _ _ _
  exact ⟨h x, ⟨fun e y => (h y).2 ((h x).1 e), fun e => e x⟩⟩

/- Keys whose first lookups touch the same lines, and keys whose lookups do not. -/
example : ((sm4EncryptTr (Vector.replicate 32 0x01020304) zeroBlock).log.take 4).map sLine =
    ((sm4EncryptTr (Vector.replicate 32 0x3F3F3F3F) zeroBlock).log.take 4).map sLine :=
  (C105_lines _ _ _).1.2 (by decide +kernel)
example : ¬ ((sm4EncryptTr (Vector.replicate 32 0x01020304) zeroBlock).log.take 4).map sLine =
    ((sm4EncryptTr (Vector.replicate 32 0x40000000) zeroBlock).log.take 4).map sLine :=
  fun h => absurd ((C105_lines _ _ _).1.1 h) (by decide +kernel)

/- The lookups of a key schedule are not all equal. -/
example : setupKey ((sm4InitKeyTr [1, 2, 3] .encrypt).log.take 16) = padKey [1, 2, 3] := by decide +kernel

end Verif.Props
