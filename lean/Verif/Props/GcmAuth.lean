import Verif.Lemmas.GfField
import Verif.Spec.GcmAuth
import Verif.Props.WbGcmExtract
import Verif.Props.GcmParallel

/-! Property C90: how many hash keys accept a forged message, and what repeating an IV gives away. -/
set_option autoImplicit false

namespace Verif.Props
open Verif Verif.Model Verif.Spec Polynomial

/-! ### GHASH as a polynomial in the hash key -/

noncomputable def hpFrom (p : Gf[X]) (xs : List (BitVec 128)) : Gf[X] := xs.foldl (fun p x => (p + C ⟨x⟩) * X) p

noncomputable def hp (xs : List (BitVec 128)) : Gf[X] := hpFrom 0 xs

theorem hp_append (xs : List (BitVec 128)) (x : BitVec 128) : hp (xs ++ [x]) = (hp xs + C ⟨x⟩) * X := by
  simp [hp, hpFrom]

theorem hpFrom_eval (h : BitVec 128) (xs : List (BitVec 128)) : ∀ (p : Gf[X]) (y : BitVec 128), p.eval ⟨h⟩ = ⟨y⟩ →
    (hpFrom p xs).eval ⟨h⟩ = ⟨ghashFrom h y xs⟩ := by
  induction xs with
  | nil => intro p y hy; exact hy
  | cons x xs ih =>
    intro p y hy
    refine ih ((p + C ⟨x⟩) * X) (gfMul (y ^^^ x) h) ?_
    rw [eval_mul, eval_add, eval_C, eval_X, hy]
    rfl

theorem hp_eval (h : BitVec 128) (xs : List (BitVec 128)) : (hp xs).eval ⟨h⟩ = ⟨ghash h xs⟩ :=
  hpFrom_eval h xs 0 0 (by rw [eval_zero]; rfl)

theorem hp_eval_zero (xs : List (BitVec 128)) : (hp xs).eval 0 = 0 := by
  rcases List.eq_nil_or_concat xs with rfl | ⟨l, x, rfl⟩
  · simp [hp, hpFrom]
  · rw [List.concat_eq_append, hp_append, eval_mul, eval_X, mul_zero]

theorem hp_degree (xs : List (BitVec 128)) : (hp xs).natDegree ≤ xs.length := by
  induction xs using List.reverseRecOn with
  | nil => simp [hp, hpFrom]
  | append_singleton xs x ih =>
    rw [hp_append, List.length_append, List.length_singleton]
    refine natDegree_mul_le.trans ?_
    refine Nat.add_le_add ?_ natDegree_X_le
    exact (natDegree_add_C (p := hp xs)).le.trans ih

theorem hp_last (xs ys : List (BitVec 128)) (x y : BitVec 128) (h : hp (xs ++ [x]) = hp (ys ++ [y])) : x = y ∧ hp xs = hp ys := by
  rw [hp_append, hp_append] at h
  have h1 := mul_right_cancel₀ X_ne_zero h
  have h2 := congrArg (eval 0) h1
  rw [eval_add, eval_add, eval_C, eval_C, hp_eval_zero, hp_eval_zero, zero_add, zero_add] at h2
  have hxy : x = y := congrArg Gf.val h2
  refine ⟨hxy, ?_⟩
  rw [hxy] at h1
  exact add_right_cancel h1

theorem hp_injective (n : Nat) : ∀ xs ys : List (BitVec 128), xs.length = n → ys.length = n → hp xs = hp ys → xs = ys := by
  induction n with
  | zero =>
    intro xs ys hx hy _
    rw [List.length_eq_zero_iff.mp hx, List.length_eq_zero_iff.mp hy]
  | succ n ih =>
    intro xs ys hx hy h
    rcases List.eq_nil_or_concat xs with rfl | ⟨l, x, rfl⟩
    · simp at hx
    · rcases List.eq_nil_or_concat ys with rfl | ⟨m, y, rfl⟩
      · simp at hy
      · rw [List.concat_eq_append, List.concat_eq_append] at h ⊢
        obtain ⟨h1, h2⟩ := hp_last _ _ _ _ h
        rw [h1, ih l m (by simpa using hx) (by simpa using hy) h2]

/-! ### the blocks determine AAD and ciphertext -/

theorem chunks_count (l : List Byte) : (chunks l).length = (l.length + 15) / 16 := by
  induction l using chunks_induction with
  | nil => rfl
  | step l hl ih =>
    rw [chunks_of_ne_nil hl, List.length_cons, ih, List.length_drop]
    have := List.length_pos_iff.mpr hl
    omega

theorem gcmBlocks_length (a c : List Byte) : (gcmBlocks a c).length = gcmBlockCount a c := by
  simp [gcmBlocks, gcmBlockCount, chunks_count, Nat.add_assoc]

theorem padBV_inj (a b : List Byte) (hl : a.length = b.length) (h16 : a.length ≤ 16) (h : padBV a = padBV b) : a = b := by
  have h1 := toBV_injective h
  apply List.ext_getElem hl
  intro i hi hi'
  have := congrArg (fun v : Block => v[i]'(by omega)) h1
  simp only [Vector.getElem_ofFn] at this
  rwa [List.getD_eq_getElem?_getD, List.getD_eq_getElem?_getD, List.getElem?_eq_getElem hi, List.getElem?_eq_getElem hi'] at this

theorem pads_inj (a : List Byte) : ∀ b : List Byte, a.length = b.length → (chunks a).map padBV = (chunks b).map padBV → a = b := by
  induction a using chunks_induction with
  | nil => intro b hl _; exact (List.length_eq_zero_iff.mp hl.symm).symm
  | step a ha ih =>
    intro b hl h
    have hb : b ≠ [] := by
      rintro rfl
      exact ha (List.length_eq_zero_iff.mp hl)
    rw [chunks_of_ne_nil ha, chunks_of_ne_nil hb, List.map_cons, List.map_cons, List.cons.injEq] at h
    have h1 := padBV_inj _ _ (by simp [hl]) (by simp) h.1
    have h2 := ih _ (by simp [hl]) h.2
    rw [← List.take_append_drop 16 a, h1, h2, List.take_append_drop]

theorem lenBlock_inj (a c a' c' : List Byte) (ha : a.length < 2 ^ 61) (hc : c.length < 2 ^ 61) (ha' : a'.length < 2 ^ 61)
    (hc' : c'.length < 2 ^ 61) (h : lenBlock a c = lenBlock a' c') : a.length = a'.length ∧ c.length = c'.length := by
  unfold lenBlock at h
  have h1 := congrArg (fun v : BitVec 128 => v.extractLsb' 0 64) h
  have h2 := congrArg (fun v : BitVec 128 => v.extractLsb' 64 64) h
  simp only [BitVec.extractLsb'_append_eq_right, BitVec.extractLsb'_append_eq_left] at h1 h2
  have e1 := congrArg BitVec.toNat h1
  have e2 := congrArg BitVec.toNat h2
  simp only [BitVec.toNat_ofNat] at e1 e2
  rw [Nat.mod_eq_of_lt (by omega), Nat.mod_eq_of_lt (by omega)] at e1 e2
  omega

theorem hp_blocks_inj (a c a' c' : List Byte) (ha : a.length < 2 ^ 61) (hc : c.length < 2 ^ 61) (ha' : a'.length < 2 ^ 61)
    (hc' : c'.length < 2 ^ 61) (h : hp (gcmBlocks a c) = hp (gcmBlocks a' c')) : a = a' ∧ c = c' := by
  obtain ⟨h1, h2⟩ := hp_last _ _ _ _ h
  obtain ⟨l1, l2⟩ := lenBlock_inj a c a' c' ha hc ha' hc' h1
  have h3 := hp_injective _ _ _ rfl (by simp [chunks_count, l1, l2]) h2
  obtain ⟨h4, h5⟩ := List.append_inj h3 (by simp [chunks_count, l1])
  exact ⟨pads_inj _ _ l1 h4, pads_inj _ _ l2 h5⟩

/-- The hash keys for which the hashes of two messages differ by `d`. -/
noncomputable def hashRoots (a c a' c' : List Byte) (d : BitVec 128) : List (BitVec 128) :=
  (hp (gcmBlocks a c) + hp (gcmBlocks a' c') + C (⟨d⟩ : Gf)).roots.toList.map Gf.val

theorem hashRoots_length (a c a' c' : List Byte) (d : BitVec 128) :
    (hashRoots a c a' c' d).length ≤ max (gcmBlockCount a c) (gcmBlockCount a' c') := by
  rw [hashRoots, List.length_map, Multiset.length_toList, ← gcmBlocks_length, ← gcmBlocks_length]
  refine (card_roots' _).trans ?_
  rw [natDegree_add_C]
  refine (natDegree_add_le _ _).trans ?_
  exact max_le_max (hp_degree _) (hp_degree _)

theorem mem_hashRoots (a c a' c' : List Byte) (d : BitVec 128) (ha : a.length < 2 ^ 61) (hc : c.length < 2 ^ 61)
    (ha' : a'.length < 2 ^ 61) (hc' : c'.length < 2 ^ 61) (hne : ¬(a = a' ∧ c = c')) (h : BitVec 128) :
    h ∈ hashRoots a c a' c' d ↔ ghash h (gcmBlocks a c) ^^^ ghash h (gcmBlocks a' c') = d := by
  have hq : hp (gcmBlocks a c) + hp (gcmBlocks a' c') + C (⟨d⟩ : Gf) ≠ 0 := by
    intro h0
    apply hne
    apply hp_blocks_inj a c a' c' ha hc ha' hc'
    have h1 := congrArg (eval 0) h0
    rw [eval_add, eval_add, hp_eval_zero, hp_eval_zero, eval_C, eval_zero, zero_add, zero_add] at h1
    rw [h1, C_0, add_zero] at h0
    have h2 : hp (gcmBlocks a' c') + hp (gcmBlocks a' c') = 0 := by
      ext n
      rw [coeff_add, Gf.add_self, coeff_zero]
    rw [← h2] at h0
    exact add_right_cancel h0
  have he : ∀ x : BitVec 128, (hp (gcmBlocks a c) + hp (gcmBlocks a' c') + C (⟨d⟩ : Gf)).eval (⟨x⟩ : Gf) = 0 ↔
      ghash x (gcmBlocks a c) ^^^ ghash x (gcmBlocks a' c') = d := by
    intro x
    rw [eval_add, eval_add, hp_eval, hp_eval, eval_C]
    constructor
    · intro h0
      have := congrArg Gf.val h0
      rw [Gf.val_add, Gf.val_add, Gf.val_zero] at this
      exact BitVec.xor_eq_zero_iff.mp this
    · intro h0
      apply Gf.ext
      rw [Gf.val_add, Gf.val_add, Gf.val_zero]
      exact BitVec.xor_eq_zero_iff.mpr h0
  rw [hashRoots, List.mem_map]
  constructor
  · rintro ⟨⟨x⟩, hx, rfl⟩
    rw [Multiset.mem_toList, mem_roots hq, IsRoot.def] at hx
    exact (he x).mp hx
  · intro hx
    refine ⟨⟨h⟩, ?_, rfl⟩
    rw [Multiset.mem_toList, mem_roots hq, IsRoot.def]
    exact (he h).mpr hx

/-! ### the receiving side -/

theorem open_eq (E : Block → Block) (iv a c out : List Byte) (outlen n : Nat) (hn : n ≤ 16) (hiv : iv.length < 2 ^ 29)
    (ha : a.length < 2 ^ 61) (hc : c.length < 2 ^ 31) (ho : c.length ≤ outlen) (hb : outlen ≤ out.length) :
    openMsg (gcmInit E) iv a c out outlen n =
      some (1, gcmCipher E iv c ++ out.drop c.length, (gcmTag E iv a c).toList.take n) := by
  have hl := length_gcmCipher E iv c
  have hs := seal_eq (gcmInit E) (init_ok E) iv a (gcmCipher E iv c) out outlen n hn hiv ha (by omega) (by omega) hb
  rw [show (gcmInit E).block = E from rfl, gcmCipher_twice, hl] at hs
  obtain ⟨o, tag, h1, _, h2⟩ := C13_gcm_tags_agree (gcmInit E) iv a (gcmCipher E iv c) out out outlen outlen n hn (by omega) (by omega)
    hb (by omega) hb
  rw [hs] at h1
  simp only [Option.some.injEq, Prod.mk.injEq, true_and] at h1
  rw [← h1.1, ← h1.2, hl, List.take_left' rfl] at h2
  exact h2

theorem gcmTag_blocks (E : Block → Block) (iv a c : List Byte) :
    toBV (gcmTag E iv a c) = toBV (E (ofBV (j0 E iv))) ^^^ ghash (toBV (E zeroBlock)) (gcmBlocks a c) := by
  rw [gcmTag, toBV_xor, toBV_ofBV]
  rfl

theorem tag_diff (E : Block → Block) (iv a c a' c' : List Byte) :
    toBV (gcmTag E iv a c) ^^^ toBV (gcmTag E iv a' c') =
      ghash (toBV (E zeroBlock)) (gcmBlocks a c) ^^^ ghash (toBV (E zeroBlock)) (gcmBlocks a' c') := by
  rw [gcmTag_blocks, gcmTag_blocks]
  generalize toBV (E (ofBV (j0 E iv))) = u
  generalize ghash _ _ = v
  generalize ghash _ _ = w
  have : u ^^^ v ^^^ (u ^^^ w) = v ^^^ w ^^^ (u ^^^ u) := by ac_rfl
  rw [this, BitVec.xor_self, BitVec.xor_zero]

theorem padBV_toList (x : Block) : padBV x.toList = toBV x := by
  rw [padBV]
  congr 1
  apply Vector.ext
  intro i hi
  simp [List.getD_eq_getElem?_getD]

/-- All byte strings of length `k`. -/
def everyBytes : Nat → List (List Byte)
  | 0 => [[]]
  | k + 1 => (List.finRange 256).flatMap fun b => (everyBytes k).map fun l => BitVec.ofFin b :: l

theorem everyBytes_length (k : Nat) : (everyBytes k).length = 256 ^ k := by
  induction k with
  | zero => rfl
  | succ k ih =>
    rw [everyBytes, List.length_flatMap]
    simp only [List.length_map, ih, List.map_const', List.sum_replicate_nat, List.length_finRange]
    rw [Nat.pow_succ, Nat.mul_comm]

theorem mem_everyBytes (l : List Byte) : l ∈ everyBytes l.length := by
  induction l with
  | nil => exact List.mem_singleton.mpr rfl
  | cons b l ih =>
    rw [List.length_cons, everyBytes, List.mem_flatMap]
    refine ⟨b.toFin, List.mem_finRange _, ?_⟩
    rw [List.mem_map]
    exact ⟨l, ih, rfl⟩

/-- The hash keys for which two tags begin with `t` and `t'`. -/
noncomputable def tagRoots (a c a' c' t t' : List Byte) (n : Nat) : List Block :=
  (everyBytes (16 - n)).flatMap fun d =>
    (hashRoots a c a' c' (padBV (List.zipWith (fun x y => x ^^^ y) t t' ++ d))).map ofBV

theorem tagRoots_length (a c a' c' t t' : List Byte) (n : Nat) :
    (tagRoots a c a' c' t t' n).length ≤ max (gcmBlockCount a c) (gcmBlockCount a' c') * 256 ^ (16 - n) := by
  rw [tagRoots, List.length_flatMap, ← everyBytes_length, Nat.mul_comm]
  generalize everyBytes (16 - n) = l
  induction l with
  | nil => simp
  | cons d l ih =>
    rw [List.map_cons, List.sum_cons, List.length_cons, Nat.succ_mul, Nat.add_comm]
    refine Nat.add_le_add ih ?_
    rw [List.length_map]
    exact hashRoots_length _ _ _ _ _

theorem xor_toList (x y : Block) : (x ^^^ y).toList = List.zipWith (fun x y => x ^^^ y) x.toList y.toList := by
  apply List.ext_getElem
  · simp
  · intro i h1 h2
    simp only [Vector.getElem_toList, List.getElem_zipWith]
    exact Vector.getElem_zipWith _

/-- C90: two different messages with their tags of `n` bytes under one IV leave few hash keys: they are in a list that depends on
the messages and tags only, of length at most the number of blocks of the longer message times `256^(16-n)`. -/
theorem C90_candidates (a c a' c' : List Byte) (t t' : List Byte) (n : Nat) (hn : n ≤ 16) (ha : a.length < 2 ^ 61)
    (hc : c.length < 2 ^ 31) (ha' : a'.length < 2 ^ 61) (hc' : c'.length < 2 ^ 31) (hne : ¬(a = a' ∧ c = c')) :
    ∃ S : List Block, S.length ≤ max (gcmBlockCount a c) (gcmBlockCount a' c') * 256 ^ (16 - n) ∧
      ∀ (E : Block → Block) (iv out out' p p' : List Byte) (outlen outlen' : Nat), iv.length < 2 ^ 29 →
        c.length ≤ outlen → outlen ≤ out.length → c'.length ≤ outlen' → outlen' ≤ out'.length →
        openMsg (gcmInit E) iv a c out outlen n = some (1, p, t) →
        openMsg (gcmInit E) iv a' c' out' outlen' n = some (1, p', t') → E zeroBlock ∈ S := by
  refine ⟨tagRoots a c a' c' t t' n, tagRoots_length _ _ _ _ _ _ _, ?_⟩
  intro E iv out out' p p' outlen outlen' hiv h1 h2 h3 h4 ho ho'
  rw [open_eq E iv a c out outlen n hn hiv ha hc h1 h2] at ho
  rw [open_eq E iv a' c' out' outlen' n hn hiv ha' hc' h3 h4] at ho'
  simp only [Option.some.injEq, Prod.mk.injEq, true_and] at ho ho'
  rw [tagRoots, List.mem_flatMap]
  refine ⟨(gcmTag E iv a c ^^^ gcmTag E iv a' c').toList.drop n, ?_, ?_⟩
  · have := mem_everyBytes ((gcmTag E iv a c ^^^ gcmTag E iv a' c').toList.drop n)
    rwa [List.length_drop, Vector.length_toList] at this
  · rw [List.mem_map]
    refine ⟨toBV (E zeroBlock), ?_, ofBV_toBV _⟩
    rw [mem_hashRoots a c a' c' _ ha (by omega) ha' (by omega) hne, ← tag_diff, ← toBV_xor, ← padBV_toList, ← ho.2, ← ho'.2,
      ← List.take_zipWith, ← xor_toList, List.take_append_drop]

/-- C90: one tag alone rules out no hash key: whatever the other values of the cipher, each hash key goes with exactly one value
of the cipher at the first counter block. -/
theorem C90_one_tag_free (E : Block → Block) (H : Block) (iv a c out : List Byte) (outlen : Nat) (t : Block) (hiv : iv.length = 12)
    (ha : a.length < 2 ^ 61) (hc : c.length < 2 ^ 31) (ho : c.length ≤ outlen) (hb : outlen ≤ out.length) :
    ∃! e : Block, ∃ p, openMsg (gcmInit fun x => if x = zeroBlock then H else if x = ofBV (padBV (iv ++ [0, 0, 0, 1])) then e else E x)
      iv a c out outlen 16 = some (1, p, t.toList) := by
  have hj : ∀ F : Block → Block, j0 F iv = padBV (iv ++ [0, 0, 0, 1]) := fun F => by rw [j0, if_pos hiv]
  have hz : ofBV (padBV (iv ++ [0, 0, 0, 1])) ≠ zeroBlock := by
    intro h
    have h1 := congrArg (fun v : Block => v[15]) h
    rw [padBV, ofBV_toBV] at h1
    simp only [Vector.getElem_ofFn] at h1
    rw [List.getD_eq_getElem?_getD, List.getElem?_append_right (by omega), hiv] at h1
    exact absurd h1 (show ¬(1 : Byte) = 0 by decide)
  have key : ∀ e : Block, (∃ p, openMsg (gcmInit fun x => if x = zeroBlock then H else
      if x = ofBV (padBV (iv ++ [0, 0, 0, 1])) then e else E x) iv a c out outlen 16 = some (1, p, t.toList)) ↔
      e ^^^ ofBV (ghash (toBV H) (gcmBlocks a c)) = t := by
    intro e
    rw [open_eq _ iv a c out outlen 16 (by omega) (by omega) ha hc ho hb]
    have htag : gcmTag (fun x => if x = zeroBlock then H else if x = ofBV (padBV (iv ++ [0, 0, 0, 1])) then e else E x) iv a c =
        e ^^^ ofBV (ghash (toBV H) (gcmBlocks a c)) := by
      rw [gcmTag, hj, if_neg hz, if_pos rfl, hashKey, if_pos rfl]
      rfl
    rw [htag, List.take_of_length_le (by simp)]
    constructor
    · rintro ⟨p, h⟩
      simp only [Option.some.injEq, Prod.mk.injEq, true_and] at h
      exact Vector.toList_inj.mp h.2
    · intro h
      exact ⟨_, by rw [h]⟩
  have hx : ∀ x y : Block, x ^^^ y ^^^ y = x := by
    intro x y
    apply toBV_injective
    rw [toBV_xor, toBV_xor, BitVec.xor_assoc, BitVec.xor_self, BitVec.xor_zero]
  refine ⟨t ^^^ ofBV (ghash (toBV H) (gcmBlocks a c)), (key _).mpr (hx _ _), ?_⟩
  intro e he
  rw [← (key e).mp he, hx]

/-- Tag of another message under the same IV, from the hash key and one tag. -/
def forgeTag (H : Block) (a c : List Byte) (t : Block) (a' c' : List Byte) : Block :=
  t ^^^ ofBV (ghash (toBV H) (gcmBlocks a c)) ^^^ ofBV (ghash (toBV H) (gcmBlocks a' c'))

/-- C90: whoever knows the hash key and one tag can compute the tag of every other message under that IV. -/
theorem C90_forge (E : Block → Block) (iv a c a' c' out out' p : List Byte) (outlen outlen' : Nat) (t : Block)
    (hiv : iv.length < 2 ^ 29) (ha : a.length < 2 ^ 61) (hc : c.length < 2 ^ 31) (ha' : a'.length < 2 ^ 61) (hc' : c'.length < 2 ^ 31)
    (h1 : c.length ≤ outlen) (h2 : outlen ≤ out.length) (h3 : c'.length ≤ outlen') (h4 : outlen' ≤ out'.length)
    (ho : openMsg (gcmInit E) iv a c out outlen 16 = some (1, p, t.toList)) :
    ∃ p', openMsg (gcmInit E) iv a' c' out' outlen' 16 = some (1, p', (forgeTag (E zeroBlock) a c t a' c').toList) := by
  rw [open_eq E iv a c out outlen 16 (by omega) hiv ha hc h1 h2, List.take_of_length_le (by simp)] at ho
  simp only [Option.some.injEq, Prod.mk.injEq, true_and] at ho
  have ht := Vector.toList_inj.mp ho.2
  rw [open_eq E iv a' c' out' outlen' 16 (by omega) hiv ha' hc' h3 h4, List.take_of_length_le (by simp)]
  have : gcmTag E iv a' c' = forgeTag (E zeroBlock) a c t a' c' := by
    apply toBV_injective
    rw [forgeTag, toBV_xor, toBV_xor, toBV_ofBV, toBV_ofBV, ← ht]
    have h := tag_diff E iv a c a' c'
    rw [BitVec.xor_assoc, ← h, ← BitVec.xor_assoc, BitVec.xor_self, BitVec.zero_xor]
  exact ⟨_, by rw [this]⟩

/-- C90: under one IV the ciphertexts differ exactly where the plaintexts do. -/
theorem C90_keystream (E : Block → Block) (iv a a' p p' out out' o o' t t' : List Byte) (outlen outlen' : Nat)
    (hiv : iv.length < 2 ^ 29) (ha : a.length < 2 ^ 61) (hp : p.length < 2 ^ 31) (ha' : a'.length < 2 ^ 61) (hp' : p'.length < 2 ^ 31)
    (h1 : p.length ≤ outlen) (h2 : outlen ≤ out.length) (h3 : p'.length ≤ outlen') (h4 : outlen' ≤ out'.length)
    (ho : sealMsg (gcmInit E) iv a p out outlen 16 = some (1, o, t))
    (ho' : sealMsg (gcmInit E) iv a' p' out' outlen' 16 = some (1, o', t')) (k : Nat) (hk : k < p.length) (hk' : k < p'.length) :
    o.getD k 0 ^^^ o'.getD k 0 = p.getD k 0 ^^^ p'.getD k 0 := by
  rw [C12_gcm_nist E iv a p out outlen hiv ha hp h1 h2] at ho
  rw [C12_gcm_nist E iv a' p' out' outlen' hiv ha' hp' h3 h4] at ho'
  simp only [Option.some.injEq, Prod.mk.injEq, true_and] at ho ho'
  have key : ∀ q r : List Byte, k < q.length → (gcmCipher E iv q ++ r).getD k 0 =
      (E (ofBV (incN (k / 16 + 1) (j0 E iv)))).toList.getD (k % 16) 0 ^^^ q.getD k 0 := by
    intro q r hq
    rw [List.getD_eq_getElem?_getD, List.getElem?_append_left (by rwa [length_gcmCipher])]
    have h := gctr_getElem? E q (ofBV (j0 E iv)) k hq
    rw [toBV_ofBV] at h
    rw [gcmCipher, h, Option.getD_some]
  rw [← ho.1, ← ho'.1, key _ _ hk, key _ _ hk']
  generalize (E _).toList.getD (k % 16) 0 = u
  generalize p.getD k 0 = v
  generalize p'.getD k 0 = w
  have : u ^^^ v ^^^ (u ^^^ w) = v ^^^ w ^^^ (u ^^^ u) := by ac_rfl
  rw [this, BitVec.xor_self, BitVec.xor_zero]

/-! ### C43: the tags of the mode with masks for all AAD -/

theorem hash_onto (H : BitVec 128) (hH : H ≠ 0#128) (y : BitVec 128) :
    ∃ a : List Byte, a.length = 16 ∧ ghash H (gcmBlocks a []) = y := by
  obtain ⟨b, hb⟩ := Gf.exists_inv ⟨H⟩ (fun h => hH (congrArg Gf.val h))
  have hinv : gfMul b.val H = gfOne := by
    have := congrArg Gf.val hb
    rw [Gf.val_mul, Gf.val_one, gfMul_comm] at this
    exact this
  have hcancel : ∀ z : BitVec 128, gfMul (gfMul z b.val) H = z := by
    intro z
    rw [gfMul_assoc, hinv, gfMul_one]
  let L : BitVec 128 := BitVec.ofNat 64 (8 * 16) ++ BitVec.ofNat 64 (8 * 0)
  let A : Block := ofBV (gfMul (gfMul y b.val ^^^ L) b.val)
  refine ⟨A.toList, by simp, ?_⟩
  have hne : A.toList ≠ [] := by
    intro h
    have := congrArg List.length h
    simp at this
  have hchunk : chunks A.toList = [A.toList] := by
    rw [chunks_of_ne_nil hne, List.take_of_length_le (by simp), List.drop_eq_nil_of_le (by simp), chunks_nil]
  have hl : lenBlock A.toList [] = L := by
    rw [lenBlock, Vector.length_toList, List.length_nil]
  rw [gcmBlocks, hchunk, hl]
  show gfMul (gfMul (0 ^^^ padBV A.toList) H ^^^ L) H = y
  rw [show (0 : BitVec 128) = 0#128 from rfl, BitVec.zero_xor, padBV_toList, toBV_ofBV, hcancel, BitVec.xor_assoc, BitVec.xor_self,
    BitVec.xor_zero, hcancel]

theorem maskL_xor (r : WbMaskRnd) (i : Fin 16) (x y : Byte) : maskL r i (x ^^^ y) = maskL r i x ^^^ maskL r i y := matMulNum_xor _ _ _

/-- C43: sender and receiver of the mode with masks agree on the tags of all messages that consist of one block of AAD exactly when
each of the 16 secret matrices is its own inverse and leaves its byte of `E(J0)` as it is (for keys with `E(0) ≠ 0`). -/
theorem C43_mask_tags_always (re rd : WbaesRnd) (roe rod : Fin 16 → Fin 2 → Nat → BitVec 32) (r : WbMaskRnd) (key : Block)
    (iv : List Byte) (hiv : iv.length < 2 ^ 29) (hH : aes128 key zeroBlock ≠ zeroBlock) :
    (∀ aad : List Byte, aad.length = 16 →
      (wbSeal (wbMaskInit (wbMaskGenTable re rd roe rod r key).1) iv aad [] [] 0 16).map (·.2.2) =
        (wbOpen (wbMaskInit (wbMaskGenTable re rd roe rod r key).2) iv aad [] [] 0 16).map (·.2.2)) ↔
    ∀ i : Fin 16, (∀ x, maskL r i (maskL r i x) = x) ∧
      maskL r i (aes128 key (ofBV (j0 (aes128 key) iv)))[i] = (aes128 key (ofBV (j0 (aes128 key) iv)))[i] := by
  have hH' : hashKey (aes128 key) ≠ 0#128 := by
    intro h
    apply hH
    apply toBV_injective
    rw [toBV_zero]
    exact h
  have hiff : ∀ aad : List Byte, aad.length = 16 →
      ((wbSeal (wbMaskInit (wbMaskGenTable re rd roe rod r key).1) iv aad [] [] 0 16).map (·.2.2) =
        (wbOpen (wbMaskInit (wbMaskGenTable re rd roe rod r key).2) iv aad [] [] 0 16).map (·.2.2) ↔
      ∀ i : Fin 16, maskL r i ((ofBV (ghash (hashKey (aes128 key)) (gcmBlocks aad [])))[i] ^^^
          (aes128 key (ofBV (j0 (aes128 key) iv)))[i]) =
        maskLinv r i (ofBV (ghash (hashKey (aes128 key)) (gcmBlocks aad [])))[i] ^^^ (aes128 key (ofBV (j0 (aes128 key) iv)))[i]) := by
    intro aad hl
    exact C43_mask_tags_agree_iff re rd roe rod r key iv aad [] [] [] 0 0 hiv (by omega) (by decide) (by decide) (by decide)
      (by decide) (by decide) (by rintro ⟨-, rfl⟩; simp at hl)
  generalize aes128 key (ofBV (j0 (aes128 key) iv)) = e at hiff ⊢
  have hzero : ∀ i, maskLinv r i 0#8 = 0#8 := fun i => matMulNum_zero _
  constructor
  · intro h
    have all : ∀ (y : Block) (i : Fin 16), maskL r i (y[i] ^^^ e[i]) = maskLinv r i y[i] ^^^ e[i] := by
      intro y i
      obtain ⟨a, ha, hy⟩ := hash_onto _ hH' (toBV y)
      have := (hiff a ha).mp (h a ha) i
      rwa [hy, ofBV_toBV] at this
    intro i
    have h1 : maskL r i e[i] = e[i] := by
      have := all zeroBlock i
      rw [show zeroBlock[i] = 0#8 by simp [zeroBlock]] at this
      rw [BitVec.zero_xor, hzero, BitVec.zero_xor] at this
      exact this
    refine ⟨?_, h1⟩
    intro x
    have h2 := all (Vector.replicate 16 x) i
    rw [show (Vector.replicate 16 x)[i] = x by simp, maskL_xor, h1] at h2
    have h3 : maskL r i x = maskLinv r i x := by
      have := congrArg (fun v => v ^^^ e[i]) h2
      simpa [BitVec.xor_assoc] using this
    rw [h3, maskL_inv']
  · intro h aad hl
    rw [hiff aad hl]
    intro i
    obtain ⟨h1, h2⟩ := h i
    generalize (ofBV (ghash (hashKey (aes128 key)) (gcmBlocks aad [])))[i] = y
    rw [maskL_xor, h2]
    congr 1
    have := congrArg (maskLinv r i) (h1 y)
    rwa [maskL_inv] at this

/- Two different messages of 33 bytes and no AAD: four blocks with the lengths, so full tags leave at most 4 hash keys,
12-byte tags at most 2^34. -/
example : ¬(([] : List Byte) = [] ∧ List.replicate 33 (7 : Byte) = List.replicate 33 8) ∧
    gcmBlockCount [] (List.replicate 33 7) = 4 ∧
    max (gcmBlockCount [] (List.replicate 33 7)) (gcmBlockCount [] (List.replicate 33 8)) * 256 ^ (16 - 16) = 4 ∧
    max (gcmBlockCount [] (List.replicate 33 7)) (gcmBlockCount [] (List.replicate 33 8)) * 256 ^ (16 - 12) = 2 ^ 34 := by
  decide +kernel

/- Hypotheses of C90_one_tag_free, C90_forge and C90_keystream: any message and a buffer of its length. -/
example (E : Block → Block) : ∃ p t, openMsg (gcmInit E) (List.replicate 12 1) [] (List.replicate 33 7) (List.replicate 33 0) 33 16 =
    some (1, p, t) :=
  ⟨_, _, open_eq E _ _ _ _ 33 16 (by simp) (by simp) (by simp) (by simp) (by simp) (by simp)⟩

/- A key with `E(0) ≠ 0`, as C43_mask_tags_always asks for. -/
example : aes128 zeroBlock zeroBlock ≠ zeroBlock := by
  rw [← aesEval_eq]
  decide +kernel

end Verif.Props
