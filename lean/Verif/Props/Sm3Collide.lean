import Verif.Props.Sm3Reuse
import Mathlib.Data.Fintype.Card
import Mathlib.Data.Fintype.BigOperators
import Mathlib.Data.Fintype.Vector

/-! Property C144: where collisions of SM3 digests come from and what follows from one. -/
set_option autoImplicit false

namespace Verif.Props
open Verif Verif.Model Verif.Spec

/-- The chaining value after whole blocks. -/
def chain (u : List Byte) : Oct := (split64 u).foldl sm3CF sm3IV

theorem chain_snoc (u b : List Byte) (n : Nat) (hu : u.length = 64 * n) (hb : b.length = 64) :
    chain (u ++ b) = sm3CF (chain u) b := by
  rw [chain, split64_append b n u hu, split64_one b hb, List.foldl_append]; rfl

/-- Two different inputs of the compression function with the same result: `b` after `u`, `b'` after `u'`. -/
structure CfCollision (u b u' b' : List Byte) : Prop where
  blk : b.length = 64 ∧ b'.length = 64
  whole : 64 ∣ u.length ∧ 64 ∣ u'.length
  differ : (chain u, b) ≠ (chain u', b')
  same : sm3CF (chain u) b = sm3CF (chain u') b'

theorem walk_back (n : Nat) : ∀ a a' : List Byte, a.length = 64 * n → a'.length = 64 * n → chain a = chain a' → a ≠ a' →
    ∃ u b u' b', u ++ b <+: a ∧ u' ++ b' <+: a' ∧ CfCollision u b u' b' := by
  induction n with
  | zero =>
    intro a a' h h' _ hne
    exact absurd ((List.length_eq_zero_iff.1 (by omega : a.length = 0)).trans
      (List.length_eq_zero_iff.1 (by omega : a'.length = 0)).symm) hne
  | succ n ih =>
    intro a a' h h' hc hne
    have la : (a.take (64 * n)).length = 64 * n := by simp; omega
    have la' : (a'.take (64 * n)).length = 64 * n := by simp; omega
    have lb : (a.drop (64 * n)).length = 64 := by simp; omega
    have lb' : (a'.drop (64 * n)).length = 64 := by simp; omega
    have e := chain_snoc _ _ n la lb
    have e' := chain_snoc _ _ n la' lb'
    rw [List.take_append_drop] at e e'
    by_cases hd : (chain (a.take (64 * n)), a.drop (64 * n)) = (chain (a'.take (64 * n)), a'.drop (64 * n))
    · have h1 := congrArg Prod.fst hd
      have h2 := congrArg Prod.snd hd
      simp only at h1 h2
      have h3 : a.take (64 * n) ≠ a'.take (64 * n) := by
        intro h4
        apply hne
        rw [← List.take_append_drop (64 * n) a, ← List.take_append_drop (64 * n) a', h2, h4]
      obtain ⟨u, b, u', b', p, p', c⟩ := ih _ _ la la' h1 h3
      exact ⟨u, b, u', b', p.trans (List.take_prefix _ _), p'.trans (List.take_prefix _ _), c⟩
    · refine ⟨_, _, _, _, by rw [List.take_append_drop], by rw [List.take_append_drop],
        ⟨⟨lb, lb'⟩, ⟨⟨n, la⟩, ⟨n, la'⟩⟩, hd, ?_⟩⟩
      rw [← e, ← e', hc]

/-- The length field. -/
def lengthField (l : BitVec 64) : List Byte := (List.range 8).map fun i => (l >>> (56 - 8 * i)).truncate 8

theorem lengthField_inj (l l' : BitVec 64) (h : lengthField l = lengthField l') : l = l' := by
  ext i hi
  have hj : 7 - i / 8 < 8 := by omega
  have := congrArg (fun x : List Byte => (x.getD (7 - i / 8) 0).getLsbD (i % 8)) h
  simp only [lengthField, List.getD_eq_getElem?_getD, List.getElem?_map, List.getElem?_range hj, Option.map_some,
    Option.getD_some, BitVec.truncate_eq_setWidth, BitVec.getLsbD_setWidth, BitVec.getLsbD_ushiftRight] at this
  have e : 56 - 8 * (7 - i / 8) + i % 8 = i := by omega
  rw [e] at this
  simpa [Nat.mod_lt i (by decide : 0 < 8), BitVec.getLsbD_eq_getElem hi] using this

theorem pad_field (m : List Byte) : ∃ r, sm3Pad m = r ++ lengthField (BitVec.ofNat 64 (8 * m.length)) :=
  ⟨_, rfl⟩

theorem hash_chain (m : List Byte) : sm3Hash m = (chain (sm3Pad m)).bytes := C28_sm3_standard m

theorem oct_bytes_inj (v v' : Oct) (h : v.bytes = v'.bytes) : v = v' := by
  have h1 := resume_st v 0
  rw [h, resume_st, (phys_cases 0 v).1 (by decide), (phys_cases 0 v').1 (by decide)] at h1
  have h2 := congrArg Vector.toList h1
  simp only [Vector.toList_mk, List.cons.injEq, and_true] at h2
  cases v; cases v'
  simp_all

/-- C144: two different messages, given in whatever pieces, whose digests are the same contain two different inputs of the
compression function with the same result. -/
theorem C144_collision (ps qs : List (List Byte)) (hp : ps.flatten.length < 2 ^ 61) (hq : qs.flatten.length < 2 ^ 61)
    (hne : ps.flatten ≠ qs.flatten)
    (h : sm3Final (ps.foldl sm3Update sm3Init) = sm3Final (qs.foldl sm3Update sm3Init)) :
    ∃ u b u' b', u ++ b <+: sm3Pad ps.flatten ∧ u' ++ b' <+: sm3Pad qs.flatten ∧ CfCollision u b u' b' := by
  rw [C27_sm3_streaming, C27_sm3_streaming, hash_chain, hash_chain] at h
  generalize ps.flatten = m at *
  generalize qs.flatten = m' at *
  have hc := oct_bytes_inj _ _ h
  by_cases hl : m.length = m'.length
  · obtain ⟨n, hn⟩ := length_padWith (BitVec.ofNat 64 (8 * m.length)) m
    refine walk_back n _ _ hn ?_ hc ?_
    · rw [← hn, pad_glue, ← sm3Pad, pad_glue, List.length_append, List.length_append, hl]
    · intro h1
      rw [pad_glue, pad_glue] at h1
      exact hne (List.append_inj h1 hl).1
  · obtain ⟨n, hn⟩ := length_padWith (BitVec.ofNat 64 (8 * m.length)) m
    obtain ⟨n', hn'⟩ := length_padWith (BitVec.ofNat 64 (8 * m'.length)) m'
    change (sm3Pad m).length = 64 * n at hn
    change (sm3Pad m').length = 64 * n' at hn'
    obtain ⟨r, hr⟩ := pad_field m
    obtain ⟨r', hr'⟩ := pad_field m'
    have lf : ∀ l, (lengthField l).length = 8 := fun l => by simp [lengthField]
    have lr : r.length + 8 = 64 * n := by rw [← hn, hr, List.length_append, lf]
    have lr' : r'.length + 8 = 64 * n' := by rw [← hn', hr', List.length_append, lf]
    obtain ⟨k, rfl⟩ : ∃ k, n = k + 1 := ⟨n - 1, by omega⟩
    obtain ⟨k', rfl⟩ : ∃ k', n' = k' + 1 := ⟨n' - 1, by omega⟩
    have la : ((sm3Pad m).take (64 * k)).length = 64 * k := by simp; omega
    have la' : ((sm3Pad m').take (64 * k')).length = 64 * k' := by simp; omega
    have lb : ((sm3Pad m).drop (64 * k)).length = 64 := by simp; omega
    have lb' : ((sm3Pad m').drop (64 * k')).length = 64 := by simp; omega
    have e := chain_snoc _ _ k la lb
    have e' := chain_snoc _ _ k' la' lb'
    rw [List.take_append_drop] at e e'
    refine ⟨_, _, _, _, by rw [List.take_append_drop], by rw [List.take_append_drop],
      ⟨⟨lb, lb'⟩, ⟨⟨k, la⟩, ⟨k', la'⟩⟩, ?_, by rw [← e, ← e', hc]⟩⟩
    intro h1
    have h2 := congrArg (fun x => List.drop 56 (Prod.snd x)) h1
    simp only [List.drop_drop] at h2
    rw [hr, hr', List.drop_append_of_le_length (by omega), List.drop_append_of_le_length (by omega),
      List.drop_of_length_le (by omega), List.drop_of_length_le (by omega), List.nil_append, List.nil_append] at h2
    have h3 := congrArg BitVec.toNat (lengthField_inj _ _ h2)
    rw [BitVec.toNat_ofNat, BitVec.toNat_ofNat, Nat.mod_eq_of_lt (by omega), Nat.mod_eq_of_lt (by omega)] at h3
    omega

/-- C144: a collision of messages of equal length stays one when both are padded and the same text is appended. -/
theorem C144_suffix (m m' x : List Byte) (hl : m.length = m'.length) (h : sm3Hash m = sm3Hash m') :
    sm3Hash (sm3Pad m ++ x) = sm3Hash (sm3Pad m' ++ x) := by
  rw [← C103_extend, ← C103_extend, h, pad_glue, pad_glue, List.length_append, List.length_append, hl]

theorem hash_after (a x : List Byte) (n : Nat) (ha : a.length = 64 * n) :
    sm3Hash (a ++ x) = ((split64 (x ++ sm3Glue (64 * n + x.length))).foldl sm3CF (chain a)).bytes := by
  rw [hash_chain, pad_glue, List.append_assoc, chain, split64_append _ n a ha, List.foldl_append, List.length_append, ha]
  rfl

theorem ofFn_byte_inj (n : Nat) (g g' : Fin n → Fin 256)
    (h : (List.ofFn fun i => (BitVec.ofFin (g i) : Byte)) = List.ofFn fun i => (BitVec.ofFin (g' i) : Byte)) : g = g' := by
  funext i
  have := congrArg (fun l : List Byte => l[i.1]?) h
  simpa [List.getElem?_ofFn] using this

def Oct.nums (o : Oct) : Fin (2 ^ 32) × Fin (2 ^ 32) × Fin (2 ^ 32) × Fin (2 ^ 32) × Fin (2 ^ 32) × Fin (2 ^ 32) × Fin (2 ^ 32) ×
    Fin (2 ^ 32) :=
  (o.a.toFin, o.b.toFin, o.c.toFin, o.d.toFin, o.e.toFin, o.f.toFin, o.g.toFin, o.h.toFin)

theorem oct_nums_inj (o o' : Oct) (h : Oct.nums o = Oct.nums o') : o = o' := by
  have inj : ∀ x y : BitVec 32, x.toFin = y.toFin → x = y := fun x y e => by cases x; cases y; cases e; rfl
  cases o; cases o'
  simp only [Oct.nums, Prod.mk.injEq] at h
  obtain ⟨h1, h2, h3, h4, h5, h6, h7, h8⟩ := h
  rw [inj _ _ h1, inj _ _ h2, inj _ _ h3, inj _ _ h4, inj _ _ h5, inj _ _ h6, inj _ _ h7, inj _ _ h8]

/-- C144: for every chaining value there are two blocks the compression function does not tell apart. -/
theorem C144_exists (v : Oct) : ∃ b b' : List Byte, b.length = 64 ∧ b'.length = 64 ∧ b ≠ b' ∧ sm3CF v b = sm3CF v b' := by
  by_contra hcon
  push Not at hcon
  have hf : Function.Injective fun g : Fin 64 → Fin 256 => Oct.nums (sm3CF v (List.ofFn fun i => BitVec.ofFin (g i))) := by
    intro g g' h
    by_contra hne
    exact hcon _ _ List.length_ofFn List.length_ofFn (fun h1 => hne (ofFn_byte_inj 64 g g' h1)) (oct_nums_inj _ _ h)
  have := Fintype.card_le_of_injective _ hf
  simp only [Fintype.card_fun, Fintype.card_prod, Fintype.card_fin] at this
  exact absurd this (by decide +kernel)

/-- One of two blocks for every bit. -/
def picked (ps : List (List Byte × List Byte)) (c : List Bool) : List Byte :=
  (List.zipWith (fun p b => if b then p.1 else p.2) ps c).flatten

/-- What finds two blocks for a chaining value that the compression function does not tell apart. -/
def Finder (find : Oct → List Byte × List Byte) : Prop :=
  ∀ v, (find v).1.length = 64 ∧ (find v).2.length = 64 ∧ (find v).1 ≠ (find v).2 ∧ sm3CF v (find v).1 = sm3CF v (find v).2

example : ∃ find, Finder find := by
  choose f g h using C144_exists
  exact ⟨fun v => (f v, g v), h⟩

def stops (find : Oct → List Byte × List Byte) : Nat → Oct → List Oct
  | 0, _ => []
  | n + 1, v => v :: stops find n (sm3CF v (find v).1)

theorem length_stops (find : Oct → List Byte × List Byte) (t : Nat) : ∀ v, (stops find t v).length = t := by
  induction t with
  | zero => intro v; rfl
  | succ t ih => intro v; simp [stops, ih]

theorem picked_spec (find : Oct → List Byte × List Byte) (hf : Finder find) (t : Nat) : ∀ v, ∃ w, ∀ c : List Bool, c.length = t →
    (picked ((stops find t v).map find) c).length = 64 * t ∧
    (split64 (picked ((stops find t v).map find) c)).foldl sm3CF v = w ∧
    ∀ c' : List Bool, c'.length = t → picked ((stops find t v).map find) c = picked ((stops find t v).map find) c' → c = c' := by
  induction t with
  | zero =>
    intro v
    refine ⟨v, fun c hc => ⟨by simp [stops, picked], by simp [stops, picked, split64, splitAux], fun c' hc' _ => ?_⟩⟩
    rw [List.length_eq_zero_iff.1 hc, List.length_eq_zero_iff.1 hc']
  | succ t ih =>
    intro v
    obtain ⟨w, hw⟩ := ih (sm3CF v (find v).1)
    refine ⟨w, fun c hc => ?_⟩
    obtain ⟨f1, f2, f3, f4⟩ := hf v
    have hp : ∀ (b : Bool) (d : List Bool), picked ((stops find (t + 1) v).map find) (b :: d) =
        (if b then (find v).1 else (find v).2) ++ picked ((stops find t (sm3CF v (find v).1)).map find) d := by
      intro b d; simp [stops, picked]
    have hl : ∀ b : Bool, (if b then (find v).1 else (find v).2).length = 64 := by intro b; cases b <;> simp [f1, f2]
    have hcf : ∀ b : Bool, sm3CF v (if b then (find v).1 else (find v).2) = sm3CF v (find v).1 := by intro b; cases b <;> simp [f4]
    cases c with
    | nil => simp at hc
    | cons b d =>
      obtain ⟨g1, g2, g3⟩ := hw d (by simpa using hc)
      refine ⟨?_, ?_, ?_⟩
      · rw [hp, List.length_append, hl, g1]; omega
      · rw [hp, split64_append _ 1 _ (by rw [hl]), split64_one _ (hl b), List.foldl_append, List.foldl_cons, List.foldl_nil, hcf, g2]
      · intro c' hc' he
        cases c' with
        | nil => simp at hc'
        | cons b' d' =>
          rw [hp, hp] at he
          obtain ⟨e1, e2⟩ := List.append_inj he (by rw [hl, hl])
          rw [g3 d' (by simpa using hc') e2]
          cases b <;> cases b' <;> simp_all

/-- C144: with `t` collisions of the compression function come `2 ^ t` messages that have the same digest, whatever follows them. -/
theorem C144_multi (find : Oct → List Byte × List Byte) (hf : Finder find) (t : Nat) :
    ∃ vs : List Oct, vs.length = t ∧ ∀ c c' : List Bool, c.length = t → c'.length = t →
      (picked (vs.map find) c).length = 64 * t ∧
      (picked (vs.map find) c = picked (vs.map find) c' → c = c') ∧
      ∀ x, sm3Hash (picked (vs.map find) c ++ x) = sm3Hash (picked (vs.map find) c' ++ x) := by
  obtain ⟨w, hw⟩ := picked_spec find hf t sm3IV
  refine ⟨_, length_stops find t sm3IV, fun c c' hc hc' => ?_⟩
  obtain ⟨h1, h2, h3⟩ := hw c hc
  obtain ⟨h1', h2', _⟩ := hw c' hc'
  refine ⟨h1, h3 c' hc', fun x => ?_⟩
  rw [hash_after _ x t h1, hash_after _ x t h1', chain, chain, h2, h2']

/-- There are two such messages, of one block: the hypotheses of `C144_collision` and `C144_suffix` can be met. -/
example : ∃ m m' : List Byte, m ≠ m' ∧ m.length = 64 ∧ m'.length = 64 ∧ sm3Hash m = sm3Hash m' ∧
    sm3Final ([m].foldl sm3Update sm3Init) = sm3Final ([m'].foldl sm3Update sm3Init) := by
  choose f g h using C144_exists
  obtain ⟨vs, _, hv⟩ := C144_multi (fun v => (f v, g v)) h 1
  obtain ⟨a1, a2, a3⟩ := hv [true] [false] rfl rfl
  have a4 := a3 []
  rw [List.append_nil, List.append_nil] at a4
  exact ⟨_, _, fun e => absurd (a2 e) (by decide), a1, (hv [false] [true] rfl rfl).1, a4, a4⟩

/-- C144, limit: a multiple of 2 ^ 61 bytes in front of a message is hashed but does not show in its padding: the digest is what the padded message
gives from the chaining value it leaves instead of the initial one. -/
theorem C144_limit (x m : List Byte) (k : Nat) (hx : x.length = 2 ^ 61 * k) :
    sm3Pad (x ++ m) = x ++ sm3Pad m ∧
    sm3Hash (x ++ m) = ((split64 (sm3Pad m)).foldl sm3CF (chain x)).bytes := by
  have hg : sm3Glue (2 ^ 61 * k + m.length) = sm3Glue m.length := by
    have h1 : (2 ^ 61 * k + m.length) % 64 = m.length % 64 := by omega
    have h2 : BitVec.ofNat 64 (8 * (2 ^ 61 * k + m.length)) = BitVec.ofNat 64 (8 * m.length) := by
      apply BitVec.eq_of_toNat_eq
      rw [BitVec.toNat_ofNat, BitVec.toNat_ofNat]; omega
    rw [sm3Glue, sm3Glue, h1, h2]
  have hp : sm3Pad (x ++ m) = x ++ sm3Pad m := by
    rw [pad_glue, pad_glue, List.length_append, hx, hg, List.append_assoc]
  refine ⟨hp, ?_⟩
  rw [hash_chain, hp, chain, split64_append _ (2 ^ 55 * k) x (by rw [hx]; omega), List.foldl_append]; rfl

example : ∃ x : List Byte, x.length = 2 ^ 61 * 1 := ⟨List.replicate (2 ^ 61) 0, by rw [List.length_replicate, Nat.mul_one]⟩

end Verif.Props
