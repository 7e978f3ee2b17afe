import Verif.Model.FpeMacShared
import Verif.Props.FpeMacCtx

/-! Property C134: one FPE MAC context used by several threads. -/
set_option autoImplicit false

namespace Verif.Props
open Verif Spec Model

/-- Where a piece comes from that thread `t` reads after a call with tag `T`: from this call, or from a call of another thread. -/
def PieceOf (w : Nat) (tags : Nat → List Block) (t : Nat) (T : Block) (i : Nat) (v : List Byte) : Prop :=
  v = tagPiece w T i ∨ ∃ u, u ≠ t ∧ ∃ T' ∈ tags u, v = tagPiece w T' i

theorem pieces_pos {w : Nat} (hw : w ∣ 16) : 0 < 16 / w :=
  Nat.div_pos (Nat.le_of_dvd (by decide) hw) (Nat.pos_of_dvd_of_pos hw (by decide))

theorem posn_div {k j x : Nat} (hx : x < 2 * k) : (2 * k * j + x) / (2 * k) = j := by
  rw [Nat.mul_add_div (by omega), Nat.div_eq_of_lt hx, Nat.add_zero]
theorem posn_mod {k j x : Nat} (hx : x < 2 * k) : (2 * k * j + x) % (2 * k) = x := by
  rw [Nat.mul_add_mod, Nat.mod_eq_of_lt hx]

/-! ### one step -/

theorem tagStep_idle {w : Nat} {tags : Nat → List Block} {s : TagState} {t : Nat} (h : (tags t)[s.pc t / (2 * (16 / w))]? = none) :
    tagStep w tags s t = s := by rw [tagStep, h]

theorem tagStep_write {w : Nat} {tags : Nat → List Block} {s : TagState} {t : Nat} {T : Block}
    (h : (tags t)[s.pc t / (2 * (16 / w))]? = some T) (hx : s.pc t % (2 * (16 / w)) < 16 / w) :
    tagStep w tags s t =
      { s with tag := fun i => if i = s.pc t % (2 * (16 / w)) then tagPiece w T (s.pc t % (2 * (16 / w))) else s.tag i
               pc := fun u => if u = t then s.pc t + 1 else s.pc u } := by
  rw [tagStep, h]
  simp only
  rw [if_pos hx]

theorem tagStep_read {w : Nat} {tags : Nat → List Block} {s : TagState} {t : Nat} {T : Block}
    (h : (tags t)[s.pc t / (2 * (16 / w))]? = some T) (hx : ¬ s.pc t % (2 * (16 / w)) < 16 / w) :
    tagStep w tags s t =
      { s with pc := fun u => if u = t then s.pc t + 1 else s.pc u
               got := fun u q => if u = t ∧ q = s.pc t then some (s.tag (s.pc t % (2 * (16 / w)) - 16 / w)) else s.got u q } := by
  rw [tagStep, h]
  simp only
  rw [if_neg hx]

/-! ### what a thread can read -/

/-- A piece that a thread has written holds what it wrote last, or a piece of another thread. -/
def TagInv (w : Nat) (tags : Nat → List Block) (s : TagState) : Prop :=
  ∀ t j T i, i < 16 / w → (tags t)[j]? = some T → 2 * (16 / w) * j + i < s.pc t → s.pc t ≤ 2 * (16 / w) * (j + 1) + i →
    PieceOf w tags t T i (s.tag i)

/-- Every piece that has been read comes from the call before or from another thread. -/
def GotInv (w : Nat) (tags : Nat → List Block) (s : TagState) : Prop :=
  ∀ t q v, s.got t q = some v → ∃ T, (tags t)[q / (2 * (16 / w))]? = some T ∧
    PieceOf w tags t T (q % (2 * (16 / w)) - 16 / w) v

theorem tagStep_inv {w : Nat} (hk : 0 < 16 / w) {tags : Nat → List Block} {s : TagState} (h : TagInv w tags s ∧ GotInv w tags s)
    (t : Nat) : TagInv w tags (tagStep w tags s t) ∧ GotInv w tags (tagStep w tags s t) := by
  obtain ⟨h1, h2⟩ := h
  cases hT : (tags t)[s.pc t / (2 * (16 / w))]? with
  | none => rw [tagStep_idle hT]; exact ⟨h1, h2⟩
  | some T =>
    have hdm := Nat.div_add_mod (s.pc t) (2 * (16 / w))
    by_cases hx : s.pc t % (2 * (16 / w)) < 16 / w
    · rw [tagStep_write hT hx]
      refine ⟨?_, h2⟩
      intro t' j T' i hi hj hlo hhi
      simp only at hlo hhi ⊢
      by_cases ht : t' = t
      · subst ht
        rw [if_pos rfl] at hlo hhi
        by_cases he : i = s.pc t' % (2 * (16 / w))
        · rw [if_pos he]
          left
          rw [← he] at hdm
          have hjj : s.pc t' / (2 * (16 / w)) = j := by
            have a1 : 2 * (16 / w) * j ≤ 2 * (16 / w) * (s.pc t' / (2 * (16 / w))) := by omega
            have a2 : 2 * (16 / w) * (s.pc t' / (2 * (16 / w))) < 2 * (16 / w) * (j + 1) := by omega
            have b1 := Nat.le_of_mul_le_mul_left a1 (by omega)
            have b2 := Nat.lt_of_mul_lt_mul_left a2
            omega
          rw [hjj, hj] at hT
          rw [← he, Option.some.inj hT]
        · rw [if_neg he]
          refine h1 t' j T' i hi hj ?_ (by omega)
          rcases Nat.lt_or_ge (2 * (16 / w) * j + i) (s.pc t') with h | h
          · exact h
          · exfalso
            apply he
            have : s.pc t' = 2 * (16 / w) * j + i := by omega
            rw [this, posn_mod (by omega)]
      · rw [if_neg ht] at hlo hhi
        by_cases he : i = s.pc t % (2 * (16 / w))
        · rw [if_pos he]
          right
          exact ⟨t, fun h => ht h.symm, T, List.mem_of_getElem? hT, by rw [he]⟩
        · rw [if_neg he]
          exact h1 t' j T' i hi hj hlo hhi
    · rw [tagStep_read hT hx]
      constructor
      · intro t' j T' i hi hj hlo hhi
        simp only at hlo hhi ⊢
        by_cases ht : t' = t
        · subst ht
          rw [if_pos rfl] at hlo hhi
          refine h1 t' j T' i hi hj ?_ (by omega)
          rcases Nat.lt_or_ge (2 * (16 / w) * j + i) (s.pc t') with h | h
          · exact h
          · exfalso
            apply hx
            have : s.pc t' = 2 * (16 / w) * j + i := by omega
            rw [this, posn_mod (by omega)]
            exact hi
        · rw [if_neg ht] at hlo hhi
          exact h1 t' j T' i hi hj hlo hhi
      · intro t' q v hv
        simp only at hv
        split at hv
        · rename_i hc
          obtain ⟨rfl, rfl⟩ := hc
          refine ⟨T, hT, ?_⟩
          rw [← Option.some.inj hv]
          have hlt := Nat.mod_lt (s.pc t') (show 0 < 2 * (16 / w) by omega)
          refine h1 t' _ T _ (by omega) hT (by omega) ?_
          rw [Nat.mul_add]
          omega
        · exact h2 t' q v hv

theorem tagRun_inv {w : Nat} (hk : 0 < 16 / w) {tags : Nat → List Block} (sched : List Nat) (s : TagState)
    (h : TagInv w tags s ∧ GotInv w tags s) : TagInv w tags (tagRun w tags s sched) ∧ GotInv w tags (tagRun w tags s sched) := by
  induction sched generalizing s with
  | nil => exact h
  | cons t ts ih => exact ih _ (tagStep_inv hk h t)

theorem tagStart_inv {w : Nat} {tags : Nat → List Block} (found : Block) :
    TagInv w tags (tagStart w found) ∧ GotInv w tags (tagStart w found) := by
  refine ⟨?_, ?_⟩
  · intro t j T i _ _ h
    exact absurd h (Nat.not_lt_zero _)
  · intro t q v h
    exact nomatch h

/-- C134, what a thread reads: for every number of threads, calls, schedule and width of the copying, each piece that `finish` returns
after a call is the piece of the tag of this call, or the piece at the same place of the tag of a call of another thread; never one of
an earlier call of the same thread, and never what the context held before. -/
theorem C134_bytes (w : Nat) (hw : w ∣ 16) (found : Block) (tags : Nat → List Block) (sched : List Nat) (t j i : Nat)
    (hi : i < 16 / w) (v : List Byte) (h : tagGot w (tagRun w tags (tagStart w found) sched) t j i = some v) :
    ∃ T, (tags t)[j]? = some T ∧
      (v = (T.toList.drop (w * i)).take w ∨ ∃ u, u ≠ t ∧ ∃ T' ∈ tags u, v = (T'.toList.drop (w * i)).take w) := by
  obtain ⟨T, h1, h2⟩ := (tagRun_inv (pieces_pos hw) sched _ (tagStart_inv (tags := tags) found)).2 t _ v h
  rw [Nat.add_assoc, posn_div (by omega)] at h1
  rw [Nat.add_assoc, posn_mod (by omega), Nat.add_sub_cancel_left] at h2
  exact ⟨T, h1, h2⟩

theorem pieces_join (w : Nat) (l : List Byte) (n : Nat) :
    ((List.range n).flatMap fun i => (l.drop (w * i)).take w) = l.take (w * n) := by
  induction n with
  | zero => rw [Nat.mul_zero, List.take_zero]; rfl
  | succ n ih =>
    rw [List.range_succ, List.flatMap_append, ih, Nat.mul_succ, List.take_add]
    simp only [List.flatMap_cons, List.flatMap_nil, List.append_nil]

/-- The sixteen bytes that `finish` after call `j` of thread `t` returned, when it has returned. -/
def tagRead (w : Nat) (s : TagState) (t j : Nat) : List Byte :=
  (List.range (16 / w)).flatMap fun i => (tagGot w s t j i).getD []

theorem tagRead_of {w : Nat} (hw : w ∣ 16) {s : TagState} {t j : Nat} {T : Block}
    (h : ∀ i < 16 / w, tagGot w s t j i = some (tagPiece w T i)) : tagRead w s t j = T.toList := by
  have e : tagRead w s t j = (List.range (16 / w)).flatMap fun i => (T.toList.drop (w * i)).take w := by
    unfold tagRead
    rw [List.flatMap_def, List.flatMap_def]
    congr 1
    apply List.map_congr_left
    intro i hi
    rw [h i (List.mem_range.1 hi)]
    rfl
  rw [e, pieces_join, Nat.mul_div_cancel' hw, List.take_of_length_le (by simp)]

/-- C134, one thread: when the other threads make no calls, `finish` returns the tag of the call before it. -/
theorem C134_alone (w : Nat) (hw : w ∣ 16) (found : Block) (tags : Nat → List Block) (sched : List Nat) (t j : Nat)
    (hu : ∀ u, u ≠ t → tags u = [])
    (h : ∀ i < 16 / w, tagGot w (tagRun w tags (tagStart w found) sched) t j i ≠ none) :
    ∃ T, (tags t)[j]? = some T ∧ tagRead w (tagRun w tags (tagStart w found) sched) t j = T.toList := by
  have key : ∀ i < 16 / w, ∃ T, (tags t)[j]? = some T ∧
      tagGot w (tagRun w tags (tagStart w found) sched) t j i = some (tagPiece w T i) := by
    intro i hi
    obtain ⟨v, hv⟩ := Option.ne_none_iff_exists'.1 (h i hi)
    obtain ⟨T, h1, h2⟩ := C134_bytes w hw found tags sched t j i hi v hv
    refine ⟨T, h1, ?_⟩
    rcases h2 with h2 | ⟨u, hne, T', hT', -⟩
    · rw [hv, h2]; rfl
    · rw [hu u hne] at hT'
      exact absurd hT' List.not_mem_nil
  obtain ⟨T, hT, -⟩ := key 0 (pieces_pos hw)
  refine ⟨T, hT, tagRead_of hw fun i hi => ?_⟩
  obtain ⟨T', hT', h'⟩ := key i hi
  rw [hT] at hT'
  rw [h', Option.some.inj hT']

/-! ### two threads -/

/-- Two threads, one call each. -/
def twoTags (T0 T1 : Block) : Nat → List Block := fun u => if u = 0 then [T0] else if u = 1 then [T1] else []

/-- The threads write piece by piece; thread 1 is the second one where `m` holds. -/
def mixSched (m : Nat → Bool) : Nat → List Nat
  | 0 => []
  | n + 1 => mixSched m n ++ if m n then [0, 1] else [1, 0]

theorem tagRun_append (w : Nat) (tags : Nat → List Block) (s : TagState) (a b : List Nat) :
    tagRun w tags s (a ++ b) = tagRun w tags (tagRun w tags s a) b := List.foldl_append

theorem one_write {w : Nat} {tags : Nat → List Block} {s : TagState} {t : Nat} {T : Block} (hT : tags t = [T])
    (hx : s.pc t < 16 / w) : tagStep w tags s t =
      { s with tag := fun i => if i = s.pc t then tagPiece w T (s.pc t) else s.tag i
               pc := fun u => if u = t then s.pc t + 1 else s.pc u } := by
  have hd : s.pc t / (2 * (16 / w)) = 0 := Nat.div_eq_of_lt (by omega)
  have hm : s.pc t % (2 * (16 / w)) = s.pc t := Nat.mod_eq_of_lt (by omega)
  rw [tagStep_write (T := T) (by rw [hd, hT]; rfl) (by rw [hm]; exact hx), hm]

theorem one_read {w : Nat} {tags : Nat → List Block} {s : TagState} {t : Nat} {T : Block} (hT : tags t = [T])
    (hx : 16 / w ≤ s.pc t) (hx' : s.pc t < 2 * (16 / w)) : tagStep w tags s t =
      { s with pc := fun u => if u = t then s.pc t + 1 else s.pc u
               got := fun u q => if u = t ∧ q = s.pc t then some (s.tag (s.pc t - 16 / w)) else s.got u q } := by
  have hd : s.pc t / (2 * (16 / w)) = 0 := Nat.div_eq_of_lt (by omega)
  have hm : s.pc t % (2 * (16 / w)) = s.pc t := Nat.mod_eq_of_lt (by omega)
  rw [tagStep_read (T := T) (by rw [hd, hT]; rfl) (by rw [hm]; omega), hm]

theorem mix_write (w : Nat) (T0 T1 found : Block) (m : Nat → Bool) (n : Nat) (hn : n ≤ 16 / w) :
    let s := tagRun w (twoTags T0 T1) (tagStart w found) (mixSched m n)
    s.pc 0 = n ∧ s.pc 1 = n ∧ ∀ i < n, s.tag i = tagPiece w (if m i then T1 else T0) i := by
  induction n with
  | zero => exact ⟨rfl, rfl, fun i hi => absurd hi (Nat.not_lt_zero i)⟩
  | succ n ih =>
    obtain ⟨h0, h1, h2⟩ := ih (by omega)
    simp only [mixSched]
    rw [tagRun_append]
    generalize tagRun w (twoTags T0 T1) (tagStart w found) (mixSched m n) = s at h0 h1 h2
    cases hm : m n
    · have e : tagRun w (twoTags T0 T1) s (if false = true then [0, 1] else [1, 0]) =
          tagStep w (twoTags T0 T1) (tagStep w (twoTags T0 T1) s 1) 0 := rfl
      rw [e, one_write (s := s) (t := 1) (T := T1) rfl (by omega), one_write (t := 0) (T := T0) rfl (by simp; omega)]
      refine ⟨by simp [h0], by simp [h1], fun i hi => ?_⟩
      by_cases hin : i = n
      · subst hin; simp [h0, hm]
      · simp [h0, h1, hin, h2 i (by omega)]
    · have e : tagRun w (twoTags T0 T1) s (if true = true then [0, 1] else [1, 0]) =
          tagStep w (twoTags T0 T1) (tagStep w (twoTags T0 T1) s 0) 1 := rfl
      rw [e, one_write (s := s) (t := 0) (T := T0) rfl (by omega), one_write (t := 1) (T := T1) rfl (by simp; omega)]
      refine ⟨by simp [h0], by simp [h1], fun i hi => ?_⟩
      by_cases hin : i = n
      · subst hin; simp [h1, hm]
      · simp [h0, h1, hin, h2 i (by omega)]

theorem mix_read (w : Nat) (tags : Nat → List Block) (s : TagState) (t : Nat) (T : Block) (hT : tags t = [T])
    (hp : s.pc t = 16 / w) (r : Nat) (hr : r ≤ 16 / w) :
    let s' := tagRun w tags s (List.replicate r t)
    s'.pc t = 16 / w + r ∧ s'.tag = s.tag ∧ (∀ u, u ≠ t → s'.pc u = s.pc u ∧ s'.got u = s.got u) ∧
      ∀ i < r, s'.got t (16 / w + i) = some (s.tag i) := by
  induction r with
  | zero => exact ⟨hp, rfl, fun _ _ => ⟨rfl, rfl⟩, fun i hi => absurd hi (Nat.not_lt_zero i)⟩
  | succ r ih =>
    obtain ⟨h0, h1, h2, h3⟩ := ih (by omega)
    have e : List.replicate (r + 1) t = List.replicate r t ++ [t] := List.replicate_succ'
    simp only
    rw [e, tagRun_append]
    generalize tagRun w tags s (List.replicate r t) = s1 at h0 h1 h2 h3
    have e1 : tagRun w tags s1 [t] = tagStep w tags s1 t := rfl
    rw [e1, one_read hT (by omega) (by omega)]
    refine ⟨by simp [h0]; omega, h1, fun u hu => ?_, fun i hi => ?_⟩
    · simp [hu, h2 u hu]
    · by_cases hir : i = r
      · subst hir; simp [h0, h1]
      · simp [h0, hir, h3 i (by omega)]

/-- C134, mixtures: for every two tags and every choice of pieces there is a schedule in which two threads make one call each, and
both get from `finish` the mixture of the two tags. -/
theorem C134_mix (w : Nat) (found T0 T1 : Block) (m : Nat → Bool) :
    ∃ sched : List Nat, ∀ i < 16 / w, ∀ t < 2,
      tagGot w (tagRun w (fun u => if u = 0 then [T0] else if u = 1 then [T1] else []) (tagStart w found) sched) t 0 i =
        some (((if m i then T1 else T0).toList.drop (w * i)).take w) := by
  refine ⟨mixSched m (16 / w) ++ List.replicate (16 / w) 0 ++ List.replicate (16 / w) 1, fun i hi t ht => ?_⟩
  have key : ∀ S : Nat → List Block, S = twoTags T0 T1 →
      tagGot w (tagRun w S (tagStart w found)
        (mixSched m (16 / w) ++ List.replicate (16 / w) 0 ++ List.replicate (16 / w) 1)) t 0 i =
        some (tagPiece w (if m i then T1 else T0) i) := by
    rintro S rfl
    rw [tagRun_append, tagRun_append]
    obtain ⟨h0, h1, h2⟩ := mix_write w T0 T1 found m (16 / w) (Nat.le_refl _)
    generalize tagRun w (twoTags T0 T1) (tagStart w found) (mixSched m (16 / w)) = s at h0 h1 h2
    obtain ⟨a0, a1, a2, a3⟩ := mix_read w (twoTags T0 T1) s 0 T0 rfl h0 (16 / w) (Nat.le_refl _)
    generalize tagRun w (twoTags T0 T1) s (List.replicate (16 / w) 0) = s1 at a0 a1 a2 a3
    obtain ⟨b0, b1, b2, b3⟩ := mix_read w (twoTags T0 T1) s1 1 T1 rfl (by rw [(a2 1 (by decide)).1, h1]) (16 / w) (Nat.le_refl _)
    generalize tagRun w (twoTags T0 T1) s1 (List.replicate (16 / w) 1) = s2 at b0 b1 b2 b3
    unfold tagGot
    rw [Nat.mul_zero, Nat.zero_add]
    rcases (by omega : t = 0 ∨ t = 1) with rfl | rfl
    · rw [(b2 0 (by decide)).2, a3 i hi, h2 i hi]
    · rw [b3 i hi, a1, h2 i hi]
  exact key _ rfl

/-- C134, the tag of the other: there is a schedule in which both threads get the tag of the call of thread 1. -/
theorem C134_swap (w : Nat) (hw : w ∣ 16) (found T0 T1 : Block) :
    ∃ sched : List Nat, ∀ t < 2,
      tagRead w (tagRun w (fun u => if u = 0 then [T0] else if u = 1 then [T1] else []) (tagStart w found) sched) t 0 = T1.toList := by
  obtain ⟨sched, h⟩ := C134_mix w found T0 T1 fun _ => true
  exact ⟨sched, fun t ht => tagRead_of hw fun i hi => h i hi t ht⟩

/-- C134, a forgery: a sender encrypts `s` with FF3-GMAC and sends the result and the tag. Receivers decrypt with threads that share a
context: thread 1 the genuine text, thread 0 any other text of numerals of any length. Both deliver their plaintext, and there is a
schedule in which thread 0, which compares the tag it gets with the one of the sender, finds them equal. -/
theorem C134_forge (w : Nat) (hw : w ∣ 16) (found found' : Block) (tweak : List Byte) (radix : Nat) (E : Block → Block)
    (c c' : MacCtx) (hc : macInit found tweak radix E = some c) (hc' : macInit found' tweak radix E = some c')
    (ht : 16 ≤ tweak.length) (lg : Nat → Nat → Nat) (hlg : LgOk lg)
    (s rest rest' out out' : List Byte) (hs : ∀ c ∈ s, IsNumeral radix c) (hn : 1 ≤ s.length)
    (ho : s.length < out.length) (ho' : s.length < out'.length)
    (x rx ox : List Byte) (hx : ∀ c ∈ x, IsNumeral radix c) (hnx : 1 ≤ x.length) (hox : x.length < ox.length) :
    ∃ ct tag p T0, macCall lg c (.gmacEnc (s ++ 0 :: rest) out) = some (ct ++ 0 :: out.drop (s.length + 1), ⟨c.fpe, tag⟩) ∧
      (MacCall.gmacDec (ct ++ 0 :: rest') out').result lg c'.fpe = some (s ++ 0 :: out'.drop (s.length + 1), tag) ∧
      (MacCall.gmacDec (x ++ 0 :: rx) ox).result lg c'.fpe = some (p ++ 0 :: ox.drop (x.length + 1), T0) ∧
      ∃ sched : List Nat,
        tagRead w (tagRun w (fun u => if u = 0 then [T0] else if u = 1 then [tag] else []) (tagStart w c'.tag) sched) 0 0 =
          tag.toList := by
  obtain ⟨hf, -⟩ := macInit_some hc
  obtain ⟨hf', -⟩ := macInit_some hc'
  have e : c.fpe = c'.fpe := by rw [hf] at hf'; exact Option.some.inj hf'
  obtain ⟨ct, tag, -, h1, h2⟩ := C52_gmac_roundtrip c.fpe tweak radix E hf ht lg hlg s rest rest' out out' hs hn ho ho'
  obtain ⟨p, d, -, -, h3, -⟩ := C109_gmac_unverified found' tweak radix E c' hc' ht lg hlg x rx [] ox ox hx hnx hox hox
  have h4 : ∃ T0, (MacCall.gmacDec (x ++ 0 :: rx) ox).result lg c'.fpe = some (p ++ 0 :: ox.drop (x.length + 1), T0) := by
    unfold macCall at h3
    obtain ⟨⟨r1, r2⟩, hr, hr'⟩ := Option.map_eq_some_iff.1 h3
    simp only [Prod.mk.injEq] at hr'
    exact ⟨r2, by rw [hr, hr'.1]⟩
  obtain ⟨T0, h4⟩ := h4
  obtain ⟨sched, h5⟩ := C134_swap w hw c'.tag T0 tag
  refine ⟨ct, tag, p, T0, ?_, ?_, h4, sched, h5 0 (by decide)⟩
  · have h1' : (MacCall.gmacEnc (s ++ 0 :: rest) out).result lg c.fpe = _ := h1
    unfold macCall
    rw [h1']
    rfl
  · rw [← e]
    exact h2

/-! ### the hypotheses can be met -/

example : (1 ∣ 16) ∧ (4 ∣ 16) ∧ (8 ∣ 16) ∧ 16 / 8 = 2 := by decide

/-- `C134_bytes`: two threads, pieces of eight bytes; thread 0 reads a piece of its own tag and one of the other. -/
example (found T0 T1 : Block) : ∃ sched v0 v1,
    tagGot 8 (tagRun 8 (twoTags T0 T1) (tagStart 8 found) sched) 0 0 0 = some v0 ∧
    tagGot 8 (tagRun 8 (twoTags T0 T1) (tagStart 8 found) sched) 0 0 1 = some v1 ∧
    v0 = (T0.toList.drop (8 * 0)).take 8 ∧ v1 = (T1.toList.drop (8 * 1)).take 8 := by
  obtain ⟨sched, h⟩ := C134_mix 8 found T0 T1 fun i => i == 1
  exact ⟨sched, _, _, h 0 (by decide) 0 (by decide), h 1 (by decide) 0 (by decide), rfl, rfl⟩

/-- `C134_alone`: one thread, one call, two pieces written and read. -/
example (found T : Block) : ∀ i < 16 / 8,
    tagGot 8 (tagRun 8 (fun u => if u = 0 then [T] else []) (tagStart 8 found) [0, 0, 0, 0]) 0 0 i ≠ none := by
  intro i hi
  rcases (by omega : i = 0 ∨ i = 1) with rfl | rfl
  · simp [tagGot, tagRun, tagStep, tagStart]
  · simp [tagGot, tagRun, tagStep, tagStart]

/-- `C134_forge`: contexts of a sender and a receiver, a genuine text of two digits and a forged one of three. -/
example (found found' : Block) : ∃ c c', macInit found (List.replicate 16 7) 10 id = some c ∧
    macInit found' (List.replicate 16 7) 10 id = some c' ∧ 16 ≤ (List.replicate 16 (7 : Byte)).length ∧
    (∀ c ∈ ([0x31, 0x32] : List Byte), IsNumeral 10 c) ∧ (∀ c ∈ ([0x39, 0x38, 0x37] : List Byte), IsNumeral 10 c) := by
  refine ⟨⟨⟨id, 10, List.replicate 16 7⟩, found⟩, ⟨⟨id, 10, List.replicate 16 7⟩, found'⟩, rfl, rfl, by simp, ?_, ?_⟩ <;>
    (intro c hc; unfold IsNumeral; revert c; decide)

end Verif.Props
