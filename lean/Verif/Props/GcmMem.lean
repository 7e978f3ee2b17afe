import Verif.Model.GcmMem
import Verif.Props.Gcm

/-! Property C76: GCM encryption and decryption with overlapping buffers. -/
set_option autoImplicit false

namespace Verif.Props
open Verif Spec Model

/-- The `n` bytes from address `p`. -/
def bytesAt (m : Mem) (p n : Nat) : List Byte := (List.range n).map fun i => m (p + i)

/-- Memory after the bytes `l` have been placed at `q`. -/
def placed (m : Mem) (q : Nat) (l : List Byte) : Mem := fun a => if q ≤ a ∧ a < q + l.length then l.getD (a - q) 0 else m a

theorem length_bytesAt (m : Mem) (p n : Nat) : (bytesAt m p n).length = n := by simp [bytesAt]

theorem bytesAt_succ (m : Mem) (p n : Nat) : bytesAt m p (n + 1) = bytesAt m p n ++ [m (p + n)] := by
  simp [bytesAt, List.range_succ]

theorem bytesAt_take (m : Mem) (p n k : Nat) (h : k ≤ n) : (bytesAt m p n).take k = bytesAt m p k := by
  apply List.ext_getElem
  · simp [bytesAt]; omega
  · intro i h1 h2; simp [bytesAt]

theorem bytesAt_drop (m : Mem) (p n k : Nat) : (bytesAt m p n).drop k = bytesAt m (p + k) (n - k) := by
  apply List.ext_getElem
  · simp [bytesAt]
  · intro i h1 h2; simp [bytesAt, Nat.add_assoc]

theorem placed_nil (m : Mem) (q : Nat) : placed m q [] = m := by
  funext a
  rw [placed, if_neg (by simp)]

theorem placed_append (m : Mem) (q : Nat) (l k : List Byte) : placed (placed m q l) (q + l.length) k = placed m q (l ++ k) := by
  funext a
  simp only [placed, List.length_append, List.getD_eq_getElem?_getD, List.getElem?_append]
  by_cases h1 : q ≤ a ∧ a < q + l.length
  · rw [if_neg (by omega), if_pos h1, if_pos (by omega), if_pos (by omega)]
  · by_cases h2 : q + l.length ≤ a ∧ a < q + l.length + k.length
    · rw [if_pos h2, if_pos (by omega), if_neg (by omega), Nat.sub_add_eq]
    · rw [if_neg h2, if_neg h1, if_neg (by omega)]

theorem placed_concat (m : Mem) (q : Nat) (l : List Byte) (v : Byte) :
    (placed m q l).put (q + l.length) v = placed m q (l ++ [v]) := by
  rw [← placed_append]
  funext a
  simp only [Mem.put, placed, List.length_singleton]
  by_cases h : a = q + l.length
  · subst h; rw [if_pos rfl, if_pos (by omega)]; simp
  · rw [if_neg h, if_neg (c := q + l.length ≤ a ∧ a < q + l.length + 1) (by omega)]

theorem placed_below (m : Mem) (q : Nat) (l : List Byte) (a : Nat) (h : a < q ∨ q + l.length ≤ a) : placed m q l a = m a := by
  rw [placed, if_neg (by omega)]

theorem xorInto_concat (b : Block) (l : List Byte) (x : Byte) (h : l.length < 16) :
    xorInto b (l ++ [x]) = (xorInto b l).set l.length ((xorInto b l)[l.length] ^^^ x) := by
  apply Vector.ext
  intro i hi
  simp only [xorInto, Vector.getElem_ofFn, Vector.getElem_set, List.length_append, List.length_singleton]
  by_cases h1 : l.length = i
  · subst h1; simp
  · rw [if_neg h1]
    by_cases h2 : i < l.length
    · rw [dif_pos (by omega), dif_pos h2, List.getElem_append_left h2]
    · rw [dif_neg (by omega), dif_neg h2]

theorem zipWith_concat (e : Block) (l : List Byte) (x : Byte) (h : l.length < 16) :
    List.zipWith (fun a b => a ^^^ b) e.toList (l ++ [x]) =
      List.zipWith (fun a b => a ^^^ b) e.toList l ++ [e[l.length] ^^^ x] := by
  apply List.ext_getElem
  · simp; omega
  · intro i h1 h2
    simp only [List.getElem_zipWith, List.getElem_append, List.length_zipWith, Vector.length_toList, Vector.getElem_toList]
    simp only [List.length_append, List.length_zipWith, Vector.length_toList, List.length_singleton] at h2
    by_cases h3 : i < l.length
    · rw [dif_pos h3, dif_pos (by omega)]
    · have : i = l.length := by omega
      subst this
      rw [dif_neg h3, dif_neg (by omega)]
      simp

theorem take_finRange_succ (u : Nat) (h : u < 16) :
    (List.finRange 16).take (u + 1) = (List.finRange 16).take u ++ [⟨u, h⟩] := by
  rw [List.take_add_one]
  congr 1
  rw [List.getElem?_eq_getElem (by simpa using h)]
  simp

/-- The inner loop if the output starts not after the input or behind its end. -/
theorem pieceMem_eq (dec : Bool) (ectr : Block) (p q : Nat) (m : Mem) (buf : Block) : ∀ u, u ≤ 16 → (q ≤ p ∨ p + u ≤ q) →
    pieceMem dec ectr p q u (m, buf) =
      (placed m q (List.zipWith (fun a b => a ^^^ b) ectr.toList (bytesAt m p u)),
       xorInto buf (if dec then bytesAt m p u else List.zipWith (fun a b => a ^^^ b) ectr.toList (bytesAt m p u))) := by
  intro u
  induction u with
  | zero =>
    intro _ _
    have h0 : ∀ b : Block, xorInto b [] = b := by
      intro b; apply Vector.ext; intro i hi; simp [xorInto]
    cases dec <;> simp [pieceMem, bytesAt, placed_nil, h0]
  | succ u ih =>
    intro hu hq
    have hlz : (List.zipWith (fun a b => a ^^^ b) ectr.toList (bytesAt m p u)).length = u := by
      simp [length_bytesAt]; omega
    have hlb := length_bytesAt m p u
    have hrd : placed m q (List.zipWith (fun a b => a ^^^ b) ectr.toList (bytesAt m p u)) (p + u) = m (p + u) :=
      placed_below _ _ _ _ (by rw [hlz]; omega)
    have hz := zipWith_concat ectr (bytesAt m p u) (m (p + u)) (by omega)
    simp only [hlb] at hz
    rw [pieceMem, take_finRange_succ u (by omega), List.foldl_append, ← pieceMem, ih (by omega) (by omega), bytesAt_succ]
    have hc := placed_concat m q (List.zipWith (fun a b => a ^^^ b) ectr.toList (bytesAt m p u)) (ectr[u] ^^^ m (p + u))
    rw [hlz] at hc
    cases dec
    · simp only [List.foldl_cons, List.foldl_nil, byteMem, Bool.false_eq_true, if_false, Fin.getElem_fin, hrd, hz, hc]
      have hx := xorInto_concat buf (List.zipWith (fun a b => a ^^^ b) ectr.toList (bytesAt m p u)) (ectr[u] ^^^ m (p + u)) (by omega)
      simp only [hlz] at hx
      rw [hx]
      have : placed m q (List.zipWith (fun a b => a ^^^ b) ectr.toList (bytesAt m p u) ++ [ectr[u] ^^^ m (p + u)]) (q + u) =
          ectr[u] ^^^ m (p + u) := by
        rw [← hc, Mem.put, if_pos rfl]
      rw [this]
    · simp only [List.foldl_cons, List.foldl_nil, byteMem, if_true, Fin.getElem_fin, hrd, hz, hc]
      have hx := xorInto_concat buf (bytesAt m p u) (m (p + u)) (by omega)
      simp only [hlb] at hx
      rw [hx]

/-- The step on separate buffers. -/
def stepOf (dec : Bool) := if dec then decPiece else encPiece

theorem stepOf_eq (dec : Bool) (c : GcmCtx) (y buf : Block) (o l : List Byte) :
    stepOf dec c (y, buf, o) l = (incCtr y 4 (by decide),
      gcmMult c.HL c.HH (xorInto buf (if dec then l else List.zipWith (fun a b => a ^^^ b) (c.block (incCtr y 4 (by decide))).toList l)),
      o ++ List.zipWith (fun a b => a ^^^ b) (c.block (incCtr y 4 (by decide))).toList l) := by
  cases dec <;> rfl

theorem loopMem_eq (dec : Bool) (c : GcmCtx) (n : Nat) : ∀ (p q len : Nat) (m : Mem) (y buf : Block) (o : List Byte) (m0 : Mem)
    (q0 : Nat), len ≤ n → (q ≤ p ∨ p + len ≤ q) → m = placed m0 q0 o → q = q0 + o.length →
    loopMem dec c p q len m y buf =
      (placed m0 q0 ((chunks (bytesAt m p len)).foldl (stepOf dec c) (y, buf, o)).2.2,
       ((chunks (bytesAt m p len)).foldl (stepOf dec c) (y, buf, o)).1,
       ((chunks (bytesAt m p len)).foldl (stepOf dec c) (y, buf, o)).2.1) := by
  induction n with
  | zero =>
    intro p q len m y buf o m0 q0 hl _ hm _
    obtain rfl : len = 0 := by omega
    rw [loopMem, dif_neg (by omega), hm]
    rfl
  | succ n ih =>
    intro p q len m y buf o m0 q0 hl hq hm hq0
    rcases Nat.eq_zero_or_pos len with rfl | hpos
    · rw [loopMem, dif_neg (by omega), hm]
      rfl
    have hne : bytesAt m p len ≠ [] := by
      intro e; have := congrArg List.length e; rw [length_bytesAt] at this; simp at this; omega
    have htk : (bytesAt m p len).take 16 = bytesAt m p (min len 16) := by
      by_cases h : len ≤ 16
      · rw [List.take_of_length_le (by rw [length_bytesAt]; exact h), Nat.min_eq_left h]
      · rw [bytesAt_take _ _ _ _ (by omega), Nat.min_eq_right (by omega)]
    have hlz : ∀ e : Block, (List.zipWith (fun a b => a ^^^ b) e.toList (bytesAt m p (min len 16))).length = min len 16 := by
      intro e; simp [length_bytesAt]; omega
    have hdr : (bytesAt m p len).drop 16 = bytesAt m (p + min len 16) (len - min len 16) := by
      rw [bytesAt_drop]
      by_cases h : len ≤ 16
      · rw [show len - 16 = 0 by omega, show len - min len 16 = 0 by omega]; rfl
      · rw [Nat.min_eq_right (by omega)]
    rw [loopMem, dif_pos hpos]
    simp only []
    rw [pieceMem_eq dec _ p q m buf _ (by omega) (by omega), chunks_of_ne_nil hne, List.foldl_cons, stepOf_eq, htk, hdr]
    have hread : bytesAt (placed m q (List.zipWith (fun a b => a ^^^ b) (c.block (incCtr y 4 (by decide))).toList
        (bytesAt m p (min len 16)))) (p + min len 16) (len - min len 16) = bytesAt m (p + min len 16) (len - min len 16) := by
      unfold bytesAt
      apply List.map_congr_left
      intro i hi
      rw [List.mem_range] at hi
      apply placed_below
      have := hlz (c.block (incCtr y 4 (by decide)))
      unfold bytesAt at this
      rw [this]
      omega
    rw [← hread]
    apply ih _ _ _ _ _ _ _ m0 q0 (by omega) (by omega)
    · show placed m q _ = _
      subst hq0
      rw [← placed_append, ← hm]
    · rw [List.length_append, hlz]; omega

theorem gcmCryptMem_eq (dec : Bool) (c : GcmCtx) (m : Mem) (p q n outlen : Nat) (hn : n < 2 ^ 31) (ho : n ≤ outlen)
    (hq : q ≤ p ∨ p + n ≤ q) : ∃ r, gcmCrypt (stepOf dec) c (bytesAt m p n) (bytesAt m q n) n = some r ∧ r.ret = 1 ∧
      r.out.length = n ∧ gcmCryptMem dec c m p q n outlen = (1, r.ctx, placed m q r.out) := by
  have hlen := length_bytesAt m p n
  have h := gcmCrypt_eq (stepOf dec) c (bytesAt m p n) (bytesAt m q n) n (by rw [hlen]; exact hn) (Nat.le_of_eq hlen)
    (Nat.le_of_eq (length_bytesAt m q n).symm)
  have ho2 : ((chunks (bytesAt m p n)).foldl (stepOf dec c) (c.y, c.buf, [])).2.2.length = n := by
    have hf := fold_enc_out c (chunks (bytesAt m p n)) c.y c.buf []
    have hg := length_gctr c.block (inc32 (toBV c.y)) (bytesAt m p n)
    rw [gctr, hlen] at hg
    cases dec
    · rw [show stepOf false = encPiece from rfl, hf.1, List.nil_append, hg]
    · rw [show stepOf true = decPiece from rfl, hf.2, List.nil_append, hg]
  rw [List.drop_eq_nil_of_le (Nat.le_of_eq ((length_bytesAt m q n).trans ho2.symm)), List.append_nil] at h
  refine ⟨_, h, rfl, ho2, ?_⟩
  rw [gcmCryptMem, if_neg (by omega), intLen_of_lt hn]
  simp only [Int.toNat_natCast]
  rw [loopMem_eq dec c n p q n m c.y c.buf [] m q (Nat.le_refl _) hq (placed_nil m q).symm rfl, hlen]
  rfl

/-- C76: with the output at or before the input (in particular in place) or behind its end, the loops give the same
context and the same bytes as with separate buffers, and change nothing else. -/
theorem C76_overlap_ok (c : GcmCtx) (m : Mem) (p q n outlen : Nat) (hn : n < 2 ^ 31) (ho : n ≤ outlen)
    (hq : q ≤ p ∨ p + n ≤ q) :
    (∃ r, gcmEncrypt c (bytesAt m p n) (bytesAt m q n) n = some r ∧ r.ret = 1 ∧ r.out.length = n ∧
      gcmCryptMem false c m p q n outlen = (1, r.ctx, placed m q r.out)) ∧
    (∃ r, gcmDecrypt c (bytesAt m p n) (bytesAt m q n) n = some r ∧ r.ret = 1 ∧ r.out.length = n ∧
      gcmCryptMem true c m p q n outlen = (1, r.ctx, placed m q r.out)) :=
  ⟨gcmCryptMem_eq false c m p q n outlen hn ho hq, gcmCryptMem_eq true c m p q n outlen hn ho hq⟩

/-- C76: a call refused for lack of room is refused with any overlap, with the code of the call on separate buffers; context
and memory stay. -/
theorem C76_overlap_refuse (c : GcmCtx) (m : Mem) (p q n outlen : Nat) (h : outlen < n) :
    (∃ r, gcmEncrypt c (bytesAt m p n) (bytesAt m q outlen) outlen = some r ∧ r.out = bytesAt m q outlen ∧
      gcmCryptMem false c m p q n outlen = (r.ret, c, m)) ∧
    (∃ r, gcmDecrypt c (bytesAt m p n) (bytesAt m q outlen) outlen = some r ∧ r.out = bytesAt m q outlen ∧
      gcmCryptMem true c m p q n outlen = (r.ret, c, m)) := by
  have hr := C17_refuse c (bytesAt m p n) (bytesAt m q outlen) outlen (by rw [length_bytesAt]; exact h)
  have hm : ∀ dec, gcmCryptMem dec c m p q n outlen = (0, c, m) := fun dec => by rw [gcmCryptMem, if_pos h]
  exact ⟨⟨_, hr.1, rfl, hm false⟩, ⟨_, hr.2, rfl, hm true⟩⟩

example (c : GcmCtx) (m : Mem) : gcmCryptMem false c m 100 101 20 19 = (0, c, m) := by
  obtain ⟨r, h, _, h2⟩ := (C76_overlap_refuse c m 100 101 20 19 (by decide)).1
  rw [(C17_refuse c (bytesAt m 100 20) (bytesAt m 101 19) 19 (by rw [length_bytesAt]; decide)).1] at h
  rw [h2, ← Option.some.inj h]

/-! ### output after the input -/

/-- Byte `k` of the key stream of a context. -/
def keyByte (c : GcmCtx) (y : Block) (k : Nat) : Byte :=
  (gctr c.block (inc32 (toBV y)) (List.replicate (k + 1) 0)).getD k 0

theorem pieceMem_forward (dec : Bool) (ectr : Block) (p q : Nat) (m : Mem) (buf : Block) (hpq : p < q) : ∀ u, u ≤ 16 →
    (∀ a, a < q ∨ q + u ≤ a → (pieceMem dec ectr p q u (m, buf)).1 a = m a) ∧
    (∀ k (h : k < 16), k < u → (pieceMem dec ectr p q u (m, buf)).1 (q + k) =
      ectr[k] ^^^ (pieceMem dec ectr p q u (m, buf)).1 (p + k)) := by
  intro u
  induction u with
  | zero => intro _; exact ⟨fun a _ => rfl, fun k _ h => absurd h (by omega)⟩
  | succ u ih =>
    intro hu
    obtain ⟨h1, h2⟩ := ih (by omega)
    have hs : (pieceMem dec ectr p q (u + 1) (m, buf)).1 =
        (pieceMem dec ectr p q u (m, buf)).1.put (q + u) (ectr[u] ^^^ (pieceMem dec ectr p q u (m, buf)).1 (p + u)) := by
      rw [pieceMem, take_finRange_succ u (by omega), List.foldl_append, ← pieceMem]
      cases dec <;> rfl
    rw [hs]
    constructor
    · intro a ha
      rw [Mem.put, if_neg (by omega), h1 a (by omega)]
    · intro k hk hku
      by_cases hke : k = u
      · subst hke
        simp only [Mem.put]
        rw [if_pos True.intro, if_neg (by omega)]
      · simp only [Mem.put]
        rw [if_neg (by omega), if_neg (by omega), h2 k hk (by omega)]

theorem keyByte_first (c : GcmCtx) (y : Block) (k : Nat) (h : k < 16) :
    keyByte c y k = (c.block (incCtr y 4 (by decide)))[k] := by
  have hne : List.replicate (k + 1) (0 : Byte) ≠ [] := by simp
  rw [keyByte, gctr_step _ _ _ hne, List.take_of_length_le (by simp; omega), List.drop_eq_nil_of_le (by simp; omega),
    show gctr c.block (inc32 (inc32 (toBV y))) [] = [] from rfl, List.append_nil, ← incCtr_eq_ofBV, List.getD_eq_getElem?_getD,
    List.getElem?_eq_getElem (by simp; omega)]
  simp

theorem keyByte_next (c : GcmCtx) (y : Block) (k : Nat) :
    keyByte c y (16 + k) = keyByte c (incCtr y 4 (by decide)) k := by
  have hne : List.replicate (16 + k + 1) (0 : Byte) ≠ [] := by simp
  rw [keyByte, gctr_step _ _ _ hne, List.take_replicate, List.drop_replicate, keyByte, incCtr_eq, List.getD_eq_getElem?_getD,
    List.getElem?_append_right (by simp; omega), List.getD_eq_getElem?_getD]
  rw [show 16 + k + 1 - 16 = k + 1 by omega]
  congr 2
  simp; omega

theorem loopMem_forward (dec : Bool) (c : GcmCtx) (n : Nat) : ∀ (p q len : Nat) (m : Mem) (y buf : Block), len ≤ n → p < q →
    (∀ a, a < q ∨ q + len ≤ a → (loopMem dec c p q len m y buf).1 a = m a) ∧
    (∀ k, k < len → (loopMem dec c p q len m y buf).1 (q + k) = keyByte c y k ^^^ (loopMem dec c p q len m y buf).1 (p + k)) := by
  induction n with
  | zero =>
    intro p q len m y buf hl _
    obtain rfl : len = 0 := by omega
    rw [loopMem, dif_neg (by omega)]
    exact ⟨fun _ _ => rfl, fun k h => absurd h (by omega)⟩
  | succ n ih =>
    intro p q len m y buf hl hpq
    rcases Nat.eq_zero_or_pos len with rfl | hpos
    · rw [loopMem, dif_neg (by omega)]
      exact ⟨fun _ _ => rfl, fun k h => absurd h (by omega)⟩
    rw [loopMem, dif_pos hpos]
    simp only []
    obtain ⟨p1, p2⟩ := pieceMem_forward dec (c.block (incCtr y 4 (by decide))) p q m buf hpq (min len 16) (by omega)
    revert p1 p2
    generalize pieceMem dec (c.block (incCtr y 4 (by decide))) p q (min len 16) (m, buf) = s
    intro p1 p2
    obtain ⟨l1, l2⟩ := ih (p + min len 16) (q + min len 16) (len - min len 16) s.1 (incCtr y 4 (by decide))
      (gcmMult c.HL c.HH s.2) (by omega) (by omega)
    constructor
    · intro a ha
      rw [l1 a (by omega), p1 a (by omega)]
    · intro k hk
      by_cases hk16 : k < min len 16
      · rw [l1 _ (by omega), l1 _ (by omega), p2 k (by omega) hk16, keyByte_first c y k (by omega)]
      · obtain ⟨j, rfl⟩ : ∃ j, k = 16 + j := ⟨k - 16, by omega⟩
        have h16 : min len 16 = 16 := by omega
        rw [h16] at l2 ⊢
        rw [keyByte_next, ← Nat.add_assoc, ← Nat.add_assoc]
        exact l2 j (by omega)

/-- C76: with the output after the start of the input the call still reports success and writes only the output, but
every byte is computed from what is in memory at the end, so from output bytes as soon as the buffers overlap. -/
theorem C76_overlap_forward (dec : Bool) (c : GcmCtx) (m : Mem) (p q n outlen : Nat) (hn : n < 2 ^ 31) (ho : n ≤ outlen)
    (hpq : p < q) : ∃ c' m', gcmCryptMem dec c m p q n outlen = (1, c', m') ∧
      (∀ a, a < q ∨ q + n ≤ a → m' a = m a) ∧ (∀ k, k < n → m' (q + k) = keyByte c c.y k ^^^ m' (p + k)) := by
  have h := loopMem_forward dec c n p q n m c.y c.buf (Nat.le_refl _) hpq
  refine ⟨{ c with len := c.len + BitVec.ofInt 64 n, y := (loopMem dec c p q n m c.y c.buf).2.1,
                   buf := (loopMem dec c p q n m c.y c.buf).2.2 }, _, ?_, h⟩
  rw [gcmCryptMem, if_neg (by omega), intLen_of_lt hn]
  rfl

/-- C76: hence overlapping buffers with the output after the input give a wrong byte unless the input happens to continue with its
own encryption. -/
theorem C76_overlap_wrong (dec : Bool) (c : GcmCtx) (m : Mem) (p d n outlen : Nat) (hn : n < 2 ^ 31) (ho : n ≤ outlen)
    (hd : 0 < d) (hdn : d < n) (hne : m (p + d) ≠ keyByte c c.y 0 ^^^ m p) :
    (gcmCryptMem dec c m p (p + d) n outlen).2.2 (p + d + d) ≠ keyByte c c.y d ^^^ m (p + d) := by
  obtain ⟨c', m', h, h1, h2⟩ := C76_overlap_forward dec c m p (p + d) n outlen hn ho (by omega)
  rw [h]
  intro e
  have e0 := h2 0 (by omega)
  have ed := h2 d hdn
  rw [Nat.add_zero, Nat.add_zero, h1 p (by omega)] at e0
  change m' (p + d + d) = _ at e
  rw [ed, e0] at e
  apply hne
  have := congrArg (fun v => keyByte c c.y d ^^^ v) e
  simp only [← BitVec.xor_assoc, BitVec.xor_self, BitVec.zero_xor] at this
  exact this.symm

/- The hypotheses of `C76_overlap_wrong` are met by a constant key stream and a memory of zeros. -/
example : (fun _ => 0 : Mem) (0 + 1) ≠ keyByte (gcmInit fun _ => Vector.replicate 16 1) zeroBlock 0 ^^^ (fun _ => 0 : Mem) 0 := by
  decide +kernel

/- In place on 20 bytes. -/
example (c : GcmCtx) (m : Mem) : ∃ r, gcmEncrypt c (bytesAt m 100 20) (bytesAt m 100 20) 20 = some r ∧
    gcmCryptMem false c m 100 100 20 20 = (1, r.ctx, placed m 100 r.out) :=
  let ⟨r, h, _, _, h2⟩ := (C76_overlap_ok c m 100 100 20 20 (by decide) (by decide) (.inl (by decide))).1
  ⟨r, h, h2⟩

end Verif.Props
