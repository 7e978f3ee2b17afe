import Verif.Props.CbcMem

/-! Property C84, continued: refused calls, lengths that are not whole blocks, single blocks, and the exact set of safe overlaps. -/
set_option autoImplicit false

namespace Verif.Props
open Verif Verif.Model

/-! ### Refused calls -/

/-- C84: a call refused for lack of room is refused with any overlap; memory and IV stay, no length is reported. -/
theorem C84_refuse (E D : Block → Block) (moved : Bool) (m : Mem) (p q n maxOlen : Nat) (iv : Block) :
    (n < 2 ^ 31 - 16 → maxOlen < (Spec.pkcs7 (bytesAt m p n)).length →
      cbcEncryptMem E moved m p q n maxOlen iv = some (0, none, m)) ∧
    (maxOlen < n → cbcDecryptMem D m p q n maxOlen iv = (0, m, iv)) := by
  constructor
  · intro hn h
    rw [cbcEncryptMem]
    change (pkcs7Merge (bytesAt m p n)).bind _ = _
    rw [pkcs7Merge_eq_spec _ (by rw [length_bytesAt]; exact hn), Option.bind_some, if_pos h]
  · intro h
    rw [cbcDecryptMem, if_pos h]

example (E D : Block → Block) (m : Mem) (iv : Block) : cbcEncryptMem E false m 100 101 17 31 iv = some (0, none, m) ∧
    cbcDecryptMem D m 100 101 32 31 iv = (0, m, iv) :=
  ⟨(C84_refuse E D false m 100 101 17 31 iv).1 (by decide) (by simp [Spec.pkcs7, Spec.padCount, length_bytesAt]),
    (C84_refuse E D false m 100 101 32 31 iv).2 (by decide)⟩

/-! ### Tail -/

theorem tailMem_fold (tmp iv : Block) (p q : Nat) (m : Mem) (hpq : q ≤ p ∨ p + 16 ≤ q) : ∀ u, u ≤ 16 →
    (((List.finRange 16).take u).foldl (cbcTailByteMem tmp p q) (m, iv)).1 = placed m q ((tmp ^^^ iv).toList.take u) ∧
    ∀ i (h : i < 16), (((List.finRange 16).take u).foldl (cbcTailByteMem tmp p q) (m, iv)).2[i] =
      if i < u then m (p + i) else iv[i] := by
  intro u
  induction u with
  | zero => intro _; exact ⟨by simp [placed_nil], fun i h => by simp⟩
  | succ u ih =>
    intro hu
    obtain ⟨h1, h2⟩ := ih (by omega)
    rw [take_finRange_succ u (by omega), List.foldl_append]
    generalize ((List.finRange 16).take u).foldl (cbcTailByteMem tmp p q) (m, iv) = s at h1 h2
    simp only [List.foldl_cons, List.foldl_nil, cbcTailByteMem, Fin.getElem_fin]
    have hlen : ((tmp ^^^ iv).toList.take u).length = u := by simp; omega
    constructor
    · have hp := placed_concat m q ((tmp ^^^ iv).toList.take u) (tmp[u] ^^^ iv[u])
      rw [hlen] at hp
      rw [h2 u (by omega), if_neg (by omega), h1, hp]
      congr 1
      rw [List.take_add_one, List.getElem?_eq_getElem (by simp; omega)]
      simp [Vec.getElem_xor]
    · intro i h
      rw [Vector.getElem_set]
      by_cases hi : u = i
      · subst hi
        rw [if_pos rfl, if_pos (by omega), h1, placed_below]
        rw [hlen]; omega
      · rw [if_neg hi, h2 i h]
        by_cases hi2 : i < u
        · rw [if_pos hi2, if_pos (by omega)]
        · rw [if_neg hi2, if_neg (by omega)]

theorem setRest_fold (f : Nat → Byte) (l : List (Fin 16)) : ∀ (v : Block) i (h : i < 16),
    (l.foldl (fun (v : Block) (n : Fin 16) => v.set n (f n.1)) v)[i] = if ⟨i, h⟩ ∈ l then f i else v[i] := by
  induction l with
  | nil => intro v i h; simp
  | cons a l ih =>
    intro v i h
    rw [List.foldl_cons, ih]
    by_cases hm : (⟨i, h⟩ : Fin 16) ∈ l
    · rw [if_pos hm, if_pos (List.mem_cons_of_mem _ hm)]
    · rw [if_neg hm]
      by_cases ha : (⟨i, h⟩ : Fin 16) = a
      · subst ha; rw [if_pos (List.mem_cons_self ..)]; simp
      · rw [if_neg (by simp [ha, hm]), Vector.getElem_set_ne _ _ (fun e => ha (Fin.ext e.symm))]

theorem mem_drop_finRange (u i : Nat) (h : i < 16) : (⟨i, h⟩ : Fin 16) ∈ (List.finRange 16).drop u ↔ u ≤ i := by
  rw [List.mem_drop_iff_getElem]
  constructor
  · rintro ⟨j, hj, e⟩
    have := congrArg Fin.val e
    simp at this
    omega
  · intro hu
    exact ⟨i - u, by simp; omega, by simp; omega⟩

/-- The tail of `len` bytes: the bytes stored are those of the decrypted block and the new IV is the block that was read. -/
theorem cbcDecTailMem_eq (D : Block → Block) (p q len : Nat) (iv : Block) (m : Mem) (h0 : 0 < len) (h16 : len ≤ 16)
    (hpq : q ≤ p ∨ p + 16 ≤ q) :
    cbcDecTailMem D p q len iv m = (m.blk p, placed m q ((D (m.blk p) ^^^ iv).toList.take len)) := by
  obtain ⟨h1, h2⟩ := tailMem_fold (D (m.blk p)) iv p q m hpq len h16
  rw [cbcDecTailMem, if_neg (by omega)]
  simp only []
  refine Prod.ext ?_ h1
  apply Vector.ext
  intro i h
  have hr := setRest_fold (fun j => (((List.finRange 16).take len).foldl (cbcTailByteMem (D (m.blk p)) p q) (m, iv)).1 (p + j))
    ((List.finRange 16).drop len) (((List.finRange 16).take len).foldl (cbcTailByteMem (D (m.blk p)) p q) (m, iv)).2 i h
  simp only [mem_drop_finRange] at hr
  refine hr.trans ?_
  rw [h1, h2 i h]
  simp only [Mem.blk, Vector.getElem_ofFn]
  by_cases hi : i < len
  · rw [if_neg (by omega), if_pos hi]
  · rw [if_pos (by omega), placed_below]
    simp only [List.length_take, Vector.length_toList]
    omega

/-- C84 (partial last block): under the conditions of `C84_overlap_ok` (with room for the whole last block, which is read) a
length that is not a multiple of 16 leaves the first bytes of the CBC plaintext and the last block read as IV, and changes
nothing else. -/
theorem C84_partial_block (D : Block → Block) (m : Mem) (p q n t maxOlen : Nat) (iv : Block) (h0 : 0 < t) (h16 : t < 16)
    (hn : 16 * n + t < 2 ^ 31) (hcap : 16 * n + t ≤ maxOlen)
    (hpq : q = p ∨ q + 16 * min n 2 ≤ p ∨ p + 16 * (n + 1) ≤ q) :
    cbcDecryptMem D m p q (16 * n + t) maxOlen iv =
      (1, placed m q ((fromBlocks (Spec.cbcDecrypt D iv (blocksAt m p (n + 1)))).take (16 * n + t)), m.blk (p + 16 * n)) := by
  have hb := C84_overlap_ok D m p q n (16 * n) iv (by omega) (Nat.le_refl _) (by omega)
  rw [cbcDecryptMem_blocks D m p q n _ iv (by omega) (Nat.le_refl _)] at hb
  rw [cbcDecryptMem, if_neg (by omega), cbcCounts_small hn]
  simp only [show (16 * n + t) / 16 = n by omega, show (16 * n + t) % 16 = t by omega, Nat.mul_comm n 16]
  have hlen : (fromBlocks (Spec.cbcDecrypt D iv (blocksAt m p n))).length = 16 * n := by
    simp [length_specCbcDecrypt, length_blocksAt]
  have hs : (if p = q then cbcDecLoopSame D n p iv m
      else (ivBlk iv (cbcDecLoopMem D iv n p q .ivec m).2 (cbcDecLoopMem D iv n p q .ivec m).1,
        (cbcDecLoopMem D iv n p q .ivec m).2)) =
      ((blocksAt m p n).getLastD iv, placedBlocks m q (Spec.cbcDecrypt D iv (blocksAt m p n))) := by
    by_cases h : p = q
    · rw [if_pos h] at hb ⊢
      injection hb with _ hb
      injection hb with hb1 hb2
      exact Prod.ext hb2 hb1
    · rw [if_neg h] at hb ⊢
      injection hb with _ hb
      injection hb with hb1 hb2
      exact Prod.ext hb2 hb1
  rw [hs]
  have hblk : (placedBlocks m q (Spec.cbcDecrypt D iv (blocksAt m p n))).blk (p + 16 * n) = m.blk (p + 16 * n) := by
    apply blk_congr
    intro a h1 h2
    apply placed_below
    rw [hlen]
    omega
  rw [cbcDecTailMem_eq D _ _ t _ _ h0 (by omega) (by omega), hblk]
  congr 2
  have hlast : blocksAt m p (n + 1) = blocksAt m p n ++ [m.blk (p + 16 * n)] := by
    simp [blocksAt, List.range_succ]
  rw [hlast, specCbcDecrypt_append]
  simp only [Spec.cbcDecrypt, fromBlocks, List.flatMap_append, List.flatMap_cons, List.flatMap_nil, List.append_nil]
  change _ = placed m q (List.take _ (fromBlocks _ ++ _))
  rw [List.take_append, hlen, List.take_of_length_le (l := fromBlocks _) (by omega),
    show 16 * n + t - 16 * n = t by omega, ← placed_append, hlen]
  rfl

/-- 20 bytes in place. -/
example (m : Mem) (iv : Block) : cbcDecryptMem id m 100 100 (16 * 1 + 4) 20 iv =
    (1, placed m 100 ((fromBlocks (Spec.cbcDecrypt id iv (blocksAt m 100 (1 + 1)))).take (16 * 1 + 4)), m.blk (100 + 16 * 1)) :=
  C84_partial_block id m 100 100 1 4 20 iv (by decide) (by decide) (by decide) (by decide) (.inl rfl)

/-- C84 (negative length): a length whose low 32 bits are at least `2^31` decrypts one block, whatever the announced length. -/
theorem C84_negative (D : Block → Block) (m : Mem) (p q inlen maxOlen : Nat) (iv : Block) (h : 2 ^ 31 ≤ inlen % 2 ^ 32)
    (hcap : inlen ≤ maxOlen) (hpq : q ≤ p ∨ p + 16 ≤ q) :
    cbcDecryptMem D m p q inlen maxOlen iv = (1, m.putBlk q (D (m.blk p) ^^^ iv), m.blk p) := by
  rw [cbcDecryptMem, if_neg (by omega), cbcCounts, if_neg (by omega)]
  simp only [cbcDecLoopSame, cbcDecLoopMem, ivBlk, ite_self, Nat.zero_mul, Nat.add_zero]
  rw [cbcDecTailMem_eq D p q 16 iv m (by decide) (by decide) hpq, putBlk_eq_placed, List.take_of_length_le (by simp)]

example (m : Mem) (iv : Block) : cbcDecryptMem id m 100 90 (2 ^ 31) (2 ^ 31) iv = (1, m.putBlk 90 (m.blk 100 ^^^ iv), m.blk 100) :=
  C84_negative id m 100 90 (2 ^ 31) (2 ^ 31) iv (by decide) (by decide) (by decide)

/-! ### Which overlaps are safe -/

/-- C84 (one block): the plaintext of a single block is right with every overlap. The IV handed back is the ciphertext block as
it is after the output was stored, so it is right exactly if the output left those bytes as they were (or `in == out`). -/
theorem C84_single_block (D : Block → Block) (m : Mem) (p q maxOlen : Nat) (iv : Block) (hcap : 16 ≤ maxOlen) :
    cbcDecryptMem D m p q 16 maxOlen iv = (1, m.putBlk q (D (m.blk p) ^^^ iv),
      if p = q then m.blk p else (m.putBlk q (D (m.blk p) ^^^ iv)).blk p) := by
  refine (cbcDecryptMem_blocks D m p q 1 maxOlen iv (by decide) hcap).trans ?_
  by_cases h : p = q
  · subst h
    rw [if_pos rfl, if_pos rfl]
    rfl
  · rw [if_neg h, if_neg h]
    simp only [cbcDecLoopMem, xorIv, ivBlk, blk_putBlk, putBlk_putBlk]

example (m : Mem) (iv : Block) : (cbcDecryptMem id m 100 103 16 16 iv).2.1 = m.putBlk 103 (m.blk 100 ^^^ iv) := by
  rw [C84_single_block id m 100 103 16 iv (by decide)]; rfl

/-- With everything zero that is read or written, the loop changes nothing. -/
theorem cbcDecLoopMem_zero (n : Nat) : ∀ (p q : Nat) (p' : Nat) (m : Mem),
    (∀ a, p ≤ a → a < p + 16 * n → m a = 0) → (∀ a, q ≤ a → a < q + 16 * n → m a = 0) →
    (∀ a, p' ≤ a → a < p' + 16 → m a = 0) → (cbcDecLoopMem id zeroBlock n p q (.at p') m).2 = m := by
  induction n with
  | zero => intro p q p' m _ _ _; rfl
  | succ n ih =>
    intro p q p' m hp hq hp'
    have h1 : m.putBlk q (m.blk p) = m := by
      funext a
      by_cases ha : q ≤ a ∧ a < q + 16
      · obtain ⟨i, rfl⟩ : ∃ i, a = q + i := ⟨a - q, by omega⟩
        rw [putBlk_same _ _ _ i (by omega)]
        simp only [Mem.blk, Vector.getElem_ofFn]
        rw [hp _ (by omega) (by omega), hq _ (by omega) (by omega)]
      · rw [putBlk_other _ _ _ _ (by omega)]
    have h2 : (m.xorWord q p').xorWord (q + 8) (p' + 8) = m := by
      have hx : ∀ (x y : Nat), (∀ a, x ≤ a → a < x + 8 → m a = 0) → (∀ a, y ≤ a → a < y + 8 → m a = 0) → m.xorWord x y = m := by
        intro x y hx hy
        funext a
        rw [Mem.xorWord]
        by_cases ha : x ≤ a ∧ a < x + 8
        · rw [if_pos ha, hx a ha.1 ha.2, hy _ (by omega) (by omega)]; rfl
        · rw [if_neg ha]
      rw [hx q p' (fun a h1 h2 => hq a h1 (by omega)) (fun a h1 h2 => hp' a h1 (by omega)),
        hx (q + 8) (p' + 8) (fun a h1 h2 => hq a (by omega) (by omega)) (fun a h1 h2 => hp' a (by omega) (by omega))]
    rw [cbcDecLoopMem, id, h1, xorIv, h2]
    exact ih _ _ _ _ (fun a h1 h2 => hp a (by omega) (by omega)) (fun a h1 h2 => hq a (by omega) (by omega))
      (fun a h1 h2 => hp a (by omega) (by omega))

/-- Memory that is zero except for a one at `x`. -/
def oneAt (x : Nat) : Mem := fun a => if a = x then 1 else 0

/-- The bytes of the right result for the identity as cipher. -/
theorem placedBlocks_id (m : Mem) (n : Nat) : ∀ (m' : Mem) (p q k : Nat) (iv : Block), k < 16 * n →
    placedBlocks m' q (Spec.cbcDecrypt id iv (blocksAt m p n)) (q + k) =
      m (p + k) ^^^ (if h : k < 16 then iv[k] else m (p + k - 16)) := by
  induction n with
  | zero => intro m' p q k iv h; omega
  | succ n ih =>
    intro m' p q k iv hk
    rw [blocksAt_succ, Spec.cbcDecrypt, ← placedBlocks_cons]
    by_cases h : k < 16
    · rw [dif_pos h, placedBlocks, placed_below _ _ _ _ (by omega), putBlk_same _ _ _ k h, Vec.getElem_xor]
      simp [Mem.blk]
    · rw [dif_neg h]
      have e := ih (m'.putBlk q (id (m.blk p) ^^^ iv)) (p + 16) (q + 16) (k - 16) (m.blk p) (by omega)
      rw [show q + 16 + (k - 16) = q + k by omega, show p + 16 + (k - 16) = p + k by omega] at e
      rw [e]
      congr 1
      by_cases h2 : k - 16 < 16
      · rw [dif_pos h2]
        simp only [Mem.blk, Vector.getElem_ofFn]
        congr 1; omega
      · rw [dif_neg h2]

theorem oneAt_blk (x p : Nat) (h : x < p ∨ p + 16 ≤ x) : (oneAt x).blk p = zeroBlock := by
  apply Vector.ext
  intro i hi
  simp only [Mem.blk, Vector.getElem_ofFn, oneAt, zeroBlock, Vector.getElem_replicate]
  rw [if_neg (by omega)]

/-- C84 (no other overlap is safe): for two or more blocks, at every address, and every output address that `C84_overlap_ok`
leaves out there are a cipher, a memory and an IV for which the result is not the CBC plaintext. -/
theorem C84_overlap_sharp (p q n : Nat) (hn : 2 ≤ n) (hl : 16 * n < 2 ^ 31) (h1 : q ≠ p) (h2 : p < q + 32) (h3 : q < p + 16 * n) :
    ∃ (D : Block → Block) (m : Mem) (iv : Block), (cbcDecryptMem D m p q (16 * n) (16 * n) iv).2.1 ≠
      placedBlocks m q (Spec.cbcDecrypt D iv (blocksAt m p n)) := by
  obtain ⟨k, rfl⟩ : ∃ k, n = k + 2 := ⟨n - 2, by omega⟩
  rcases Nat.lt_or_gt_of_ne h1 with h | h
  · -- output before the input
    refine ⟨id, oneAt p, zeroBlock, fun e => ?_⟩
    rw [cbcDecryptMem_blocks id _ p q _ _ _ hl (Nat.le_refl _), if_neg (by omega)] at e
    have e2 := congrFun e (q + 16)
    rw [placedBlocks_id _ _ _ _ _ _ _ (by omega), dif_neg (by omega)] at e2
    have hm1 : (oneAt p).putBlk q ((oneAt p).blk p) = fun a => if a = q ∨ (a = p ∧ q + 16 ≤ p) then 1 else 0 := by
      funext a
      by_cases ha : q ≤ a ∧ a < q + 16
      · obtain ⟨i, rfl⟩ : ∃ i, a = q + i := ⟨a - q, by omega⟩
        rw [putBlk_same _ _ _ i (by omega)]
        simp only [Mem.blk, Vector.getElem_ofFn, oneAt]
        by_cases hi : i = 0
        · subst hi; rw [if_pos (by omega), if_pos (by omega)]
        · rw [if_neg (by omega), if_neg (by omega)]
      · rw [putBlk_other _ _ _ _ (by omega), oneAt]
        by_cases hp : a = p
        · rw [if_pos hp, if_pos (by omega)]
        · rw [if_neg hp, if_neg (by omega)]
    have hx0 : ∀ b : Block, b ^^^ zeroBlock = b := by
      intro b; apply Vector.ext; intro i hi; rw [Vec.getElem_xor]; simp [zeroBlock]
    have hm2 : Mem.putBlk (fun a => if a = q ∨ (a = p ∧ q + 16 ≤ p) then (1 : Byte) else 0) (q + 16)
        (Mem.blk (fun a => if a = q ∨ (a = p ∧ q + 16 ≤ p) then (1 : Byte) else 0) (p + 16)) = oneAt q := by
      funext a
      by_cases ha : q + 16 ≤ a ∧ a < q + 16 + 16
      · obtain ⟨i, rfl⟩ : ∃ i, a = q + 16 + i := ⟨a - (q + 16), by omega⟩
        rw [putBlk_same _ _ _ i (by omega)]
        simp only [Mem.blk, Vector.getElem_ofFn, oneAt]
        rw [if_neg (by omega), if_neg (by omega)]
      · rw [putBlk_other _ _ _ _ (by omega), oneAt]
        by_cases hp : a = q
        · rw [if_pos (.inl hp), if_pos hp]
        · rw [if_neg (by omega), if_neg hp]
    have hx : ((oneAt q).xorWord (q + 16) p).xorWord (q + 16 + 8) (p + 8) = oneAt q := by
      have hw : ∀ x y, q < x → q < y → (oneAt q).xorWord x y = oneAt q := by
        intro x y hx hy
        funext a
        rw [Mem.xorWord]
        by_cases ha : x ≤ a ∧ a < x + 8
        · rw [if_pos ha]
          simp only [oneAt]
          rw [if_neg (by omega), if_neg (by omega)]; rfl
        · rw [if_neg ha]
      rw [hw _ _ (by omega) (by omega), hw _ _ (by omega) (by omega)]
    rw [cbcDecLoopMem, cbcDecLoopMem, id, xorIv, blk_putBlk, putBlk_putBlk, hx0, hm1, xorIv, id, hm2, hx,
      cbcDecLoopMem_zero] at e2
    · simp only [oneAt] at e2
      rw [if_neg (by omega), if_neg (by omega), if_pos (by omega)] at e2
      exact absurd e2 (by decide)
    all_goals
      intro a h1 h2
      rw [oneAt, if_neg (by omega)]
  · -- output inside the input
    obtain ⟨x, hx1, hx2, hx3, hx4⟩ : ∃ x, p + 16 ≤ x ∧ q ≤ x ∧ x < q + 16 ∧ x < p + 16 * (k + 2) := by
      rcases Nat.le_total q (p + 16) with h | h
      · exact ⟨p + 16, by omega, by omega, by omega, by omega⟩
      · exact ⟨q, by omega, by omega, by omega, by omega⟩
    refine ⟨id, oneAt x, zeroBlock, fun e => ?_⟩
    rw [cbcDecryptMem_blocks id _ p q _ _ _ hl (Nat.le_refl _), if_neg (by omega)] at e
    have e2 := congrFun e (q + (x - p))
    rw [placedBlocks_id _ _ _ _ _ _ _ (by omega), dif_neg (by omega)] at e2
    have hx0 : ∀ b : Block, b ^^^ zeroBlock = b := by
      intro b; apply Vector.ext; intro i hi; rw [Vec.getElem_xor]; simp [zeroBlock]
    have hm1 : (oneAt x).putBlk q zeroBlock = fun _ => 0 := by
      funext a
      by_cases ha : q ≤ a ∧ a < q + 16
      · obtain ⟨i, rfl⟩ : ∃ i, a = q + i := ⟨a - q, by omega⟩
        rw [putBlk_same _ _ _ i (by omega)]
        simp [zeroBlock]
      · rw [putBlk_other _ _ _ _ (by omega), oneAt, if_neg (by omega)]
    rw [cbcDecLoopMem, id, oneAt_blk _ _ (by omega), xorIv, blk_putBlk, putBlk_putBlk, hx0, hm1, cbcDecLoopMem_zero] at e2
    · simp only [oneAt] at e2
      rw [if_pos (by omega), if_neg (by omega)] at e2
      exact absurd e2 (by decide)
    all_goals
      intro a h1 h2
      rfl

/-- Ten blocks, output one byte before; and nine blocks behind. -/
example : (∃ (D : Block → Block) (m : Mem) (iv : Block), (cbcDecryptMem D m 1000 999 (16 * 10) (16 * 10) iv).2.1 ≠
      placedBlocks m 999 (Spec.cbcDecrypt D iv (blocksAt m 1000 10))) ∧
    (∃ (D : Block → Block) (m : Mem) (iv : Block), (cbcDecryptMem D m 1000 1144 (16 * 10) (16 * 10) iv).2.1 ≠
      placedBlocks m 1144 (Spec.cbcDecrypt D iv (blocksAt m 1000 10))) :=
  ⟨C84_overlap_sharp 1000 999 10 (by decide) (by decide) (by decide) (by decide) (by decide),
    C84_overlap_sharp 1000 1144 10 (by decide) (by decide) (by decide) (by decide) (by decide)⟩

end Verif.Props
