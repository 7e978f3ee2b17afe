import Verif.Model.CbcIvMem
import Verif.Props.CbcMem

/-! Property C127: CBC with the IV in the same memory as the input and the output. -/
set_option autoImplicit false

namespace Verif.Props
open Verif Verif.Model

/-! ### Decryption -/

/-- Once `iv` points into the memory, the two models of the loop agree. -/
theorem cbcDecLoopIv_eq (D : Block → Block) (ivec : Block) (n : Nat) : ∀ (p q a : Nat) (m : Mem),
    cbcDecLoopMem D ivec n p q (.at a) m = (.at (cbcDecLoopIv D n p q a m).1, (cbcDecLoopIv D n p q a m).2) := by
  induction n with
  | zero => intro p q a m; rfl
  | succ n ih => intro p q a m; rw [cbcDecLoopMem, cbcDecLoopIv, ih]; rfl

/-- The loop for an IV outside the first output block. -/
theorem cbcDecLoopIv_apart (D : Block → Block) (n p q v : Nat) (m : Mem) (h : q + 16 ≤ v ∨ v + 16 ≤ q) :
    cbcDecLoopMem D (m.blk v) (n + 1) p q .ivec m =
      (.at (cbcDecLoopIv D (n + 1) p q v m).1, (cbcDecLoopIv D (n + 1) p q v m).2) := by
  rw [cbcDecLoopMem, cbcDecLoopIv, cbcDecLoopIv_eq]
  have e : xorIv (m.blk v) (m.putBlk q (D (m.blk p))) q .ivec =
      ((m.putBlk q (D (m.blk p))).xorWord q v).xorWord (q + 8) (v + 8) := by
    rw [xorWords_apart _ _ _ h, xorIv]
    congr 2
    symm
    apply blk_congr
    intro a h1 h2
    exact putBlk_other _ _ _ _ (by omega)
  rw [e]

/-- The two words of a block decrypted in place, the IV outside it. -/
theorem cbcSameWords_apart (tmp : Block) (p v : Nat) (m : Mem) (h : p + 16 ≤ v ∨ v + 16 ≤ p) :
    cbcSameWordIv tmp p v (cbcSameWordIv tmp p v m 0) 1 = (m.putBlk p (tmp ^^^ m.blk v)).putBlk v (m.blk p) := by
  funext a
  by_cases hv : v ≤ a ∧ a < v + 16
  · obtain ⟨i, rfl⟩ : ∃ i, a = v + i := ⟨a - v, by omega⟩
    rw [putBlk_same _ _ _ i (by omega)]
    simp only [cbcSameWordIv, Mem.blk, Vector.getElem_ofFn]
    by_cases h8 : i < 8
    · rw [if_neg (by omega), if_neg (by omega), if_pos (by omega), Nat.add_sub_cancel_left]
    · rw [if_pos (by omega), if_neg (by omega), if_neg (by omega), Nat.add_sub_cancel_left]
  · rw [putBlk_other _ v _ _ (by omega)]
    by_cases hp : p ≤ a ∧ a < p + 16
    · obtain ⟨i, rfl⟩ : ∃ i, a = p + i := ⟨a - p, by omega⟩
      have hi : i < 16 := by omega
      rw [putBlk_same _ _ _ i hi, Vec.getElem_xor]
      simp only [cbcSameWordIv, Mem.blk, Vector.getElem_ofFn, Nat.add_sub_cancel_left]
      have ht : tmp.toList.getD i 0 = tmp[i] := by
        rw [List.getD_eq_getElem?_getD, List.getElem?_eq_getElem (by simp; omega)]
        simp
      by_cases h8 : i < 8
      · rw [if_neg (by omega), if_neg (by omega), if_neg (by omega), if_pos (by omega), ht]
      · rw [if_neg (by omega), if_pos (by omega), if_neg (by omega), if_neg (by omega), ht]
    · rw [putBlk_other _ p _ _ (by omega)]
      simp only [cbcSameWordIv]
      rw [if_neg (by omega), if_neg (by omega), if_neg (by omega), if_neg (by omega)]

theorem placed_putBlk_hidden (m : Mem) (v q : Nat) (c y : Block) (l : List Byte) :
    (placed (m.putBlk v c) q l).putBlk v y = (placed m q l).putBlk v y := by
  funext a
  unfold Mem.putBlk placed
  by_cases h : v ≤ a ∧ a < v + 16
  · rw [dif_pos h, dif_pos h]
  · simp only [dif_neg h]

theorem cbcDecLoopSameIv_eq (D : Block → Block) (v : Nat) (n : Nat) : ∀ (p : Nat) (m : Mem),
    (p + 16 * n ≤ v ∨ v + 16 ≤ p) →
    cbcDecLoopSameIv D v n p m =
      (placedBlocks m p (Spec.cbcDecrypt D (m.blk v) (blocksAt m p n))).putBlk v ((blocksAt m p n).getLastD (m.blk v)) := by
  induction n with
  | zero =>
    intro p m _
    simp only [cbcDecLoopSameIv, blocksAt, List.range_zero, List.map_nil, Spec.cbcDecrypt, placedBlocks_nil, List.getLastD_nil]
    funext a
    by_cases hv : v ≤ a ∧ a < v + 16
    · obtain ⟨i, rfl⟩ : ∃ i, a = v + i := ⟨a - v, by omega⟩
      rw [putBlk_same _ _ _ i (by omega)]
      simp [Mem.blk]
    · rw [putBlk_other _ v _ _ (by omega)]
  | succ n ih =>
    intro p m h
    have hb : blocksAt ((m.putBlk p (D (m.blk p) ^^^ m.blk v)).putBlk v (m.blk p)) (p + 16) n = blocksAt m (p + 16) n := by
      apply blocksAt_congr
      intro a h1 h2
      rw [putBlk_other _ _ _ _ (by omega), putBlk_other _ _ _ _ (by omega)]
    simp only [cbcDecLoopSameIv]
    rw [cbcSameWords_apart _ _ _ _ (by omega), ih _ _ (by omega), hb, blk_putBlk, blocksAt_succ, Spec.cbcDecrypt,
      ← placedBlocks_cons, List.getLastD_cons, placedBlocks, placed_putBlk_hidden]
    rfl

/-- The pieces of `cbcDecryptIv` for whole blocks. -/
theorem cbcDecryptIv_blocks (D : Block → Block) (m : Mem) (p q v n maxOlen : Nat) (hn : 16 * n < 2 ^ 31) (hcap : 16 * n ≤ maxOlen) :
    cbcDecryptIv D m p q v (16 * n) maxOlen =
      if p = q then some (1, cbcDecLoopSameIv D v n p m)
      else ((cbcDecLoopIv D n p q v m).2.cpy16 v (cbcDecLoopIv D n p q v m).1).map fun m => (1, m) := by
  rw [cbcDecryptIv, if_neg (by omega), cbcCounts_small hn]
  simp only [Nat.mul_div_cancel_left _ (show 0 < 16 by omega), Nat.mul_mod_right, cbcDecTailIv, if_true]
  split <;> rfl

/-- Where `iv` points after the loop. -/
theorem cbcDecLoopIv_ptr (D : Block → Block) (n : Nat) : ∀ (p q a : Nat) (m : Mem),
    (cbcDecLoopIv D (n + 1) p q a m).1 = p + 16 * n := by
  induction n with
  | zero => intro p q a m; rfl
  | succ n ih => intro p q a m; rw [cbcDecLoopIv, ih]; omega

/-- C127 (decryption): input and output as in C84. In place, let the IV be outside the text; otherwise let it be outside the first
output block, and not overlap the last ciphertext block partly. Then the CBC plaintext is placed at the output and the last
ciphertext block at the IV, in this order. -/
theorem C127_decrypt (D : Block → Block) (m : Mem) (p q v n maxOlen : Nat) (hn : 16 * (n + 1) < 2 ^ 31)
    (hcap : 16 * (n + 1) ≤ maxOlen) (hpq : q = p ∨ q + 16 * min (n + 1) 2 ≤ p ∨ p + 16 * (n + 1) ≤ q)
    (hv : if p = q then p + 16 * (n + 1) ≤ v ∨ v + 16 ≤ p
      else (q + 16 ≤ v ∨ v + 16 ≤ q) ∧ (v = p + 16 * n ∨ v + 16 ≤ p + 16 * n ∨ p + 16 * n + 16 ≤ v)) :
    cbcDecryptIv D m p q v (16 * (n + 1)) maxOlen =
      some (1, (placedBlocks m q (Spec.cbcDecrypt D (m.blk v) (blocksAt m p (n + 1)))).putBlk v (m.blk (p + 16 * n))) := by
  have hlast : (blocksAt m p (n + 1)).getLastD (m.blk v) = m.blk (p + 16 * n) := by
    rw [getLastD_blocksAt, if_neg (by omega), Nat.add_sub_cancel]
  rw [cbcDecryptIv_blocks D m p q v (n + 1) maxOlen hn hcap]
  by_cases h : p = q
  · subst h
    rw [if_pos rfl] at hv
    rw [if_pos rfl, cbcDecLoopSameIv_eq D v (n + 1) p m hv, hlast]
  · rw [if_neg h] at hv
    have h84 := C84_overlap_ok D m p q (n + 1) maxOlen (m.blk v) hn hcap hpq
    rw [cbcDecryptMem_blocks D m p q (n + 1) maxOlen (m.blk v) hn hcap, if_neg h, cbcDecLoopIv_apart D n p q v m hv.1] at h84
    have h1 := congrArg (fun x => x.2.1) h84
    have h2 := congrArg (fun x => x.2.2) h84
    simp only [ivBlk] at h1 h2
    rw [if_neg h, Mem.cpy16, cbcDecLoopIv_ptr, if_pos (by omega), Option.map_some, h1]
    rw [cbcDecLoopIv_ptr, h1, hlast] at h2
    rw [h2]

/-- The IV in front of a ciphertext of two blocks, decrypted in place. -/
example (m : Mem) : cbcDecryptIv id m 116 116 100 32 32 =
    some (1, (placedBlocks m 116 (Spec.cbcDecrypt id (m.blk 100) (blocksAt m 116 2))).putBlk 100 (m.blk 132)) :=
  C127_decrypt id m 116 116 100 1 32 (by decide) (by decide) (by decide) (by decide)

/-- The IV in front of a ciphertext of two blocks, the output elsewhere. -/
example (m : Mem) : cbcDecryptIv id m 116 200 100 32 32 =
    some (1, (placedBlocks m 200 (Spec.cbcDecrypt id (m.blk 100) (blocksAt m 116 2))).putBlk 100 (m.blk 132)) :=
  C127_decrypt id m 116 200 100 1 32 (by decide) (by decide) (by decide) (by decide)

theorem blocksAt_placedBlocks (l : List Block) : ∀ (m : Mem) (q : Nat), blocksAt (placedBlocks m q l) q l.length = l := by
  induction l with
  | nil => intro m q; rfl
  | cons b l ih =>
    intro m q
    rw [List.length_cons, blocksAt_succ, ← placedBlocks_cons, ih]
    congr 1
    rw [← blk_putBlk m q b]
    apply blk_congr
    intro a h1 h2
    rw [blk_putBlk]
    exact placed_below _ _ _ _ (by omega)

/-- The first block of a CBC plaintext determines the IV. -/
theorem specCbcDecrypt_iv (D : Block → Block) (iv iv' c : Block) (cs : List Block) :
    Spec.cbcDecrypt D iv (c :: cs) = Spec.cbcDecrypt D iv' (c :: cs) ↔ iv = iv' := by
  rw [Spec.cbcDecrypt, Spec.cbcDecrypt]
  constructor
  · intro h
    injection h with h _
    apply Vector.ext
    intro i hi
    have := congrArg (fun x : Block => x[i]) h
    simp only [Vec.getElem_xor] at this
    have h2 := congrArg (fun x => (D c)[i] ^^^ x) this
    simpa [← BitVec.xor_assoc] using h2
  · intro h; rw [h]

/-- C127 (a stored message): the IV in front of the ciphertext, the output elsewhere. The first decryption gives the plaintext, but
it overwrites the stored IV: a second decryption of the same memory gives the plaintext for the last ciphertext block as IV, which is
the same only if that block happens to be the IV. -/
theorem C127_stored_message (D : Block → Block) (m : Mem) (q v n maxOlen : Nat) (hn : 16 * (n + 1) < 2 ^ 31)
    (hcap : 16 * (n + 1) ≤ maxOlen) (hq : q + 16 * (n + 1) ≤ v ∨ v + 16 + 16 * (n + 1) ≤ q) :
    ∃ m1 m2, cbcDecryptIv D m (v + 16) q v (16 * (n + 1)) maxOlen = some (1, m1) ∧
      cbcDecryptIv D m1 (v + 16) q v (16 * (n + 1)) maxOlen = some (1, m2) ∧
      blocksAt m1 q (n + 1) = Spec.cbcDecrypt D (m.blk v) (blocksAt m (v + 16) (n + 1)) ∧
      blocksAt m2 q (n + 1) = Spec.cbcDecrypt D (m.blk (v + 16 + 16 * n)) (blocksAt m (v + 16) (n + 1)) ∧
      (blocksAt m2 q (n + 1) = blocksAt m1 q (n + 1) ↔ m.blk (v + 16 + 16 * n) = m.blk v) := by
  have key : ∀ m : Mem, ∃ m1, cbcDecryptIv D m (v + 16) q v (16 * (n + 1)) maxOlen = some (1, m1) ∧
      blocksAt m1 q (n + 1) = Spec.cbcDecrypt D (m.blk v) (blocksAt m (v + 16) (n + 1)) ∧
      blocksAt m1 (v + 16) (n + 1) = blocksAt m (v + 16) (n + 1) ∧ m1.blk v = m.blk (v + 16 + 16 * n) := by
    intro m
    refine ⟨_, C127_decrypt D m (v + 16) q v n maxOlen hn hcap (by omega) ?_, ?_, ?_, ?_⟩
    · rw [if_neg (by omega)]; omega
    · have hl := blocksAt_placedBlocks (Spec.cbcDecrypt D (m.blk v) (blocksAt m (v + 16) (n + 1))) m q
      rw [length_specCbcDecrypt, length_blocksAt] at hl
      conv => rhs; rw [← hl]
      apply blocksAt_congr
      intro a h1 h2
      exact putBlk_other _ _ _ _ (by omega)
    · apply blocksAt_congr
      intro a h1 h2
      rw [putBlk_other _ _ _ _ (by omega)]
      apply placed_below
      simp only [length_fromBlocks, length_specCbcDecrypt, length_blocksAt]
      omega
    · exact blk_putBlk _ _ _
  obtain ⟨m1, e1, b1, c1, v1⟩ := key m
  obtain ⟨m2, e2, b2, _, _⟩ := key m1
  rw [c1, v1] at b2
  refine ⟨m1, m2, e1, e2, b1, b2, ?_⟩
  rw [b1, b2, blocksAt_succ]
  exact specCbcDecrypt_iv _ _ _ _ _

/-- A message of two blocks decrypted twice: the second time the first plaintext block is wrong. -/
example : ∃ (m m1 m2 : Mem), cbcDecryptIv id m 116 200 100 32 32 = some (1, m1) ∧
    cbcDecryptIv id m1 116 200 100 32 32 = some (1, m2) ∧ blocksAt m2 200 2 ≠ blocksAt m1 200 2 := by
  obtain ⟨m1, m2, e1, e2, _, _, h⟩ := C127_stored_message id (fun a => BitVec.ofNat 8 a) 200 100 1 32 (by decide) (by decide) (by decide)
  exact ⟨_, m1, m2, e1, e2, fun hc => absurd (h.1 hc) (by decide)⟩

/-- One iteration whose output block is the IV. -/
theorem cbcDecLoopIv_self (D : Block → Block) (n p v : Nat) (m : Mem) :
    cbcDecLoopIv D (n + 1) p v v m = cbcDecLoopIv D n (p + 16) (v + 16) p (m.putBlk v zeroBlock) := by
  rw [cbcDecLoopIv, xorWords_self, putBlk_putBlk]

theorem putBlk_placedBlocks_cons (m : Mem) (v : Nat) (x y : Block) (l : List Block) :
    (placedBlocks m v (x :: l)).putBlk v y = placedBlocks m v (y :: l) := by
  rw [← placedBlocks_cons, ← placedBlocks_cons, placedBlocks, placed_putBlk_hidden, placedBlocks]
  funext a
  unfold Mem.putBlk placed
  by_cases h : v ≤ a ∧ a < v + 16
  · rw [dif_pos h, if_neg (by omega)]
    simp only [dif_pos h]
  · rw [dif_neg h]
    simp only [dif_neg h]

/-- C127 (output over the IV): success is returned, but the first plaintext block is lost; the last ciphertext block is in its place. -/
theorem C127_output_over_iv (D : Block → Block) (m : Mem) (p v n maxOlen : Nat) (hn : 16 * (n + 1) < 2 ^ 31)
    (hcap : 16 * (n + 1) ≤ maxOlen) (hpq : v + 16 * min (n + 1) 2 ≤ p ∨ p + 16 * (n + 1) ≤ v) :
    cbcDecryptIv D m p v v (16 * (n + 1)) maxOlen =
      some (1, placedBlocks m v (m.blk (p + 16 * n) :: (Spec.cbcDecrypt D (m.blk v) (blocksAt m p (n + 1))).tail)) := by
  have hb1 : (m.putBlk v zeroBlock).blk p = m.blk p := by
    apply blk_congr
    intro a h1 h2
    exact putBlk_other _ _ _ _ (by omega)
  have hb2 : blocksAt (m.putBlk v zeroBlock) (p + 16) n = blocksAt m (p + 16) n := by
    apply blocksAt_congr
    intro a h1 h2
    exact putBlk_other _ _ _ _ (by omega)
  have hl := cbcDecLoopMem_ok D zeroBlock n (p + 16) (v + 16) (.at p) (m.putBlk v zeroBlock)
    (by intro p' e; injection e with e; omega) (by omega)
  rw [cbcDecLoopIv_eq, ivBlk, hb1, hb2, placedBlocks_cons] at hl
  have h2 := congrArg Prod.snd hl
  simp only at h2
  rw [cbcDecryptIv_blocks D m p v v (n + 1) maxOlen hn hcap, if_neg (by omega), Mem.cpy16, cbcDecLoopIv_ptr, if_pos (by omega),
    Option.map_some, cbcDecLoopIv_self, h2, putBlk_placedBlocks_cons, blocksAt_succ, Spec.cbcDecrypt, List.tail_cons]
  congr 4
  apply blk_congr
  intro a h1 h2
  apply placed_below
  simp only [length_fromBlocks, List.length_cons, length_specCbcDecrypt, length_blocksAt]
  omega

/-- A ciphertext of three blocks behind the output. -/
example (m : Mem) : cbcDecryptIv id m 200 100 100 48 48 =
    some (1, placedBlocks m 100 [m.blk 232, id (m.blk 216) ^^^ m.blk 200, id (m.blk 232) ^^^ m.blk 216]) :=
  C127_output_over_iv id m 200 100 2 48 (by decide) (by decide) (by decide)

/-- C127 (a stored message decrypted in its own memory): IV and ciphertext are behind each other and the output is to start where the
IV is. Success is returned; the memory holds the last ciphertext block and zeros, nothing of the plaintext. -/
theorem C127_output_from_iv (D : Block → Block) (m : Mem) (v n maxOlen : Nat) (hn : 16 * (n + 1) < 2 ^ 31)
    (hcap : 16 * (n + 1) ≤ maxOlen) :
    cbcDecryptIv D m (v + 16) v v (16 * (n + 1)) maxOlen =
      some (1, placedBlocks m v (m.blk (v + 16 + 16 * n) :: List.replicate n zeroBlock)) := by
  have hl := cbcDecLoopMem_before D zeroBlock n (v + 16) (m.putBlk v zeroBlock)
  rw [cbcDecLoopIv_eq, placedBlocks_cons] at hl
  have h2 := congrArg Prod.snd hl
  simp only at h2
  rw [cbcDecryptIv_blocks D m _ v v (n + 1) maxOlen hn hcap, if_neg (by omega), Mem.cpy16, cbcDecLoopIv_ptr, if_pos (by omega),
    Option.map_some, cbcDecLoopIv_self, h2, putBlk_placedBlocks_cons]
  congr 4
  apply blk_congr
  intro a h1 h2
  apply placed_below
  simp only [length_fromBlocks, List.length_cons, List.length_replicate]
  omega

/-- Three blocks. -/
example (m : Mem) : cbcDecryptIv id m 116 100 100 48 48 = some (1, placedBlocks m 100 [m.blk 148, zeroBlock, zeroBlock]) :=
  C127_output_from_iv id m 100 2 48 (by decide) (by decide)

/-! ### Encryption -/

/-- The IV that is used for the first block `a` if the output starts `d` bytes into the IV `iv`: the second word of the IV is read
after the first word of the output has been stored. -/
def overlapIv (d : Nat) (iv a : Block) : Block :=
  Vector.ofFn fun i => if h : 8 ≤ i.1 ∧ d ≤ i.1 ∧ i.1 < d + 8 then a[i.1 - d] ^^^ iv[i.1 - d] else iv[i.1]

theorem toList_getD_block (a : Block) (i : Nat) (h : i < 16) : a.toList.getD i 0 = a[i] := by
  rw [List.getD_eq_getElem?_getD, List.getElem?_eq_getElem (by simp; omega)]
  simp

/-- The two words of an output block. -/
theorem cbcEncWords_eq (a : Block) (q iv : Nat) (m : Mem) (h : q ≤ iv ∨ iv + 16 ≤ q) :
    cbcEncWordIv a q iv (cbcEncWordIv a q iv m 0) 1 = m.putBlk q (a ^^^ m.blk iv) := by
  funext x
  by_cases hx : q ≤ x ∧ x < q + 16
  · obtain ⟨i, rfl⟩ : ∃ i, x = q + i := ⟨x - q, by omega⟩
    have hi : i < 16 := by omega
    rw [putBlk_same _ _ _ i hi, Vec.getElem_xor]
    simp only [cbcEncWordIv, Mem.blk, Vector.getElem_ofFn, Nat.add_sub_cancel_left]
    rw [toList_getD_block a i hi]
    by_cases h8 : i < 8
    · rw [if_neg (by omega), if_pos (by omega)]
    · rw [if_pos (by omega), if_neg (by omega)]
  · rw [putBlk_other _ _ _ _ (by omega)]
    simp only [cbcEncWordIv]
    rw [if_neg (by omega), if_neg (by omega)]

theorem cbcEncWords_overlap (a : Block) (v d : Nat) (m : Mem) :
    cbcEncWordIv a (v + d) v (cbcEncWordIv a (v + d) v m 0) 1 = m.putBlk (v + d) (a ^^^ overlapIv d (m.blk v) a) := by
  funext x
  by_cases hx : v + d ≤ x ∧ x < v + d + 16
  · obtain ⟨i, rfl⟩ : ∃ i, x = v + d + i := ⟨x - (v + d), by omega⟩
    have hi : i < 16 := by omega
    rw [putBlk_same _ _ _ i hi, Vec.getElem_xor]
    simp only [cbcEncWordIv, overlapIv, Mem.blk, Vector.getElem_ofFn, Nat.add_sub_cancel_left]
    rw [toList_getD_block a i hi]
    by_cases h8 : i < 8
    · rw [if_neg (by omega), if_pos (by omega), dif_neg (by omega)]
    · rw [if_pos (by omega)]
      by_cases hd : d ≤ i ∧ i < d + 8
      · rw [if_pos (by omega), dif_pos (by omega), show v + i - (v + d) = i - d by omega, toList_getD_block a _ (by omega)]
      · rw [if_neg (by omega), dif_neg (by omega)]
  · rw [putBlk_other _ _ _ _ (by omega)]
    simp only [cbcEncWordIv]
    rw [if_neg (by omega), if_neg (by omega)]

theorem cbcEncLoopIv_eq (E : Block → Block) (ivec : Block) (afin : List Byte) (n : Nat) : ∀ (pos q iv : Nat) (m : Mem),
    (q ≤ iv ∨ iv + 16 ≤ q) → cbcEncLoopIv E afin n pos q iv m = cbcEncLoopMem E ivec afin n pos q (.at iv) m := by
  induction n with
  | zero => intro pos q iv m _; rfl
  | succ n ih =>
    intro pos q iv m h
    rw [cbcEncLoopIv, cbcEncLoopMem]
    congr 1
    funext a
    rw [cbcEncWords_eq a q iv m h]
    exact ih _ _ _ _ (by omega)

/-- The whole encryption in terms of the IV that the first block is xored with. -/
theorem cbcEncryptIv_of_first (E : Block → Block) (m : Mem) (p q v n maxOlen : Nat) (x : Block) (ps : List Block) (J : Block)
    (hps : fromBlocks (x :: ps) = Spec.pkcs7 (bytesAt m p n)) (hn : n < 2 ^ 31 - 16) (hcap : 16 * (ps.length + 1) ≤ maxOlen)
    (hJ : cbcEncWordIv x q v (cbcEncWordIv x q v m 0) 1 = m.putBlk q (x ^^^ J)) :
    cbcEncryptIv E false m p q v n maxOlen =
      some (1, some (BitVec.ofNat 64 (16 * (ps.length + 1))), placedBlocks m q (Spec.cbcEncrypt E J (x :: ps))) := by
  have hlen : (Spec.pkcs7 (bytesAt m p n)).length = 16 * (ps.length + 1) := by rw [← hps]; simp; omega
  rw [cbcEncryptIv]
  change (pkcs7Merge (bytesAt m p n)).bind _ = _
  rw [pkcs7Merge_eq_spec _ (by rw [length_bytesAt]; exact hn), Option.bind_some, hlen, if_neg (by omega),
    Nat.mul_div_cancel_left _ (by omega)]
  have h := cbcEncLoopMem_eq E J (x :: ps) [] q .ivec m (by intro p' e; exact absurd e (by simp))
  have hr : rdBlk (fromBlocks (x :: ps)) 0 = some x := by
    have := rdBlk_append [] x (fromBlocks ps)
    simpa [fromBlocks_cons] using this
  simp only [List.nil_append, List.length_nil, List.length_cons, hps] at h
  rw [hps] at hr
  rw [cbcEncLoopMem, hr, Option.bind_some, ivBlk] at h
  rw [cbcEncLoopIv, hr, Option.bind_some, hJ]
  simp only
  rw [cbcEncLoopIv_eq E J _ _ _ _ _ _ (by omega)]
  simp only at h
  rw [h]
  simp

/-- C127 (encryption): if the output does not start inside the IV, behind its first byte, the output is the CBC ciphertext, whatever
else overlaps; in particular the output may start at the IV. -/
theorem C127_encrypt (E : Block → Block) (m : Mem) (p q v n maxOlen : Nat) (x : Block) (ps : List Block)
    (hps : fromBlocks (x :: ps) = Spec.pkcs7 (bytesAt m p n)) (hn : n < 2 ^ 31 - 16) (hcap : 16 * (ps.length + 1) ≤ maxOlen)
    (hv : q ≤ v ∨ v + 16 ≤ q) :
    cbcEncryptIv E false m p q v n maxOlen =
      some (1, some (BitVec.ofNat 64 (16 * (ps.length + 1))), placedBlocks m q (Spec.cbcEncrypt E (m.blk v) (x :: ps))) :=
  cbcEncryptIv_of_first E m p q v n maxOlen x ps _ hps hn hcap (cbcEncWords_eq x q v m hv)

/-- C127 (output `d` bytes behind the start of the IV): the first block is xored with `overlapIv`, which differs from the IV only if
the output starts inside it. -/
theorem C127_encrypt_overlap (E : Block → Block) (m : Mem) (p v d n maxOlen : Nat) (x : Block) (ps : List Block)
    (hps : fromBlocks (x :: ps) = Spec.pkcs7 (bytesAt m p n)) (hn : n < 2 ^ 31 - 16) (hcap : 16 * (ps.length + 1) ≤ maxOlen) :
    cbcEncryptIv E false m p (v + d) v n maxOlen =
      some (1, some (BitVec.ofNat 64 (16 * (ps.length + 1))),
        placedBlocks m (v + d) (Spec.cbcEncrypt E (overlapIv d (m.blk v) x) (x :: ps))) :=
  cbcEncryptIv_of_first E m p (v + d) v n maxOlen x ps _ hps hn hcap (cbcEncWords_overlap x v d m)

theorem placedBlocks_first {m : Mem} {q : Nat} {x y : Block} {l l' : List Block}
    (h : placedBlocks m q (x :: l) = placedBlocks m q (y :: l')) : x = y := by
  have k : ∀ (x : Block) (l : List Block), (placedBlocks m q (x :: l)).blk q = x := by
    intro x l
    rw [← placedBlocks_cons, ← blk_putBlk m q x]
    apply blk_congr
    intro a h1 h2
    rw [blk_putBlk]
    exact placed_below _ _ _ _ (by omega)
  rw [← k x l, h, k]

/-- C127 (exactly when it is wrong): for an injective cipher, the ciphertext written inside the IV is the CBC ciphertext for the IV of
the caller exactly when the plaintext happens to satisfy the equation, byte by byte, that makes the overwritten IV bytes the same. -/
theorem C127_encrypt_overlap_iff (E : Block → Block) (hE : Function.Injective E) (m : Mem) (p v d n maxOlen : Nat) (x : Block)
    (ps : List Block) (hps : fromBlocks (x :: ps) = Spec.pkcs7 (bytesAt m p n)) (hn : n < 2 ^ 31 - 16)
    (hcap : 16 * (ps.length + 1) ≤ maxOlen) :
    cbcEncryptIv E false m p (v + d) v n maxOlen =
        some (1, some (BitVec.ofNat 64 (16 * (ps.length + 1))), placedBlocks m (v + d) (Spec.cbcEncrypt E (m.blk v) (x :: ps))) ↔
      ∀ i, 8 ≤ i → d ≤ i → i < d + 8 → (h : i < 16) → x[i - d] = m (v + (i - d)) ^^^ m (v + i) := by
  have hx : ∀ a b c : Byte, a ^^^ b = c ↔ a = b ^^^ c := by
    intro a b c
    constructor
    · rintro rfl
      rw [BitVec.xor_comm a b, ← BitVec.xor_assoc, BitVec.xor_self, BitVec.zero_xor]
    · rintro rfl
      rw [BitVec.xor_comm b c, BitVec.xor_assoc, BitVec.xor_self, BitVec.xor_zero]
  have hJ : overlapIv d (m.blk v) x = m.blk v ↔
      ∀ i, 8 ≤ i → d ≤ i → i < d + 8 → (h : i < 16) → x[i - d] = m (v + (i - d)) ^^^ m (v + i) := by
    constructor
    · intro h i h8 hd hd8 h16
      have := congrArg (fun b : Block => b[i]) h
      simp only [overlapIv, Mem.blk, Vector.getElem_ofFn] at this
      rw [dif_pos ⟨h8, hd, hd8⟩] at this
      exact (hx _ _ _).1 this
    · intro h
      apply Vector.ext
      intro i hi
      simp only [overlapIv, Mem.blk, Vector.getElem_ofFn]
      by_cases hc : 8 ≤ i ∧ d ≤ i ∧ i < d + 8
      · rw [dif_pos hc]
        exact (hx _ _ _).2 (h i hc.1 hc.2.1 hc.2.2 hi)
      · rw [dif_neg hc]
  rw [C127_encrypt_overlap E m p v d n maxOlen x ps hps hn hcap, ← hJ]
  constructor
  · intro h
    have h := congrArg (fun o => o.map fun r => r.2.2) h
    simp only [Option.map_some, Option.some.injEq, Spec.cbcEncrypt] at h
    have h := hE (placedBlocks_first h)
    apply Vector.ext
    intro i hi
    have := congrArg (fun b : Block => x[i] ^^^ b[i]) h
    simpa [Vec.getElem_xor, ← BitVec.xor_assoc] using this
  · intro h; rw [h]

/-- A message of 20 bytes, encrypted to 8 bytes behind the start of the IV: the second half of the first cipher input is the xor of
both halves of the first plaintext block and the first half of the IV. -/
example (m : Mem) : ∃ x ps, fromBlocks (x :: ps) = Spec.pkcs7 (bytesAt m 200 20) ∧ ps.length = 1 ∧
    cbcEncryptIv id false m 200 108 100 20 32 = some (1, some 32#64, placedBlocks m 108 (Spec.cbcEncrypt id (overlapIv 8 (m.blk 100) x) (x :: ps))) ∧
    ∀ i (h : i < 8), (overlapIv 8 (m.blk 100) x)[8 + i] = x[i] ^^^ m (100 + i) := by
  obtain ⟨ps, h⟩ := exists_blocks _ (length_pkcs7 (bytesAt m 200 20))
  have h2 : ps.length = 2 := by
    have := congrArg List.length h
    rw [length_fromBlocks] at this
    simp only [Spec.pkcs7, Spec.padCount, List.length_append, List.length_replicate, length_bytesAt] at this
    omega
  match ps, h, h2 with
  | x :: ps, h, h2 =>
    have h1 : ps.length = 1 := by simpa using h2
    refine ⟨x, ps, h, h1, ?_, ?_⟩
    · have := C127_encrypt_overlap id m 200 100 8 20 32 x ps h (by decide) (by omega)
      rw [h1] at this
      exact this
    · intro i hi
      simp only [overlapIv, Mem.blk, Vector.getElem_ofFn]
      rw [dif_pos (by omega)]
      simp

end Verif.Props
