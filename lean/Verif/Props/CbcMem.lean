import Verif.Model.CbcMem
import Verif.Props.CbcLen
import Verif.Props.GcmMem

/-! Property C84: CBC encryption and decryption with overlapping buffers. -/
set_option autoImplicit false

namespace Verif.Props
open Verif Verif.Model

/-- The `n` blocks from address `p`. -/
def blocksAt (m : Mem) (p n : Nat) : List Block := (List.range n).map fun k => m.blk (p + 16 * k)

/-- Memory after the blocks `l` have been placed at `q`. -/
def placedBlocks (m : Mem) (q : Nat) (l : List Block) : Mem := placed m q (fromBlocks l)

theorem length_blocksAt (m : Mem) (p n : Nat) : (blocksAt m p n).length = n := by simp [blocksAt]

theorem blocksAt_succ (m : Mem) (p n : Nat) : blocksAt m p (n + 1) = m.blk p :: blocksAt m (p + 16) n := by
  simp only [blocksAt, List.range_succ_eq_map, List.map_cons, List.map_map, Nat.mul_zero, Nat.add_zero]
  congr 1
  apply List.map_congr_left
  intro k _
  simp only [Function.comp, Nat.succ_eq_add_one]
  congr 1
  omega

theorem blk_congr {m m' : Mem} {p : Nat} (h : ∀ a, p ≤ a → a < p + 16 → m' a = m a) : m'.blk p = m.blk p := by
  unfold Mem.blk
  apply Vector.ext
  intro i hi
  simp only [Vector.getElem_ofFn]
  exact h _ (by omega) (by omega)

theorem blocksAt_congr {m m' : Mem} {p n : Nat} (h : ∀ a, p ≤ a → a < p + 16 * n → m' a = m a) :
    blocksAt m' p n = blocksAt m p n := by
  unfold blocksAt
  apply List.map_congr_left
  intro k hk
  rw [List.mem_range] at hk
  apply blk_congr
  intro a h1 h2
  exact h a (by omega) (by omega)

theorem putBlk_same (m : Mem) (q : Nat) (b : Block) (i : Nat) (h : i < 16) : m.putBlk q b (q + i) = b[i] := by
  unfold Mem.putBlk
  rw [dif_pos (by omega)]
  congr 1
  omega

theorem putBlk_other (m : Mem) (q : Nat) (b : Block) (a : Nat) (h : a < q ∨ q + 16 ≤ a) : m.putBlk q b a = m a := by
  unfold Mem.putBlk
  rw [dif_neg (by omega)]

theorem blk_putBlk (m : Mem) (q : Nat) (b : Block) : (m.putBlk q b).blk q = b := by
  apply Vector.ext
  intro i hi
  simp only [Mem.blk, Vector.getElem_ofFn]
  exact putBlk_same m q b i hi

theorem putBlk_putBlk (m : Mem) (q : Nat) (a b : Block) : (m.putBlk q a).putBlk q b = m.putBlk q b := by
  funext x
  unfold Mem.putBlk
  split <;> rfl

theorem putBlk_eq_placed (m : Mem) (q : Nat) (b : Block) : m.putBlk q b = placed m q b.toList := by
  funext a
  unfold Mem.putBlk placed
  by_cases h : q ≤ a ∧ a < q + 16
  · rw [dif_pos h, if_pos (by simpa using h), List.getD_eq_getElem?_getD,
      List.getElem?_eq_getElem (by simp; omega)]
    simp
  · rw [dif_neg h, if_neg (by simpa using h)]

theorem placedBlocks_cons (m : Mem) (q : Nat) (b : Block) (l : List Block) :
    placedBlocks (m.putBlk q b) (q + 16) l = placedBlocks m q (b :: l) := by
  unfold placedBlocks
  rw [putBlk_eq_placed, fromBlocks_cons, ← placed_append]
  simp

theorem placedBlocks_nil (m : Mem) (q : Nat) : placedBlocks m q [] = m := placed_nil m q

/-- The two word xors on blocks that do not overlap. -/
theorem xorWords_apart (m : Mem) (q p : Nat) (h : q + 16 ≤ p ∨ p + 16 ≤ q) :
    (m.xorWord q p).xorWord (q + 8) (p + 8) = m.putBlk q (m.blk q ^^^ m.blk p) := by
  funext a
  by_cases ha : q ≤ a ∧ a < q + 16
  · obtain ⟨i, rfl⟩ : ∃ i, a = q + i := ⟨a - q, by omega⟩
    rw [putBlk_same _ _ _ i (by omega), Vec.getElem_xor]
    simp only [Mem.blk, Vector.getElem_ofFn, Mem.xorWord]
    by_cases h8 : i < 8
    · rw [if_neg (by omega), if_pos (by omega)]
      congr 2; omega
    · rw [if_pos (by omega), if_neg (by omega), if_neg (by omega)]
      congr 2; omega
  · rw [putBlk_other _ _ _ _ (by omega)]
    simp only [Mem.xorWord]
    rw [if_neg (by omega), if_neg (by omega)]

/-- The two word xors of a block with itself. -/
theorem xorWords_self (m : Mem) (q : Nat) : (m.xorWord q q).xorWord (q + 8) (q + 8) = m.putBlk q zeroBlock := by
  funext a
  by_cases ha : q ≤ a ∧ a < q + 16
  · obtain ⟨i, rfl⟩ : ∃ i, a = q + i := ⟨a - q, by omega⟩
    rw [putBlk_same _ _ _ i (by omega)]
    simp only [Mem.xorWord, zeroBlock]
    by_cases h8 : i < 8
    · rw [if_neg (by omega), if_pos (by omega)]
      simp
    · rw [if_pos (by omega), if_neg (by omega), if_neg (by omega)]
      rw [show q + 8 + (q + i - (q + 8)) = q + i by omega]
      simp
  · rw [putBlk_other _ _ _ _ (by omega)]
    simp only [Mem.xorWord]
    rw [if_neg (by omega), if_neg (by omega)]

/-! ### The loop -/

/-- One iteration for which the 16 bytes `iv` points to are outside the output block. -/
theorem xorIv_apart (ivec : Block) (m : Mem) (q : Nat) (x : Block) (iv : IvPtr)
    (h : ∀ p', iv = .at p' → q + 16 ≤ p' ∨ p' + 16 ≤ q) :
    xorIv ivec (m.putBlk q x) q iv = m.putBlk q (x ^^^ ivBlk ivec m iv) := by
  cases iv with
  | ivec => rw [xorIv, blk_putBlk, putBlk_putBlk]; rfl
  | «at» p' =>
    rw [xorIv, xorWords_apart _ _ _ (h p' rfl), blk_putBlk, putBlk_putBlk, ivBlk]
    congr 2
    apply blk_congr
    intro a h1 h2
    apply putBlk_other
    have := h p' rfl
    omega

/-- Where `iv` points after `n` iterations. -/
def ivAfter (p n : Nat) (iv : IvPtr) : IvPtr := if n = 0 then iv else .at (p + 16 * (n - 1))

theorem ivAfter_succ (p n : Nat) (iv : IvPtr) : ivAfter (p + 16) n (.at p) = ivAfter p (n + 1) iv := by
  unfold ivAfter
  rw [if_neg (c := n + 1 = 0) (by omega)]
  by_cases h : n = 0
  · subst h; simp
  · rw [if_neg h]; congr 1; omega

theorem cbcDecLoopMem_ok (D : Block → Block) (ivec : Block) (n : Nat) : ∀ (p q : Nat) (iv : IvPtr) (m : Mem),
    (∀ p', iv = .at p' → p' + 16 = p) →
    (n = 0 ∨ q + 32 ≤ p ∨ p + 16 * n ≤ q ∨ (n = 1 ∧ iv = .ivec ∧ q + 16 ≤ p)) →
    cbcDecLoopMem D ivec n p q iv m =
      (ivAfter p n iv, placedBlocks m q (Spec.cbcDecrypt D (ivBlk ivec m iv) (blocksAt m p n))) := by
  induction n with
  | zero => intro p q iv m _ _; rw [cbcDecLoopMem]; simp [blocksAt, Spec.cbcDecrypt, placedBlocks_nil, ivAfter]
  | succ n ih =>
    intro p q iv m hiv hc
    have hs := xorIv_apart ivec m q (D (m.blk p)) iv (by
      intro p' e
      have := hiv p' e
      rcases hc with hc | hc | hc | ⟨_, hc, _⟩
      · omega
      · omega
      · omega
      · rw [hc] at e; exact absurd e (by simp))
    have hc' : q + 16 ≤ p ∨ p + 16 * (n + 1) ≤ q := by omega
    have hb1 : (m.putBlk q (D (m.blk p) ^^^ ivBlk ivec m iv)).blk p = m.blk p := by
      apply blk_congr
      intro a h1 h2
      exact putBlk_other _ _ _ _ (by omega)
    have hb2 : blocksAt (m.putBlk q (D (m.blk p) ^^^ ivBlk ivec m iv)) (p + 16) n = blocksAt m (p + 16) n := by
      apply blocksAt_congr
      intro a h1 h2
      exact putBlk_other _ _ _ _ (by omega)
    rw [cbcDecLoopMem, hs, ih _ _ _ _ (by intro p' e; injection e with e; omega) (by omega), hb2, ivBlk, hb1, blocksAt_succ,
      Spec.cbcDecrypt, ← placedBlocks_cons, ivAfter_succ p n iv]

theorem cbcDecLoopSame_eq (D : Block → Block) (n : Nat) : ∀ (p : Nat) (iv : Block) (m : Mem),
    cbcDecLoopSame D n p iv m =
      ((blocksAt m p n).getLastD iv, placedBlocks m p (Spec.cbcDecrypt D iv (blocksAt m p n))) := by
  induction n with
  | zero => intro p iv m; simp [cbcDecLoopSame, blocksAt, Spec.cbcDecrypt, placedBlocks_nil]
  | succ n ih =>
    intro p iv m
    have hb : blocksAt (m.putBlk p (D (m.blk p) ^^^ iv)) (p + 16) n = blocksAt m (p + 16) n := by
      apply blocksAt_congr
      intro a h1 h2
      exact putBlk_other _ _ _ _ (by omega)
    rw [cbcDecLoopSame, ih, hb, blocksAt_succ, Spec.cbcDecrypt, ← placedBlocks_cons, List.getLastD_cons]

/-- The pieces of `cbcDecryptMem` for whole blocks. -/
theorem cbcDecryptMem_blocks (D : Block → Block) (m : Mem) (p q n maxOlen : Nat) (ivec : Block) (hn : 16 * n < 2 ^ 31)
    (hcap : 16 * n ≤ maxOlen) :
    cbcDecryptMem D m p q (16 * n) maxOlen ivec =
      if p = q then (1, (cbcDecLoopSame D n p ivec m).2, (cbcDecLoopSame D n p ivec m).1)
      else (1, (cbcDecLoopMem D ivec n p q .ivec m).2,
        ivBlk ivec (cbcDecLoopMem D ivec n p q .ivec m).2 (cbcDecLoopMem D ivec n p q .ivec m).1) := by
  rw [cbcDecryptMem, if_neg (by omega), cbcCounts_small hn]
  simp only [Nat.mul_div_cancel_left _ (show 0 < 16 by omega), Nat.mul_mod_right, cbcDecTailMem, if_true]
  split <;> rfl

theorem getLastD_blocksAt (m : Mem) (p n : Nat) (iv : Block) :
    (blocksAt m p n).getLastD iv = if n = 0 then iv else m.blk (p + 16 * (n - 1)) := by
  cases n with
  | zero => simp [blocksAt]
  | succ n => simp [blocksAt, List.range_succ]

/-- C84: if the output is the input, starts behind its end, or starts at least 32 bytes before it (16 bytes for a single
block), decryption leaves the CBC plaintext of the ciphertext blocks that were in memory and the last of them as IV, and
changes nothing else. -/
theorem C84_overlap_ok (D : Block → Block) (m : Mem) (p q n maxOlen : Nat) (iv : Block) (hn : 16 * n < 2 ^ 31)
    (hcap : 16 * n ≤ maxOlen) (hpq : q = p ∨ q + 16 * min n 2 ≤ p ∨ p + 16 * n ≤ q) :
    cbcDecryptMem D m p q (16 * n) maxOlen iv =
      (1, placedBlocks m q (Spec.cbcDecrypt D iv (blocksAt m p n)), (blocksAt m p n).getLastD iv) := by
  rw [cbcDecryptMem_blocks D m p q n maxOlen iv hn hcap]
  by_cases h : p = q
  · subst h
    rw [if_pos rfl, cbcDecLoopSame_eq]
  · rw [if_neg h, cbcDecLoopMem_ok D iv n p q .ivec m (by intro p' e; exact absurd e (by simp))
      (by simp only [true_and]; omega)]
    congr 2
    rw [getLastD_blocksAt, ivAfter]
    by_cases h0 : n = 0
    · rw [if_pos h0, if_pos h0]; rfl
    · rw [if_neg h0, if_neg h0]
      apply blk_congr
      intro a h1 h2
      apply placed_below
      simp only [length_fromBlocks, length_specCbcDecrypt, length_blocksAt]
      omega

/-- The output 32 bytes before a ciphertext of three blocks, which it overlaps. -/
example (m : Mem) (iv : Block) : cbcDecryptMem id m 132 100 (16 * 3) 48 iv =
    (1, placedBlocks m 100 (Spec.cbcDecrypt id iv (blocksAt m 132 3)), (blocksAt m 132 3).getLastD iv) :=
  C84_overlap_ok id m 132 100 3 48 iv (by decide) (by decide) (by decide)

theorem cbcDecLoopMem_before (D : Block → Block) (ivec : Block) (n : Nat) : ∀ (q : Nat) (m : Mem),
    cbcDecLoopMem D ivec n (q + 16) q (.at q) m =
      (ivAfter (q + 16) n (.at q), placedBlocks m q (List.replicate n zeroBlock)) := by
  induction n with
  | zero => intro q m; simp [cbcDecLoopMem, placedBlocks_nil, ivAfter]
  | succ n ih =>
    intro q m
    rw [cbcDecLoopMem, xorIv, xorWords_self, putBlk_putBlk, ih, List.replicate_succ, placedBlocks_cons, ivAfter_succ _ _ (.at q)]

/-- C84 (16 bytes before): if the output starts one block before the input, every output block after the first is zero, whatever
the ciphertext; success is returned. -/
theorem C84_one_block_before (D : Block → Block) (m : Mem) (q n maxOlen : Nat) (iv : Block) (hn : 16 * (n + 1) < 2 ^ 31)
    (hcap : 16 * (n + 1) ≤ maxOlen) :
    cbcDecryptMem D m (q + 16) q (16 * (n + 1)) maxOlen iv =
      (1, placedBlocks m q ((D (m.blk (q + 16)) ^^^ iv) :: List.replicate n zeroBlock), m.blk (q + 16 + 16 * n)) := by
  rw [cbcDecryptMem_blocks D m _ q (n + 1) maxOlen iv hn hcap, if_neg (by omega), cbcDecLoopMem,
    xorIv_apart _ _ _ _ _ (by intro p' e; exact absurd e (by simp)), ivBlk, cbcDecLoopMem_before, placedBlocks_cons,
    ivAfter_succ _ _ .ivec]
  congr 2
  rw [ivAfter, if_neg (by omega), ivBlk, Nat.add_sub_cancel]
  apply blk_congr
  intro a h1 h2
  apply placed_below
  simp only [length_fromBlocks, List.length_cons, List.length_replicate]
  omega

/-- Three blocks. -/
example (m : Mem) (iv : Block) : cbcDecryptMem id m 116 100 48 48 iv =
    (1, placedBlocks m 100 [id (m.blk 116) ^^^ iv, zeroBlock, zeroBlock], m.blk 148) :=
  C84_one_block_before id m 100 2 48 iv (by decide) (by decide)

/-- What decryption computes if every block it stores is its next input block. -/
def feedback (D : Block → Block) : Nat → Block → Block → List Block
  | 0, _, _ => []
  | n + 1, v, c => (D c ^^^ v) :: feedback D n c (D c ^^^ v)

theorem cbcDecLoopMem_after (D : Block → Block) (ivec : Block) (n : Nat) : ∀ (p : Nat) (iv : IvPtr) (m : Mem),
    (∀ p', iv = .at p' → p' + 16 = p) →
    (cbcDecLoopMem D ivec n p (p + 16) iv m).2 = placedBlocks m (p + 16) (feedback D n (ivBlk ivec m iv) (m.blk p)) := by
  induction n with
  | zero => intro p iv m _; simp [cbcDecLoopMem, placedBlocks_nil, feedback]
  | succ n ih =>
    intro p iv m hiv
    have hb1 : (m.putBlk (p + 16) (D (m.blk p) ^^^ ivBlk ivec m iv)).blk p = m.blk p := by
      apply blk_congr
      intro a h1 h2
      exact putBlk_other _ _ _ _ (by omega)
    rw [cbcDecLoopMem, xorIv_apart _ _ _ _ _ (by intro p' e; have := hiv p' e; omega),
      ih _ _ _ (by intro p' e; injection e with e; omega), feedback, ← placedBlocks_cons, blk_putBlk, ivBlk, hb1]

/-- C84 (16 bytes after): if the output starts one block after the input, the decryption result is a function of the first
ciphertext block and the IV alone; success is returned. -/
theorem C84_one_block_after (D : Block → Block) (m : Mem) (p n maxOlen : Nat) (iv : Block) (hn : 16 * n < 2 ^ 31)
    (hcap : 16 * n ≤ maxOlen) :
    (cbcDecryptMem D m p (p + 16) (16 * n) maxOlen iv).1 = 1 ∧
    (cbcDecryptMem D m p (p + 16) (16 * n) maxOlen iv).2.1 = placedBlocks m (p + 16) (feedback D n iv (m.blk p)) := by
  rw [cbcDecryptMem_blocks D m _ _ n maxOlen iv hn hcap, if_neg (by omega)]
  exact ⟨rfl, cbcDecLoopMem_after D iv n p .ivec m (by intro p' e; exact absurd e (by simp))⟩

/-- Three blocks. -/
example (D : Block → Block) (m : Mem) (iv : Block) : (cbcDecryptMem D m 100 116 48 48 iv).2.1 =
    placedBlocks m 116 (feedback D 3 iv (m.blk 100)) :=
  (C84_one_block_after D m 100 3 48 iv (by decide) (by decide)).2

/-! ### Encryption -/

theorem cbcEncLoopMem_eq (E : Block → Block) (ivec : Block) (ps : List Block) : ∀ (pre : List Byte) (q : Nat) (iv : IvPtr) (m : Mem),
    (∀ p', iv = .at p' → p' + 16 = q) →
    cbcEncLoopMem E ivec (pre ++ fromBlocks ps) ps.length pre.length q iv m =
      some (placedBlocks m q (Spec.cbcEncrypt E (ivBlk ivec m iv) ps)) := by
  induction ps with
  | nil => intro pre q iv m _; simp [cbcEncLoopMem, Spec.cbcEncrypt, placedBlocks_nil]
  | cons x ps ih =>
    intro pre q iv m _
    rw [List.length_cons, cbcEncLoopMem, fromBlocks_cons, rdBlk_append]
    simp only [Option.bind_some, blk_putBlk, putBlk_putBlk, Spec.cbcEncrypt]
    have h := ih (pre ++ x.toList) (q + 16) (.at q) (m.putBlk q (E (x ^^^ ivBlk ivec m iv))) (by intro p' e; injection e with e; omega)
    rw [show ivBlk ivec (m.putBlk q (E (x ^^^ ivBlk ivec m iv))) (.at q) = E (x ^^^ ivBlk ivec m iv) from blk_putBlk _ _ _] at h
    simp only [List.length_append, Vector.length_toList, List.append_assoc] at h
    rw [h, placedBlocks_cons]

/-- C84 (encryption): whatever the overlap, encryption leaves the CBC ciphertext of the message that was in memory. -/
theorem C84_encrypt_any_overlap (E : Block → Block) (m : Mem) (p q n maxOlen : Nat) (iv : Block) (ps : List Block)
    (hps : fromBlocks ps = Spec.pkcs7 (bytesAt m p n)) (hn : n < 2 ^ 31 - 16) (hcap : 16 * ps.length ≤ maxOlen) :
    cbcEncryptMem E false m p q n maxOlen iv =
      some (1, some (BitVec.ofNat 64 (16 * ps.length)), placedBlocks m q (Spec.cbcEncrypt E iv ps)) := by
  have hlen : (Spec.pkcs7 (bytesAt m p n)).length = 16 * ps.length := by rw [← hps]; simp
  rw [cbcEncryptMem]
  change (pkcs7Merge (bytesAt m p n)).bind _ = _
  rw [pkcs7Merge_eq_spec _ (by rw [length_bytesAt]; exact hn), Option.bind_some, hlen, if_neg (by omega),
    Nat.mul_div_cancel_left _ (by omega)]
  have h := cbcEncLoopMem_eq E iv ps [] q .ivec m (by intro p' e; exact absurd e (by simp))
  simp only [List.nil_append, List.length_nil, hps] at h
  rw [h]
  simp [ivBlk]

/-- In place and with every distance, a message of 32 bytes. -/
example (m : Mem) (iv : Block) (d : Nat) : ∃ ps, fromBlocks ps = Spec.pkcs7 (bytesAt m 100 32) ∧ ps.length = 2 ∧
    cbcEncryptMem id false m 100 (100 + d) 32 32 iv = some (1, some 32#64, placedBlocks m (100 + d) (Spec.cbcEncrypt id iv ps)) := by
  obtain ⟨ps, h⟩ := exists_blocks _ (length_pkcs7 (bytesAt m 100 32))
  have h2 : ps.length = 2 := by
    have := congrArg List.length h
    rw [length_fromBlocks] at this
    simp only [Spec.pkcs7, Spec.padCount, List.length_append, List.length_replicate, length_bytesAt] at this
    omega
  have := C84_encrypt_any_overlap id m 100 (100 + d) 32 32 iv ps h (by decide) (by omega)
  rw [h2] at this
  exact ⟨ps, h, h2, this⟩

end Verif.Props
