import Verif.Props.Cbc

/-! Property C83: lengths that CBC decryption does not handle as a caller expects (lengths from `2^31`, lengths that
are not multiples of 16, length 0). -/
set_option autoImplicit false

namespace Verif.Props
open Verif Verif.Model

theorem cbcCounts_wrap {n : Nat} (h : n % 2 ^ 32 < 2 ^ 31) : cbcCounts n = cbcCounts (n % 2 ^ 32) := by
  rw [cbcCounts_small h, cbcCounts, if_pos h]

theorem cbcCounts_neg {n : Nat} (h : 2 ^ 31 ≤ n % 2 ^ 32) : cbcCounts n = (0, 16) := by
  rw [cbcCounts, if_neg (by omega)]

/-- C83 (low 32 bits): a length of at least `2^32` whose low 32 bits are `k < 2^31` decrypts as many bytes as the length
`k` does, with success; nothing behind them is written. -/
theorem C83_low_bits (D : Block → Block) (inp out : List Byte) (inlen maxOlen : Nat) (iv : Block)
    (h : inlen % 2 ^ 32 < 2 ^ 31) (hcap : inlen ≤ maxOlen) :
    cbcDecrypt D inp inlen out maxOlen iv = cbcDecrypt D inp (inlen % 2 ^ 32) out (inlen % 2 ^ 32) iv ∧
    cbcDecryptInPlace D out inlen maxOlen iv = cbcDecryptInPlace D out (inlen % 2 ^ 32) (inlen % 2 ^ 32) iv := by
  unfold cbcDecrypt cbcDecryptInPlace
  rw [if_neg (by omega), if_neg (Nat.lt_irrefl _), if_neg (by omega), if_neg (Nat.lt_irrefl _), cbcCounts_wrap h]
  exact ⟨rfl, rfl⟩

/-- C83 (low 32 bits, blocks): with `j` blocks in the low 32 bits the first `j` blocks are decrypted and the output behind them is
what it was. -/
theorem C83_low_bits_blocks (D : Block → Block) (cs : List Block) (rest out : List Byte) (q maxOlen : Nat) (iv : Block)
    (hlen : 16 * cs.length < 2 ^ 31) (hcap : q * 2 ^ 32 + 16 * cs.length ≤ maxOlen) (hout : maxOlen ≤ out.length) :
    cbcDecrypt D (fromBlocks cs ++ rest) (q * 2 ^ 32 + 16 * cs.length) out maxOlen iv = some
      { ret := 1, out := fromBlocks (Spec.cbcDecrypt D iv cs) ++ out.drop (16 * cs.length),
        useOlen := none, ivec := cs.getLastD iv } := by
  have hm : (q * 2 ^ 32 + 16 * cs.length) % 2 ^ 32 = 16 * cs.length := by omega
  rw [(C83_low_bits D _ out _ maxOlen iv (by omega) hcap).1, hm]
  exact (cbcDecrypt_aligned D cs rest out (16 * cs.length) iv hlen (Nat.le_refl _) (by omega))

/-- Two blocks of `4 GiB + 32` bytes are decrypted. -/
example (iv : Block) (rest out : List Byte) (ho : out.length = 2 ^ 32 + 32) :
    cbcDecrypt id (fromBlocks [zeroBlock, iv] ++ rest) (1 * 2 ^ 32 + 16 * 2) out (2 ^ 32 + 32) iv = some
      { ret := 1, out := fromBlocks [zeroBlock ^^^ iv, iv ^^^ zeroBlock] ++ out.drop 32, useOlen := none, ivec := iv } :=
  C83_low_bits_blocks id [zeroBlock, iv] rest out 1 (2 ^ 32 + 32) iv (by simp) (by simp) (by omega)

example : ∃ out : List Byte, out.length = 2 ^ 32 + 32 := ⟨List.replicate _ 5, List.length_replicate⟩

/-! ### Tail -/

theorem cbcDecTailBytes_eq (tmp c : Block) (pos left : Nat) : ∀ (n : Nat) (pre old post : List Byte) (iv : Block),
    n + left ≤ 16 → old.length = left → pre.length = pos + n →
    ∃ iv', cbcDecTailBytes tmp c pos left n iv (pre ++ (old ++ post)) =
      some (iv', pre ++ (((tmp ^^^ iv).toList.drop n).take left ++ post)) := by
  induction left with
  | zero =>
    intro n pre old post iv _ ho _
    have : old = [] := List.length_eq_zero_iff.mp ho
    subst this
    exact ⟨iv, by simp [cbcDecTailBytes]⟩
  | succ left ih =>
    intro n pre old post iv hn ho hp
    obtain ⟨o, old, rfl⟩ : ∃ o l, old = o :: l := by
      cases old with
      | nil => simp at ho
      | cons o l => exact ⟨o, l, rfl⟩
    have hn' : n < 16 := by omega
    obtain ⟨iv', h⟩ := ih (n + 1) (pre ++ [tmp[n] ^^^ iv[n]]) old post (iv.set n c[n]) (by omega)
      (by simpa using ho) (by simp; omega)
    refine ⟨iv', ?_⟩
    have hw : wrByte (pre ++ (o :: old ++ post)) (pos + n) (tmp[n] ^^^ iv[n]) =
        some (pre ++ [tmp[n] ^^^ iv[n]] ++ (old ++ post)) := by
      unfold wrByte
      rw [if_pos (by simp; omega), ← hp]
      simp
    have hd : ((tmp ^^^ iv.set n c[n]).toList.drop (n + 1)) = ((tmp ^^^ iv).toList.drop (n + 1)) := by
      apply List.ext_getElem
      · simp
      · intro i h1 h2
        simp only [List.getElem_drop, Vector.getElem_toList, Vec.getElem_xor]
        rw [Vector.getElem_set_ne _ _ (by omega)]
    have hs : ((tmp ^^^ iv).toList.drop n).take (left + 1) =
        (tmp[n] ^^^ iv[n]) :: ((tmp ^^^ iv).toList.drop (n + 1)).take left := by
      rw [List.drop_eq_getElem_cons (by simpa using hn')]
      simp [Vec.getElem_xor]
    rw [cbcDecTailBytes]
    simp only [dif_pos hn', hw, Option.bind_eq_bind, Option.bind_some]
    rw [h, hd, hs]
    simp

/-- The tail of `t` bytes (`1 ≤ t ≤ 16`) with a readable block: `t` bytes of the decrypted block are stored. -/
theorem cbcDecTail_eq (D : Block → Block) (inp pre old post : List Byte) (c : Block) (iv : Block) (ht : 0 < old.length)
    (ht' : old.length ≤ 16) (hr : rdBlk inp pre.length = some c) :
    cbcDecTail D inp pre.length old.length iv (pre ++ (old ++ post)) =
      some (c, pre ++ ((D c ^^^ iv).toList.take old.length ++ post)) := by
  obtain ⟨iv', h⟩ := cbcDecTailBytes_eq (D c) c pre.length old.length 0 pre old post iv (by omega) rfl rfl
  rw [cbcDecTail, if_neg (by omega), hr]
  simp only [Option.bind_eq_bind, Option.bind_some, h, List.drop_zero]

/-- C83 (negative length): a length whose low 32 bits are at least `2^31` decrypts exactly one block, with success; the rest of
the output is what it was. -/
theorem C83_negative (D : Block → Block) (c : Block) (rest out : List Byte) (inlen maxOlen : Nat) (iv : Block)
    (h : 2 ^ 31 ≤ inlen % 2 ^ 32) (hcap : inlen ≤ maxOlen) (hout : maxOlen ≤ out.length) :
    cbcDecrypt D (c.toList ++ rest) inlen out maxOlen iv = some
      { ret := 1, out := (D c ^^^ iv).toList ++ out.drop 16, useOlen := none, ivec := c } ∧
    cbcDecryptInPlace D (c.toList ++ rest) inlen maxOlen iv = some
      { ret := 1, out := (D c ^^^ iv).toList ++ rest, useOlen := none, ivec := c } := by
  have h16 : (16 : Nat) ≤ inlen := by omega
  have hr : rdBlk (c.toList ++ rest) 0 = some c := by
    have := rdBlk_append [] c rest
    simpa using this
  have hl : (out.take 16).length = 16 := by simp; omega
  constructor
  · have ht := cbcDecTail_eq D (c.toList ++ rest) [] (out.take 16) (out.drop 16) c iv (by omega) (by omega) hr
    rw [hl, List.nil_append, List.nil_append, List.take_append_drop, List.take_of_length_le (by simp)] at ht
    rw [cbcDecrypt, if_neg (by omega), cbcCounts_neg h]
    simp only [cbcDecLoop, Option.bind_eq_bind, Option.bind_some, Nat.zero_mul]
    rw [show (0 : Nat) = ([] : List Byte).length from rfl, ht]
    rfl
  · have ht := cbcDecTail_eq D (c.toList ++ rest) [] c.toList rest c iv (by simp) (by simp) hr
    rw [Vector.length_toList, List.nil_append, List.nil_append, List.take_of_length_le (by simp)] at ht
    rw [cbcDecryptInPlace, if_neg (by omega), cbcCounts_neg h]
    simp only [cbcDecLoopInPlace, Option.bind_eq_bind, Option.bind_some, Nat.zero_mul]
    rw [show (0 : Nat) = ([] : List Byte).length from rfl, ht]
    rfl

/-- A ciphertext of 2 GiB. -/
example (out rest : List Byte) (ho : out.length = 2 ^ 31) :
    cbcDecrypt id (zeroBlock.toList ++ rest) (2 ^ 31) out (2 ^ 31) zeroBlock = some
      { ret := 1, out := (id zeroBlock ^^^ zeroBlock).toList ++ out.drop 16, useOlen := none, ivec := zeroBlock } :=
  (C83_negative id zeroBlock rest out (2 ^ 31) (2 ^ 31) zeroBlock (by decide) (Nat.le_refl _) (by omega)).1

/-- The number the wrapper subtracts from the length when the last byte is `b`. -/
def padOf (b : Byte) : Nat := if 16 < b.toNat then 0 else b.toNat

/-- C83 (reported length): for lengths between `2^31` and `2^32` the wrapper's `*use_olen` is computed from the old byte
`out[inlen-1]`, which decryption has not written; unless that makes the length fit an `int`, a number near `2^64` is reported. -/
theorem C83_reported (D : Block → Block) (c : Block) (rest out : List Byte) (inlen : Nat) (iv : Block) (b : Byte)
    (h : 2 ^ 31 ≤ inlen) (h' : inlen < 2 ^ 32) (hout : inlen ≤ out.length) (hb : out[inlen - 1]? = some b) :
    ∃ r k, cbcDecryptWrapper D (c.toList ++ rest) inlen out inlen iv = some r ∧ r.ret = 1 ∧
      r.out = (D c ^^^ iv).toList ++ out.drop 16 ∧ r.ivec = c ∧ r.useOlen = some k ∧
      k.toNat = if inlen - padOf b < 2 ^ 31 then inlen - padOf b else 2 ^ 64 - 2 ^ 32 + (inlen - padOf b) := by
  have hd := (C83_negative D c rest out inlen inlen iv (by omega) (Nat.le_refl _) hout).1
  have hl : ((D c ^^^ iv).toList ++ out.drop 16).length = out.length := by simp; omega
  have hne : ((D c ^^^ iv).toList ++ out.drop 16).take inlen ≠ [] := by
    rw [← List.length_pos_iff, List.length_take, hl]; omega
  have hlast : (((D c ^^^ iv).toList ++ out.drop 16).take inlen).getLast hne = b := by
    rw [List.getLast_eq_getElem]
    apply Option.some.inj
    rw [← hb, ← List.getElem?_eq_getElem, List.length_take, hl, Nat.min_eq_left hout, List.getElem?_take, if_pos (by omega),
      List.getElem?_append_right (by simp; omega), List.getElem?_drop]
    congr 1
    simp; omega
  have hs : separateLength (((D c ^^^ iv).toList ++ out.drop 16).take inlen) =
      some ((BitVec.ofNat 32 inlen - BitVec.ofNat 32 (padOf b)).signExtend 64) := by
    rw [separateLength, dif_pos hne, hlast, List.length_take, hl, Nat.min_eq_left hout]
    rfl
  have hp : padOf b ≤ 16 := by unfold padOf; split <;> omega
  refine ⟨{ ret := 1, out := (D c ^^^ iv).toList ++ out.drop 16, useOlen := some ((BitVec.ofNat 32 inlen - BitVec.ofNat 32 (padOf b)).signExtend 64), ivec := c },
    (BitVec.ofNat 32 inlen - BitVec.ofNat 32 (padOf b)).signExtend 64, ?_, rfl, rfl, rfl, rfl, ?_⟩
  · rw [cbcDecryptWrapper, hd]
    simp only [Option.bind_eq_bind, Option.bind_some]
    rw [if_neg (by decide), hl, if_neg (by omega), hs]
    rfl
  · have h32 : (BitVec.ofNat 32 inlen - BitVec.ofNat 32 (padOf b)) = BitVec.ofNat 32 (inlen - padOf b) := by
      apply BitVec.eq_of_toNat_eq
      simp only [BitVec.toNat_sub, BitVec.toNat_ofNat]
      omega
    rw [h32, BitVec.toNat_signExtend, BitVec.msb_eq_decide]
    simp only [BitVec.toNat_setWidth, BitVec.toNat_ofNat]
    by_cases hc : inlen - padOf b < 2 ^ 31
    · rw [if_pos hc, if_neg (by simp; omega)]
      omega
    · rw [if_neg hc, if_pos (by simp; omega)]
      omega

/-- 2 GiB + 64 bytes with an output that ends in a byte 1. -/
example (out rest : List Byte) (ho : out.length = 2 ^ 31 + 64) (hb : out[2 ^ 31 + 64 - 1]? = some 1) :
    ∃ r k, cbcDecryptWrapper id (zeroBlock.toList ++ rest) (2 ^ 31 + 64) out (2 ^ 31 + 64) zeroBlock = some r ∧
      r.useOlen = some k ∧ k.toNat = 2 ^ 64 - 2 ^ 31 + 63 := by
  obtain ⟨r, k, h1, _, _, _, h2, h3⟩ := C83_reported id zeroBlock rest out (2 ^ 31 + 64) zeroBlock 1 (by decide) (by decide)
    (by omega) hb
  exact ⟨r, k, h1, h2, by rw [h3]; decide⟩

/-- C83 (partial last block): an unaligned length decrypts the first bytes of the last block; the 16 - t bytes behind the announced
input are read and become part of the updated IV. -/
theorem C83_partial_block (D : Block → Block) (cs : List Block) (c : Block) (rest out : List Byte) (t maxOlen : Nat) (iv : Block)
    (ht : 0 < t) (ht' : t < 16) (hlen : 16 * cs.length + t < 2 ^ 31) (hcap : 16 * cs.length + t ≤ maxOlen)
    (hout : maxOlen ≤ out.length) :
    cbcDecrypt D (fromBlocks (cs ++ [c]) ++ rest) (16 * cs.length + t) out maxOlen iv = some
      { ret := 1,
        out := (fromBlocks (Spec.cbcDecrypt D iv (cs ++ [c]))).take (16 * cs.length + t) ++ out.drop (16 * cs.length + t),
        useOlen := none, ivec := c } := by
  have h1 := cbcDecLoop_eq D cs [] (c.toList ++ rest) [] (out.take (16 * cs.length)) (out.drop (16 * cs.length)) iv rfl
    (by simp; omega)
  simp only [List.nil_append, List.length_nil, List.take_append_drop] at h1
  have hin : fromBlocks (cs ++ [c]) ++ rest = fromBlocks cs ++ (c.toList ++ rest) := by simp [fromBlocks]
  have hl : (fromBlocks (Spec.cbcDecrypt D iv cs)).length = 16 * cs.length := by simp [length_specCbcDecrypt]
  have hr : rdBlk (fromBlocks cs ++ (c.toList ++ rest)) (fromBlocks (Spec.cbcDecrypt D iv cs)).length = some c := by
    rw [hl, ← length_fromBlocks]; exact rdBlk_append _ _ _
  have hol : ((out.drop (16 * cs.length)).take t).length = t := by simp; omega
  have htl := cbcDecTail_eq D (fromBlocks cs ++ (c.toList ++ rest)) (fromBlocks (Spec.cbcDecrypt D iv cs))
    ((out.drop (16 * cs.length)).take t) ((out.drop (16 * cs.length)).drop t) c (cs.getLastD iv) (by omega) (by omega) hr
  rw [hol, List.take_append_drop, hl] at htl
  rw [cbcDecrypt, if_neg (by omega), cbcCounts_small hlen, hin]
  simp only [show (16 * cs.length + t) / 16 = cs.length by omega, show (16 * cs.length + t) % 16 = t by omega, h1,
    Option.bind_eq_bind, Option.bind_some]
  rw [Nat.mul_comm cs.length 16, htl]
  simp only [Option.bind_some]
  congr 2
  rw [specCbcDecrypt_append]
  simp only [Spec.cbcDecrypt, fromBlocks, List.flatMap_append, List.flatMap_cons, List.flatMap_nil, List.append_nil]
  change _ = List.take _ (fromBlocks _ ++ _) ++ _
  rw [List.take_append, hl, List.take_of_length_le (l := fromBlocks _) (by omega), show 16 * cs.length + t - 16 * cs.length = t by omega,
    List.drop_drop, List.append_assoc]
  rfl

/-- 20 bytes of a 32-byte ciphertext. -/
example (c d iv : Block) : cbcDecrypt id (fromBlocks ([c] ++ [d]) ++ []) (16 * 1 + 4) (List.replicate 20 9) 20 iv = some
    { ret := 1, out := (fromBlocks (Spec.cbcDecrypt id iv ([c] ++ [d]))).take (16 * 1 + 4) ++ (List.replicate 20 9).drop (16 * 1 + 4),
      useOlen := none, ivec := d } :=
  C83_partial_block id [c] d [] (List.replicate 20 9) 4 20 iv (by decide) (by decide) (by simp) (by simp) (by simp)

/-- C83 (empty ciphertext): the mode function accepts it and changes nothing; the wrappers then read the byte before the output. -/
theorem C83_empty (D : Block → Block) (inp out : List Byte) (maxOlen : Nat) (iv : Block) :
    cbcDecrypt D inp 0 out maxOlen iv = some { ret := 1, out := out, useOlen := none, ivec := iv } ∧
    cbcDecryptWrapper D inp 0 out maxOlen iv = none := by
  have h : cbcDecrypt D inp 0 out maxOlen iv = some { ret := 1, out := out, useOlen := none, ivec := iv } := by
    rw [cbcDecrypt, if_neg (by omega), cbcCounts_small (by omega)]
    simp [cbcDecLoop, cbcDecTail]
  refine ⟨h, ?_⟩
  rw [cbcDecryptWrapper, h]
  simp [separateLength]

end Verif.Props
