import Verif.Props.Sm3

/-! Property C103: SM3 contexts after the digest, and what a digest gives away. -/
set_option autoImplicit false

namespace Verif.Props
open Verif Verif.Model Verif.Spec

/-- A context made by hand of a digest and a number of bits. -/
def sm3Resume (digest : List Byte) (bits : BitVec 64) : Sm3Ctx :=
  { st := Vector.ofFn fun i => hostC2l digest (4 * i.1), nl := bits.truncate 32, nh := (bits >>> 32).truncate 32,
    data := List.replicate 64 0, num := 0 }

theorem length_padWith (l : BitVec 64) (m : List Byte) : ∃ n, (sm3PadWith l m).length = 64 * n := by
  refine ⟨(m.length + 8) / 64 + 1, ?_⟩
  simp only [sm3PadWith, List.length_append, List.length_singleton, List.length_replicate, List.length_map, List.length_range]
  omega

/-- The padding, a function of the length of the message. -/
def sm3Glue (n : Nat) : List Byte :=
  [(0x80 : Byte)] ++ List.replicate ((119 - n % 64) % 64) (0 : Byte) ++
    (List.range 8).map fun i => (BitVec.ofNat 64 (8 * n) >>> (56 - 8 * i)).truncate 8

theorem pad_glue (m : List Byte) : sm3Pad m = m ++ sm3Glue m.length := by
  simp only [sm3Pad, sm3PadWith, sm3Glue, List.append_assoc]

theorem word_bytes (w : BitVec 32) :
    (w.extractLsb' 24 8 ++ w.extractLsb' 16 8) ++ (w.extractLsb' 8 8 ++ w.extractLsb' 0 8) = w := by
  ext i hi
  have : i < 8 ∨ 8 ≤ i ∧ i < 16 ∨ 16 ≤ i ∧ i < 24 ∨ 24 ≤ i := by omega
  rcases this with h | h | h | h <;> simp <;> grind

theorem resume_st (v : Oct) (bits : BitVec 64) : (sm3Resume v.bytes bits).st = phys 0 v := by
  rw [(phys_cases 0 v).1 (by decide)]
  show (Vector.ofFn fun i : Fin 8 => hostC2l v.bytes (4 * i.1)) = _
  ext1 i hi
  rw [Vector.getElem_ofFn, hostC2l, or4_eq_append]
  have hc : i = 0 ∨ i = 1 ∨ i = 2 ∨ i = 3 ∨ i = 4 ∨ i = 5 ∨ i = 6 ∨ i = 7 := by omega
  rcases hc with rfl | rfl | rfl | rfl | rfl | rfl | rfl | rfl
  · exact word_bytes v.a
  · exact word_bytes v.b
  · exact word_bytes v.c
  · exact word_bytes v.d
  · exact word_bytes v.e
  · exact word_bytes v.f
  · exact word_bytes v.g
  · exact word_bytes v.h

theorem halves (b : BitVec 64) : (((b >>> 32).truncate 32 : BitVec 32) ++ (b.truncate 32 : BitVec 32) : BitVec 64) = b := by
  ext i hi
  by_cases h : i < 32 <;> simp <;> grind

theorem resume_rep (m : List Byte) : Rep 0 (sm3Resume (Spec.sm3 m) (BitVec.ofNat 64 (8 * (sm3Pad m).length))) (sm3Pad m) := by
  obtain ⟨n, hn⟩ := length_padWith (BitVec.ofNat 64 (8 * m.length)) m
  refine ⟨⟨sm3Pad m, [], n, by simp, hn, by decide, ?_, rfl, rfl⟩, by simp [sm3Resume], ?_⟩
  · rw [Spec.sm3, resume_st]
  · show ((((BitVec.ofNat 64 (8 * (sm3Pad m).length)) >>> 32).truncate 32 : BitVec 32) ++
      ((BitVec.ofNat 64 (8 * (sm3Pad m).length)).truncate 32 : BitVec 32) : BitVec 64) = _
    rw [halves, show (0 : BitVec 64) = 0#64 from rfl, BitVec.zero_add]

/-- C103: the digest of a message and its length give the digest of that message, its padding and anything behind it. -/
theorem C103_extend (m x : List Byte) :
    sm3Final (sm3Update (sm3Resume (sm3Hash m) (BitVec.ofNat 64 (8 * (sm3Pad m).length))) x) = sm3Hash (sm3Pad m ++ x) := by
  rw [C28_sm3_standard, C28_sm3_standard]
  exact final_eq _ _ (update_rep 0 _ _ x (resume_rep m))

/-- C103: so a digest of a secret followed by a message is no authentication code: whoever knows it and the lengths has the
digest for a longer message. -/
theorem C103_forge : ∃ (glue : Nat → List Byte) (f : List Byte → Nat → List Byte → List Byte), ∀ key m x : List Byte,
    f (sm3Hash (key ++ m)) (key.length + m.length) x = sm3Hash (key ++ (m ++ glue (key.length + m.length) ++ x)) := by
  refine ⟨sm3Glue, fun d n x => sm3Final (sm3Update (sm3Resume d (BitVec.ofNat 64 (8 * (n + (sm3Glue n).length)))) x), ?_⟩
  intro key m x
  have h := C103_extend (key ++ m) x
  rw [pad_glue, List.length_append, List.length_append] at h
  show sm3Final (sm3Update (sm3Resume (sm3Hash (key ++ m)) (BitVec.ofNat 64 (8 * (key.length + m.length +
    (sm3Glue (key.length + m.length)).length)))) x) = _
  rw [h]
  simp only [List.append_assoc]

/-- C103: `final` does not reset the chaining value and the length. A second message hashed with the same context without
`init` gives the digest of padded first message and second message, except that the length in the padding is that of the two
messages without the first padding. -/
theorem C103_reuse (ms xs : List (List Byte)) :
    sm3Final (xs.foldl sm3Update (sm3FinalCtx (ms.foldl sm3Update sm3Init))) =
      ((split64 (sm3PadWith (BitVec.ofNat 64 (8 * (ms.flatten.length + xs.flatten.length))) (sm3Pad ms.flatten ++ xs.flatten))).foldl
        sm3CF sm3IV).bytes := by
  have h1 := updates_rep 0 ms sm3Init [] init_rep
  rw [List.nil_append] at h1
  generalize ms.foldl sm3Update sm3Init = c at h1
  generalize ms.flatten = m at h1
  have hc := h1.count
  rw [show (0 : BitVec 64) = 0#64 from rfl, BitVec.zero_add] at hc
  obtain ⟨n, hn⟩ := length_padWith (BitVec.ofNat 64 (8 * m.length)) m
  have h2 : Rep (BitVec.ofNat 64 (8 * m.length) - BitVec.ofNat 64 (8 * (sm3Pad m).length)) (sm3FinalCtx c) (sm3Pad m) := by
    refine ⟨⟨sm3Pad m, [], n, by simp, hn, by decide, ?_, rfl, rfl⟩, by simp [sm3FinalCtx], ?_⟩
    · show sm3FinalSt c = _
      rw [final_st 0 c m h1, hc]
      rfl
    · show (c.nh ++ c.nl : BitVec 64) = _
      rw [hc, BitVec.sub_add_cancel]
  have h3 := updates_rep _ xs _ _ h2
  rw [sm3Final, final_st _ _ _ h3, bytes_eq, h3.count]
  congr 4
  rw [List.length_append, Nat.mul_add, BitVec.ofNat_add, ← BitVec.add_assoc, BitVec.sub_add_cancel, ← BitVec.ofNat_add, ← Nat.mul_add]

/-- C103: this is not the digest of the second message, and not that of both. -/
theorem C103_reuse_wrong : sm3Final (sm3Update (sm3FinalCtx (sm3Update sm3Init [0x61])) [0x61]) ≠ sm3Hash [0x61] ∧
    sm3Final (sm3Update (sm3FinalCtx (sm3Update sm3Init [0x61])) [0x61]) ≠ sm3Hash [0x61, 0x61] := by
  have h := C103_reuse [[0x61]] [[0x61]]
  simp only [List.foldl_cons, List.foldl_nil] at h
  rw [h, C28_sm3_standard, C28_sm3_standard]
  decide +kernel

/-- C103: a block given to `sm3_transform` is hashed but not counted: the digest is that of the message with the block, but
for the length, if the message so far consists of whole blocks. -/
theorem C103_transform (ms xs : List (List Byte)) (d : List Byte) (hd : 64 ≤ d.length) (hm : 64 ∣ ms.flatten.length) :
    sm3Final (xs.foldl sm3Update (sm3Transform (ms.foldl sm3Update sm3Init) d)) =
      ((split64 (sm3PadWith (BitVec.ofNat 64 (8 * (ms.flatten.length + xs.flatten.length)))
        (ms.flatten ++ d.take 64 ++ xs.flatten))).foldl sm3CF sm3IV).bytes := by
  have h1 := updates_rep 0 ms sm3Init [] init_rep
  rw [List.nil_append] at h1
  generalize ms.foldl sm3Update sm3Init = c at h1
  generalize ms.flatten = m at h1 hm
  obtain ⟨⟨full, rest, n, e1, e2, e3, e4, e5, e6⟩, hl, hc⟩ := h1
  rw [show (0 : BitVec 64) = 0#64 from rfl, BitVec.zero_add] at hc
  have hr : rest = [] := by
    have : m.length = full.length + rest.length := by rw [e1, List.length_append]
    exact List.length_eq_zero_iff.mp (by omega)
  subst hr
  rw [List.append_nil] at e1
  subst e1
  have hdl : (d.take 64).length = 64 := by rw [List.length_take]; omega
  have h2 : Rep (-(BitVec.ofNat 64 512)) (sm3Transform c d) (m ++ d.take 64) := by
    refine ⟨⟨m ++ d.take 64, [], n + 1, by simp, by rw [List.length_append, hdl, e2]; omega, by decide, ?_, e5, e6⟩, hl, ?_⟩
    · show sm3Blocks c.st d 1 = _
      rw [e4, sm3Blocks_eq 1 _ d (by omega), split64_append _ n m e2, List.foldl_append]
    · show (c.nh ++ c.nl : BitVec 64) = _
      rw [hc, List.length_append, hdl, Nat.mul_add, BitVec.ofNat_add, BitVec.add_comm, BitVec.add_assoc, BitVec.add_right_neg,
        BitVec.add_zero]
  have h3 := updates_rep _ xs _ _ h2
  rw [sm3Final, final_st _ _ _ h3, bytes_eq, h3.count]
  congr 4
  rw [List.length_append, List.length_append, hdl, show 8 * (m.length + 64 + xs.flatten.length) =
    512 + 8 * (m.length + xs.flatten.length) by omega, BitVec.ofNat_add, ← BitVec.add_assoc, BitVec.add_left_neg, BitVec.zero_add]

/- A second message of two parts behind "abc". -/
example : sm3Final ([[0x61], [0x62, 0x63]].foldl sm3Update (sm3FinalCtx ([[0x61, 0x62, 0x63]].foldl sm3Update sm3Init))) =
    ((split64 (sm3PadWith (BitVec.ofNat 64 48) (sm3Pad [0x61, 0x62, 0x63] ++ [0x61, 0x62, 0x63]))).foldl sm3CF sm3IV).bytes :=
  C103_reuse [[0x61, 0x62, 0x63]] [[0x61], [0x62, 0x63]]

/- One block of 64 bytes through `update`, one through `transform`: the length in the padding is 512 bits. -/
example : sm3Final (sm3Transform (sm3Update sm3Init (List.replicate 64 1)) (List.replicate 64 2)) =
    ((split64 (sm3PadWith (BitVec.ofNat 64 512) (List.replicate 64 1 ++ List.replicate 64 2))).foldl sm3CF sm3IV).bytes := by
  simpa using C103_transform [List.replicate 64 1] [] (List.replicate 64 2) (by simp) (by simp)

end Verif.Props
