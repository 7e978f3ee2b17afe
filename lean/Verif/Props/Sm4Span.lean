import Verif.Props.WbExtract
import Mathlib.Data.List.Nodup

/-! The differences of the S-box of SM4 in any direction span all bytes (used for C125). -/
set_option autoImplicit false

namespace Verif.Props
open Verif Spec Model

/-- One step of Gaussian elimination on the numbers `vs`, with the pivots so far. -/
def elimStep (s : List Nat × List Nat) (i : Nat) : List Nat × List Nat :=
  match s.2.find? (fun v => v.testBit i) with
  | none => s
  | some p =>
    let f := fun v : Nat => if v.testBit i then v ^^^ p else v
    (p :: s.1.map f, s.2.map f)

/-- Whether the numbers span the numbers below 256. -/
def spansAll (vs : List Nat) : Bool :=
  let s := (List.range 8).foldl elimStep ([], vs)
  (List.range 8).all fun i => s.1.contains (2 ^ i)

theorem elim_sound (B : Byte → Byte) (hB : ∀ x y, B (x ^^^ y) = B x ^^^ B y) (s : List Nat × List Nat) (i : Nat)
    (h : (∀ v ∈ s.1, B (BitVec.ofNat 8 v) = 0) ∧ ∀ v ∈ s.2, B (BitVec.ofNat 8 v) = 0) :
    (∀ v ∈ (elimStep s i).1, B (BitVec.ofNat 8 v) = 0) ∧ ∀ v ∈ (elimStep s i).2, B (BitVec.ofNat 8 v) = 0 := by
  unfold elimStep
  split
  · exact h
  · rename_i p hp
    have hp0 := h.2 p (List.mem_of_find?_eq_some hp)
    have hf : ∀ v, B (BitVec.ofNat 8 v) = 0 → B (BitVec.ofNat 8 (if v.testBit i then v ^^^ p else v)) = 0 := by
      intro v hv
      split
      · rw [BitVec.ofNat_xor, hB, hv, hp0]; rfl
      · exact hv
    simp only [List.mem_cons, List.mem_map]
    refine ⟨?_, ?_⟩
    · rintro v (rfl | ⟨w, hw, rfl⟩)
      · exact hp0
      · exact hf w (h.1 w hw)
    · rintro v ⟨w, hw, rfl⟩
      exact hf w (h.2 w hw)

theorem spansAll_sound (B : Byte → Byte) (hB : ∀ x y, B (x ^^^ y) = B x ^^^ B y) (vs : List Nat)
    (hv : ∀ v ∈ vs, B (BitVec.ofNat 8 v) = 0) (h : spansAll vs = true) (v : Byte) : B v = 0 := by
  have hs : ∀ (l : List Nat) (s : List Nat × List Nat), ((∀ v ∈ s.1, B (BitVec.ofNat 8 v) = 0) ∧ ∀ v ∈ s.2, B (BitVec.ofNat 8 v) = 0) →
      (∀ v ∈ (l.foldl elimStep s).1, B (BitVec.ofNat 8 v) = 0) ∧ ∀ v ∈ (l.foldl elimStep s).2, B (BitVec.ofNat 8 v) = 0 := by
    intro l
    induction l with
    | nil => exact fun s h => h
    | cons i l ih => exact fun s h => ih _ (elim_sound B hB s i h)
  have h8 := hs (List.range 8) ([], vs) ⟨by simp, hv⟩
  have hu : ∀ i, i < 8 → B (BitVec.ofNat 8 (2 ^ i)) = 0 := by
    intro i hi
    have hc := List.all_eq_true.1 h i (List.mem_range.2 hi)
    rw [List.contains_iff_mem] at hc
    exact h8.1 _ hc
  refine additive_ext B (fun _ => 0) hB (fun _ _ => rfl) (fun i => ?_) v
  have e : ∀ i : Fin 8, ∃ k : Fin 8, idRow 8 i.1 = BitVec.ofNat 8 (2 ^ k.1) := by decide +kernel
  obtain ⟨k, hk⟩ := e i
  rw [hk, hu k.1 k.2]

/-- The table of the S-box as one number, the entry for 0 in the lowest byte. -/
def sboxNum : Nat :=
  0x4839cbd73e5fee79204ddc3aec7df01884c66ec509f1b9657e77960c4a976989b0b4e5b812d0742dbd7bcda58831c10ad85a101f415cd9117fbcddbb92af1b8d515b6c6d726aff032f8efdde4537dbd56f4e530dab2329c060ca66822ee2f61de3b18cf5303293ad551a349ba45daee0a11561f9cef2f7a3b538c740d28abfea9ec8c4a0e702364c5227d39f574600d4877821013b7c2225a2d158635e0e241e359d56704b0febf88bda6471b2816b68a84f85e6193c5983ba1773f3fca70747a63f8f75fa94df8095e808c9a91cb3e462accfed430b54337a98ef91f450429c99068649261344aac304be2a769a672b052cfb28c214b616b73de1ccfee990d6

def sboxAt (t : Nat) : Nat := (sboxNum >>> (8 * t)) % 256

theorem sboxAt_eq (x : Byte) : BitVec.ofNat 8 (sboxAt x.toNat) = sm4Sbox x := by
  have h : ∀ x : BitVec 8, BitVec.ofNat 8 (sboxAt x.toNat) = sm4Sbox x := by decide +kernel
  exact h x

/-- The differences of the S-box in any direction span all bytes. -/
theorem sbox_span (d : Byte) (hd : d ≠ 0) (B : Byte → Byte) (hB : ∀ x y, B (x ^^^ y) = B x ^^^ B y)
    (h : ∀ t, B ((sm4Sbox t ^^^ sm4Sbox (t ^^^ d)) ^^^ (sm4Sbox 0 ^^^ sm4Sbox d)) = 0) (v : Byte) : B v = 0 := by
  have hc : ((List.range 255).all fun d => spansAll ([148, 74, 73, 92, 120, 78, 84, 142, 187, 20, 230, 46, 41, 104].map fun t =>
      (sboxAt t ^^^ sboxAt (t ^^^ (d + 1))) ^^^ (sboxAt 0 ^^^ sboxAt (d + 1)))) = true := by
    decide +kernel
  have hd0 : d.toNat ≠ 0 := fun e => hd (BitVec.eq_of_toNat_eq e)
  have hd1 := List.all_eq_true.1 hc (d.toNat - 1) (List.mem_range.2 (by have := d.isLt; omega))
  rw [show d.toNat - 1 + 1 = d.toNat by omega] at hd1
  refine spansAll_sound B hB _ ?_ hd1 v
  intro w hw
  obtain ⟨t, ht, rfl⟩ := List.mem_map.1 hw
  have ht8 : t < 256 := by
    have : ∀ t ∈ [148, 74, 73, 92, 120, 78, 84, 142, 187, 20, 230, 46, 41, 104], t < 256 := by decide
    exact this t ht
  have e1 := sboxAt_eq (BitVec.ofNat 8 t)
  have e2 := sboxAt_eq (BitVec.ofNat 8 t ^^^ d)
  have e3 := sboxAt_eq (0 : Byte)
  rw [BitVec.toNat_xor, BitVec.toNat_ofNat, Nat.mod_eq_of_lt ht8] at e2
  rw [BitVec.toNat_ofNat, Nat.mod_eq_of_lt ht8] at e1
  rw [show (0 : Byte).toNat = 0 from rfl] at e3
  rw [BitVec.ofNat_xor, BitVec.ofNat_xor, BitVec.ofNat_xor, e1, e2, e3, sboxAt_eq d]
  exact h _

/-- Counts the different values of a list of numbers; the first component has the bits of those seen. -/
def tally (s : Nat × Nat) (v : Nat) : Nat × Nat := if s.1.testBit v then s else (s.1 ||| 1 <<< v, s.2 + 1)

theorem tally_spec (l : List Nat) (s : Nat × Nat) (L : List Nat) (hn : L.Nodup) (hl : L.length = s.2) (hb : ∀ y, s.1.testBit y = true ↔ y ∈ L) :
    ∃ L' : List Nat, L'.Nodup ∧ L'.length = (l.foldl tally s).2 ∧ ∀ y ∈ L', y ∈ L ∨ y ∈ l := by
  induction l generalizing s L with
  | nil => exact ⟨L, hn, hl, fun y hy => .inl hy⟩
  | cons v l ih =>
    rw [List.foldl_cons]
    by_cases hv : s.1.testBit v = true
    · rw [show tally s v = s from if_pos hv]
      obtain ⟨L', h1, h2, h3⟩ := ih s L hn hl hb
      exact ⟨L', h1, h2, fun y hy => (h3 y hy).imp_right (List.mem_cons_of_mem _)⟩
    · rw [show tally s v = (s.1 ||| 1 <<< v, s.2 + 1) from if_neg hv]
      obtain ⟨L', h1, h2, h3⟩ := ih (s.1 ||| 1 <<< v, s.2 + 1) (v :: L) (List.nodup_cons.2 ⟨fun h => hv ((hb v).2 h), hn⟩) (by simp [hl]) (by
        intro y
        rw [Nat.testBit_or, Bool.or_eq_true, hb, List.mem_cons, Nat.one_shiftLeft, Nat.testBit_two_pow]
        simp only [decide_eq_true_eq]
        exact ⟨fun h => h.symm.imp_left Eq.symm, fun h => h.symm.imp_right Eq.symm⟩)
      refine ⟨L', h1, h2, fun y hy => ?_⟩
      rcases h3 y hy with h | h
      · rcases List.mem_cons.1 h with rfl | h
        · exact .inr (List.mem_cons_self ..)
        · exact .inl h
      · exact .inr (List.mem_cons_of_mem _ h)

theorem sboxAt_lt (t : Nat) : sboxAt t < 256 := Nat.mod_lt _ (by decide)

/-- Whether there are 127 different differences in each of the directions `a + 1` to `a + 51`. -/
def manyFrom (a : Nat) : Bool :=
  (List.range 51).all fun d => decide (127 ≤ (((List.range 256).map fun t => sboxAt t ^^^ sboxAt (t ^^^ (a + d + 1))).foldl tally (0, 0)).2)

theorem many0 : manyFrom 0 = true := by decide +kernel
theorem many1 : manyFrom 51 = true := by decide +kernel
theorem many2 : manyFrom 102 = true := by decide +kernel
theorem many3 : manyFrom 153 = true := by decide +kernel
theorem many4 : manyFrom 204 = true := by decide +kernel

theorem many_dir (d : Nat) (h0 : d ≠ 0) (h : d < 256) :
    127 ≤ (((List.range 256).map fun t => sboxAt t ^^^ sboxAt (t ^^^ d)).foldl tally (0, 0)).2 := by
  have key : ∀ a, manyFrom a = true → a < d → d ≤ a + 51 →
      127 ≤ (((List.range 256).map fun t => sboxAt t ^^^ sboxAt (t ^^^ d)).foldl tally (0, 0)).2 := by
    intro a ha h1 h2
    have := List.all_eq_true.1 ha (d - a - 1) (List.mem_range.2 (by omega))
    rwa [show a + (d - a - 1) + 1 = d by omega, decide_eq_true_eq] at this
  rcases Nat.lt_or_ge 51 d with h1 | h1
  · rcases Nat.lt_or_ge 102 d with h2 | h2
    · rcases Nat.lt_or_ge 153 d with h3 | h3
      · rcases Nat.lt_or_ge 204 d with h4 | h4
        · exact key 204 many4 h4 (by omega)
        · exact key 153 many3 h3 (by omega)
      · exact key 102 many2 h2 (by omega)
    · exact key 51 many1 h1 (by omega)
  · exact key 0 many0 (by omega) (by omega)

/-- In any direction there are (at least) 127 different differences of the S-box. -/
theorem sbox_many (d : Byte) (hd : d ≠ 0) : ∃ L : List Byte, L.Nodup ∧ 127 ≤ L.length ∧ ∀ y ∈ L, ∃ t, y = sm4Sbox t ^^^ sm4Sbox (t ^^^ d) := by
  have hd0 : d.toNat ≠ 0 := fun e => hd (BitVec.eq_of_toNat_eq e)
  have hd1 := many_dir d.toNat hd0 d.isLt
  obtain ⟨L, h1, h2, h3⟩ := tally_spec ((List.range 256).map fun t => sboxAt t ^^^ sboxAt (t ^^^ d.toNat)) (0, 0) [] List.nodup_nil rfl (by simp)
  have hlt : ∀ y ∈ L, y < 256 := by
    intro y hy
    rcases h3 y hy with h | h
    · simp at h
    · obtain ⟨t, -, rfl⟩ := List.mem_map.1 h
      exact Nat.xor_lt_two_pow (n := 8) (sboxAt_lt _) (sboxAt_lt _)
  refine ⟨L.map (BitVec.ofNat 8), ?_, by rw [List.length_map, h2]; exact hd1, ?_⟩
  · refine List.Nodup.map_on ?_ h1
    intro x hx y hy e
    have := congrArg BitVec.toNat e
    rwa [BitVec.toNat_ofNat, BitVec.toNat_ofNat, Nat.mod_eq_of_lt (hlt x hx), Nat.mod_eq_of_lt (hlt y hy)] at this
  · intro y hy
    obtain ⟨v, hv, rfl⟩ := List.mem_map.1 hy
    rcases h3 v hv with h | h
    · simp at h
    · obtain ⟨t, ht, rfl⟩ := List.mem_map.1 h
      have ht8 : t < 256 := List.mem_range.1 ht
      refine ⟨BitVec.ofNat 8 t, ?_⟩
      have e1 := sboxAt_eq (BitVec.ofNat 8 t)
      have e2 := sboxAt_eq (BitVec.ofNat 8 t ^^^ d)
      rw [BitVec.toNat_xor, BitVec.toNat_ofNat, Nat.mod_eq_of_lt ht8] at e2
      rw [BitVec.toNat_ofNat, Nat.mod_eq_of_lt ht8] at e1
      rw [BitVec.ofNat_xor, e1, e2]

end Verif.Props
