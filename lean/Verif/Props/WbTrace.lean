import Verif.Spec.WbTrace
import Verif.Props.WbExtract
import Verif.Props.SeExtract
import Verif.Props.Sm4Span
import Mathlib.Data.Fintype.EquivFin

/-! Property C125: what the table lookups of white-box SM4 reveal. -/
set_option autoImplicit false

namespace Verif.Props
open Verif Spec Model

theorem wl_val {ε α β : Type} (m : WithLog ε α) (f : α → WithLog ε β) : (m >>= f).val = (f m.val).val := rfl
theorem wl_log {ε α β : Type} (m : WithLog ε α) (f : α → WithLog ε β) : (m >>= f).log = m.log ++ (f m.val).log := rfl
theorem wl_pure_val {ε α : Type} (a : α) : (pure a : WithLog ε α).val = a := rfl
theorem wl_pure_log {ε α : Type} (a : α) : (pure a : WithLog ε α).log = [] := rfl

theorem wbStep_val (s : B4) (T : WbRound) (i : Nat) : (wbRoundStepTr s (T, i)).val = wbRoundStep s T := rfl

theorem wbFold_val (l : List WbRound) (i : Nat) (s : B4) : ((l.zipIdx i).foldlM wbRoundStepTr s).val = l.foldl wbRoundStep s := by
  induction l generalizing i s with
  | nil => rfl
  | cons T l ih => rw [List.zipIdx_cons, List.foldlM_cons, wl_val, ih, wbStep_val, List.foldl_cons]

/-- The traced encryption is the encryption. -/
theorem wbTr_val (c : Wbsm4Ctx) (x : Block) : (wbsm4EncryptTr c x).val = wbsm4Encrypt c x := by
  unfold wbsm4EncryptTr wbsm4Encrypt
  simp only [wl_val, wl_pure_val, wbFold_val]
  rfl

/-- The bytes of a word. -/
def bytes4 (x : BitVec 32) : List Byte := [(x >>> 24).truncate 8, (x >>> 16).truncate 8, (x >>> 8).truncate 8, x.truncate 8]

theorem bytes4_inj (x y : BitVec 32) (h : bytes4 x = bytes4 y) : x = y := by
  unfold bytes4 at h
  simp only [trunc_shift, List.cons.injEq, and_true] at h
  rw [trunc_zero, trunc_zero] at h
  rw [← append4_extract x, ← append4_extract y, h.1, h.2.1, h.2.2.1, h.2.2.2]

/-- What is seen of the bytes of `x`. -/
def seeWord (g : Fin 4 → Byte → Byte) (x : Word) : Word := see4 g (bytes4 x)

theorem byteOf_app (a b c d : Byte) : byteOf 0 ((a ++ b) ++ (c ++ d)) = a ∧ byteOf 1 ((a ++ b) ++ (c ++ d)) = b ∧
    byteOf 2 ((a ++ b) ++ (c ++ d)) = c ∧ byteOf 3 ((a ++ b) ++ (c ++ d)) = d := by
  refine ⟨?_, ?_, ?_, ?_⟩
  · show BitVec.extractLsb' 24 8 _ = _
    ext i hi
    rw [BitVec.getElem_extractLsb', BitVec.getLsbD_append, if_neg (by omega), BitVec.getLsbD_append, if_neg (by omega),
      BitVec.getLsbD_eq_getElem (by omega)]
    simp only [show 24 + i - (8 + 8) - 8 = i by omega]
  · show BitVec.extractLsb' 16 8 _ = _
    ext i hi
    rw [BitVec.getElem_extractLsb', BitVec.getLsbD_append, if_neg (by omega), BitVec.getLsbD_append, if_pos (by omega),
      BitVec.getLsbD_eq_getElem (by omega)]
    simp only [show 16 + i - (8 + 8) = i by omega]
  · show BitVec.extractLsb' 8 8 _ = _
    ext i hi
    rw [BitVec.getElem_extractLsb', BitVec.getLsbD_append, if_pos (by omega), BitVec.getLsbD_append, if_neg (by omega),
      BitVec.getLsbD_eq_getElem (by omega)]
    simp only [show 8 + i - 8 = i by omega]
  · show BitVec.extractLsb' 0 8 _ = _
    ext i hi
    rw [BitVec.getElem_extractLsb', BitVec.getLsbD_append, if_pos (by omega), BitVec.getLsbD_append, if_pos (by omega),
      BitVec.getLsbD_eq_getElem (by omega)]
    simp only [show 0 + i = i by omega]

theorem byteOf_seeWord (g : Fin 4 → Byte → Byte) (x : Word) (j : Fin 4) : byteOf j (seeWord g x) = g j (byteOf j x) := by
  have h := byteOf_app (g 0 ((x >>> 24).truncate 8)) (g 1 ((x >>> 16).truncate 8)) (g 2 ((x >>> 8).truncate 8)) (g 3 (x.truncate 8))
  obtain ⟨h0, h1, h2, h3⟩ := h
  have hj : j = 0 ∨ j = 1 ∨ j = 2 ∨ j = 3 := by omega
  rcases hj with rfl | rfl | rfl | rfl
  · exact h0.trans (by rw [trunc_shift]; rfl)
  · exact h1.trans (by rw [trunc_shift]; rfl)
  · exact h2.trans (by rw [trunc_shift]; rfl)
  · exact h3.trans (by rw [trunc_zero]; rfl)

def entries (t : WbTab) (log : List WbLook) : List Byte := (log.filter fun l => l.tab = t).map WbLook.idx

theorem entries_append (t : WbTab) (a b : List WbLook) : entries t (a ++ b) = entries t a ++ entries t b := by
  simp [entries]

theorem entries_look (t t' : WbTab) (T : Tab4) (x : BitVec 32) : entries t (lookTr t' T x).log = if t' = t then bytes4 x else [] := by
  unfold entries lookTr bytes4
  by_cases h : t' = t <;> simp [h]

/-- The word with which a round goes into its S-box tables. -/
def sboxIn (s : B4) (T : WbRound) : BitVec 32 := (T.mm 0).look s.b1 ^^^ (T.mm 1).look s.b2 ^^^ (T.mm 2).look s.b3

theorem entries_step (s : B4) (T : WbRound) (i n : Nat) :
    entries (.table n) (wbRoundStepTr s (T, i)).log = if i = n then bytes4 (sboxIn s T) else [] := by
  unfold wbRoundStepTr
  simp only [wl_log, wl_pure_log, entries_append, entries_look]
  by_cases h : i = n <;> simp [h, entries, sboxIn, lookTr]

theorem entries_fold (l : List WbRound) (i n : Nat) (s : B4) :
    entries (.table n) ((l.zipIdx i).foldlM wbRoundStepTr s).log =
      if h : i ≤ n ∧ n < i + l.length then bytes4 (sboxIn ((l.take (n - i)).foldl wbRoundStep s) (l[n - i]'(by omega))) else [] := by
  induction l generalizing i s with
  | nil =>
    rw [dif_neg (by simp)]
    rfl
  | cons T l ih =>
    rw [List.zipIdx_cons, List.foldlM_cons, wl_log, entries_append, ih, entries_step, wbStep_val]
    by_cases h : i = n
    · subst h
      rw [if_pos rfl, dif_neg (by omega), dif_pos (by simp only [List.length_cons]; omega), List.append_nil]
      simp only [Nat.sub_self, List.take_zero, List.foldl_nil, List.getElem_cons_zero]
    · by_cases h2 : i + 1 ≤ n ∧ n < i + 1 + l.length
      · rw [if_neg h, dif_pos h2, dif_pos (by simp only [List.length_cons]; omega), List.nil_append]
        simp only [show n - i = (n - (i + 1)) + 1 by omega, List.take_succ_cons, List.foldl_cons, List.getElem_cons_succ]
      · rw [if_neg h, dif_neg h2, dif_neg (by simp only [List.length_cons]; omega), List.nil_append]

/-- What is seen of round `n + 1`. -/
theorem wbSee_eq (g : Nat → Fin 4 → Byte → Byte) (c : Wbsm4Ctx) (n : Nat) (hn : n + 1 < c.rnds.length) (x : Block) :
    wbSee g (fun x => (wbsm4EncryptTr c x).log) n x =
      seeWord (g (n + 1)) (sboxIn ((c.rnds.take (n + 1)).foldl wbRoundStep ⟨(c.se 0).look (get32 x 0), (c.se 1).look (get32 x 1),
        (c.se 2).look (get32 x 2), (c.se 3).look (get32 x 3)⟩) c.rnds[n + 1]) := by
  unfold wbSee
  show see4 _ (entries (.table (n + 1)) (wbsm4EncryptTr c x).log) = _
  unfold wbsm4EncryptTr
  simp only [wl_log, wl_pure_log, entries_append, entries_look, entries_fold]
  rw [dif_pos (c := 0 ≤ n + 1 ∧ n + 1 < 0 + c.rnds.length) (by omega)]
  simp only [reduceCtorEq, if_false, List.nil_append, List.append_nil, entries, List.filter_nil, List.map_nil]
  rfl

/-! ### The key from what is seen -/

/-- What is seen of a word, `f x`, tells right from wrong guesses. -/
def Sharp (f : Word → Word) : Prop :=
  ∀ (w : Word) (j : Fin 4) (k : Byte), (∀ u, f (sm4L (byteAt j (sm4Sbox (u ^^^ k))) ^^^ sm4T (byteAt j u ^^^ w)) =
      f (sm4L (byteAt j (sm4Sbox (0 ^^^ k))) ^^^ sm4T (byteAt j 0 ^^^ w))) → k = byteOf j w

theorem byteOf_L (j : Fin 4) (v : Byte) : byteOf j (sm4L (byteAt j v)) = v ^^^ (v <<< 2) := by
  have h : ∀ (j : Fin 4) (v : BitVec 8), byteOf j (sm4L (byteAt j v)) = v ^^^ (v <<< 2) := by decide +kernel
  exact h j v

theorem byteOf_xor (j : Fin 4) (x y : Word) : byteOf j (x ^^^ y) = byteOf j x ^^^ byteOf j y := by
  unfold byteOf
  ext i hi
  simp

theorem shl_two_onto (z : Byte) : ∃ v : Byte, v ^^^ (v <<< 2) = z := by
  have h : ∀ z : BitVec 8, (z ^^^ (z <<< 2) ^^^ (z <<< 4) ^^^ (z <<< 6)) ^^^ ((z ^^^ (z <<< 2) ^^^ (z <<< 4) ^^^ (z <<< 6)) <<< 2) = z := by
    decide +kernel
  exact ⟨_, h z⟩

theorem and_xor_byte (a b m : Byte) : (a ^^^ b) &&& m = (a &&& m) ^^^ (b &&& m) := by
  ext i hi
  simp only [BitVec.getElem_and, BitVec.getElem_xor]
  cases a[i] <;> cases b[i] <;> cases m[i] <;> rfl

theorem hxorAt (j : Fin 4) (a b : Byte) : byteAt j a ^^^ byteAt j b = byteAt j (a ^^^ b) := by
  unfold byteAt
  rw [BitVec.zeroExtend, BitVec.setWidth_xor, BitVec.shiftLeft_xor_distrib]

theorem round_diff (w : Word) (j : Fin 4) : ∃ R : Word, ∀ k u, sm4L (byteAt j (sm4Sbox (u ^^^ k))) ^^^ sm4T (byteAt j u ^^^ w) =
      sm4L (byteAt j (sm4Sbox (u ^^^ k) ^^^ sm4Sbox (u ^^^ byteOf j w))) ^^^ R := by
  obtain ⟨R, hR⟩ := tau_byte j w
  refine ⟨sm4L R, fun k u => ?_⟩
  rw [sm4T, hR, ← hxorAt, sm4L_xor, sm4L_xor, BitVec.xor_assoc]

/-- With the right guess the word after the round does not depend on the byte. -/
theorem right_guess (w : Word) (j : Fin 4) (u : Byte) :
    sm4L (byteAt j (sm4Sbox (u ^^^ byteOf j w))) ^^^ sm4T (byteAt j u ^^^ w) =
      sm4L (byteAt j (sm4Sbox (0 ^^^ byteOf j w))) ^^^ sm4T (byteAt j 0 ^^^ w) := by
  obtain ⟨R, hR⟩ := round_diff w j
  rw [hR, hR, BitVec.xor_self, BitVec.xor_self]

theorem mem_byteList (b : Byte) : b ∈ byteList := by
  unfold byteList
  exact List.mem_map.2 ⟨b.toNat, List.mem_range.2 b.isLt, BitVec.ofNat_toNat _ _⟩

theorem shl_two_inj (x y : Byte) (h : x ^^^ (x <<< 2) = y ^^^ (y <<< 2)) : x = y := by
  have e : ∀ z : BitVec 8, z = (z ^^^ (z <<< 2)) ^^^ ((z ^^^ (z <<< 2)) <<< 2) ^^^ ((z ^^^ (z <<< 2)) <<< 4) ^^^ ((z ^^^ (z <<< 2)) <<< 6) := by
    decide +kernel
  rw [e x, h, ← e y]

theorem sharp_of (f : Word → Word) (hf : ∀ j : Fin 4, ∃ (a : Aff 8) (c : Byte) (g : Byte → Byte),
    (∀ x y, affineU a x = affineU a y → x = y) ∧ Telling g ∧ ∀ x, byteOf j (f x) = g (affineU a (byteOf j x ^^^ c))) : Sharp f := by
  intro w j k h
  obtain ⟨R, hR⟩ := round_diff w j
  simp only [hR] at h
  generalize byteOf j w = v at h ⊢
  rcases Classical.em (k = v) with e | e
  · exact e
  · exfalso
    have hkv : k ^^^ v ≠ 0 := fun h0 => e (BitVec.xor_eq_zero_iff.1 h0)
    obtain ⟨a, c, g, ha, hg, hfa⟩ := hf j
    rcases hg with ⟨m, hm, hg⟩ | hg
    · let B : Byte → Byte := fun x => matMulNum a.mat (x ^^^ (x <<< 2)) &&& m
      have hB : ∀ x y, B (x ^^^ y) = B x ^^^ B y := by
        intro x y
        simp only [B]
        rw [← and_xor_byte, ← matMulNum_xor, BitVec.shiftLeft_xor_distrib]
        congr 2
        ac_rfl
      have hz : ∀ u, B ((sm4Sbox (u ^^^ k) ^^^ sm4Sbox (u ^^^ v)) ^^^ (sm4Sbox (0 ^^^ k) ^^^ sm4Sbox (0 ^^^ v))) = 0 := by
        intro u
        have h1 := congrArg (byteOf j) (h u)
        rw [hfa, hfa, hg, hg, byteOf_xor, byteOf_xor, byteOf_L, byteOf_L] at h1
        rw [hB]
        simp only [B]
        unfold affineU at h1
        simp only [matMulNum_xor, and_xor_byte] at h1
        simp only [matMulNum_xor, and_xor_byte]
        rw [BitVec.xor_left_inj, BitVec.xor_left_inj, BitVec.xor_left_inj] at h1
        rw [h1, BitVec.xor_self]
        rfl
      have h0 := sbox_span (k ^^^ v) hkv B hB (fun t => by
        have e1 := hz (t ^^^ k)
        have e2 := hz k
        rw [hB] at e1 e2 ⊢
        rw [BitVec.xor_assoc, BitVec.xor_assoc, BitVec.xor_self, BitVec.xor_zero] at e1
        rw [BitVec.xor_self] at e2
        rw [BitVec.xor_eq_zero_iff.1 e1, ← BitVec.xor_eq_zero_iff.1 e2]
        exact BitVec.xor_self)
      have : Finite (BitVec 8) := Finite.of_injective BitVec.toFin (fun _ _ h => BitVec.eq_of_toFin_eq h)
      have hsur : Function.Surjective (affineU a) := Finite.injective_iff_surjective.mp (fun x y => ha x y)
      obtain ⟨z, hz'⟩ := hsur (m ^^^ a.vec)
      obtain ⟨x, hx⟩ := shl_two_onto z
      have := h0 x
      simp only [B, hx] at this
      have hmz : matMulNum a.mat z = m := by
        unfold affineU at hz'
        exact BitVec.xor_left_inj _ |>.1 hz'
      rw [hmz, BitVec.and_self] at this
      exact hm this
    · obtain ⟨L, hL1, hL2, hL3⟩ := sbox_many (k ^^^ v) hkv
      let φ : Byte → Byte := fun y => affineU a ((y ^^^ (y <<< 2)) ^^^ byteOf j R ^^^ c)
      have hφ : ∀ x y, φ x = φ y → x = y := by
        intro x y h
        have h := ha _ _ h
        rw [BitVec.xor_left_inj, BitVec.xor_left_inj] at h
        exact shl_two_inj x y h
      let b := byteOf j (f (sm4L (byteAt j (sm4Sbox (0 ^^^ k) ^^^ sm4Sbox (0 ^^^ v))) ^^^ R))
      have hsub : L.map φ ⊆ byteList.filter (fun x => decide (g x = b)) := by
        intro y hy
        obtain ⟨z, hz, rfl⟩ := List.mem_map.1 hy
        refine List.mem_filter.2 ⟨mem_byteList _, decide_eq_true ?_⟩
        obtain ⟨t, rfl⟩ := hL3 z hz
        have h1 := congrArg (byteOf j) (h (t ^^^ k))
        rw [hfa, byteOf_xor, byteOf_L, BitVec.xor_assoc t k k, BitVec.xor_self, BitVec.xor_zero, BitVec.xor_assoc t k v] at h1
        exact h1
      have hnd : (L.map φ).Nodup := List.Nodup.map_on (fun x _ y _ h => hφ x y h) hL1
      have := (hnd.subperm hsub).length_le
      have hb := hg b
      rw [List.countP_eq_length_filter] at hb
      rw [List.length_map] at this
      omega

/-- A round cancels out as far as is seen for every byte `u` exactly if the guess is byte `j` of the round key. -/
theorem sharp_iff (f : Word → Word) (hf : Sharp f) (w : Word) (j : Fin 4) (k : Byte) :
    (∀ u, f (sm4L (byteAt j (sm4Sbox (u ^^^ k))) ^^^ sm4T (byteAt j u ^^^ w)) =
      f (sm4L (byteAt j (sm4Sbox (0 ^^^ k))) ^^^ sm4T (byteAt j 0 ^^^ w))) ↔ k = byteOf j w :=
  ⟨hf w j k, by rintro rfl u; rw [right_guess]⟩

theorem byte_mem (b : Byte) : b ∈ (List.finRange 256).map (BitVec.ofFin (w := 8)) := List.mem_map.2 ⟨b.toFin, List.mem_finRange _, rfl⟩

theorem lookSame_iff (see : Block → Word) (rks : List Word) (j : Fin 4) (k : Byte) :
    lookSame see rks j k = true ↔ ∀ u, see (lookText rks j k u) = see (lookText rks j k 0) := by
  unfold lookSame
  rw [List.all_eq_true]
  constructor
  · intro h u
    exact eq_of_beq (h u (byte_mem u))
  · intro h u _
    exact beq_iff_eq.2 (h u)

/-- What is seen of the new word `d` of round `n` is `f d`, if the two words before it are zero. -/
def Shows (rk : Sm4Ctx) (n : Nat) (f : Word → Word) (see : Block → Word) : Prop :=
  ∀ X : Quad, ((rk.toList.take (n + 1)).foldl sm4Round X).b = 0 → ((rk.toList.take (n + 1)).foldl sm4Round X).c = 0 →
    see X.toBlock = f ((rk.toList.take (n + 1)).foldl sm4Round X).d

theorem lookText_see (rk : Sm4Ctx) (n : Nat) (hn : n < 32) (f : Word → Word) (see : Block → Word) (h : Shows rk n f see) (j : Fin 4)
    (k u : Byte) : see (lookText (rk.toList.take n) j k u) =
      f (sm4L (byteAt j (sm4Sbox (u ^^^ k))) ^^^ sm4T (byteAt j u ^^^ rk[n])) := by
  have ht : rk.toList.take (n + 1) = rk.toList.take n ++ [rk[n]] := by
    rw [List.take_add_one]
    simp [hn]
  have h' := h ((rk.toList.take n).foldr sm4Unround ⟨sm4L (byteIn j (sm4Sbox (u ^^^ k))), byteIn j u, 0, 0⟩)
  rw [ht, List.foldl_append, unrounds] at h'
  have z : ∀ v : BitVec 32, v ^^^ 0 = v := fun v => BitVec.xor_zero
  simp only [List.foldl_cons, List.foldl_nil, sm4Round, byteIn_eq, z] at h'
  unfold lookText
  rw [byteIn_eq, byteIn_eq]
  exact h' trivial trivial

theorem lookByte_eq (rk : Sm4Ctx) (n : Nat) (hn : n < 32) (f : Word → Word) (hf : Sharp f) (see : Block → Word)
    (h : Shows rk n f see) (j : Fin 4) : lookByte see (rk.toList.take n) j = byteOf j rk[n] := by
  have key : ∀ k : Byte, lookSame see (rk.toList.take n) j k = true ↔ k = byteOf j rk[n] := by
    intro k
    rw [lookSame_iff, ← sharp_iff f hf]
    simp only [lookText_see rk n hn f see h]
  unfold lookByte
  cases hx : ((List.finRange 256).map (BitVec.ofFin (w := 8))).find? fun k => lookSame see (rk.toList.take n) j k with
  | none => exact absurd ((key _).2 rfl) (List.find?_eq_none.1 hx _ (byte_mem _))
  | some k => exact (key k).1 (List.find?_some (p := fun k => lookSame see (rk.toList.take n) j k) hx)

theorem lookRks_eq (rk : Sm4Ctx) (f : Nat → Word → Word) (hf : ∀ n, Sharp (f n)) (see : Nat → Block → Word) (m : Nat)
    (hm : m ≤ 32) (h : ∀ n, n < m → Shows rk n (f n) (see n)) : lookRks see m = rk.toList.take m := by
  induction m with
  | zero => rfl
  | succ m ih =>
    rw [lookRks, ih (by omega) (fun n hn => h n (by omega)), List.take_add_one]
    have h1 : ∀ j, lookByte (see m) (rk.toList.take m) j = byteOf j rk[m] := fun j =>
      lookByte_eq rk m (by omega) (f m) (hf m) (see m) (h m (by omega)) j
    rw [h1, h1, h1, h1, show (byteOf 0 rk[m] ++ byteOf 1 rk[m]) ++ (byteOf 2 rk[m] ++ byteOf 3 rk[m]) = rk[m] from append4_extract rk[m]]
    simp [show m < 32 by omega]

theorem lookKey_eq (mode : EncMode) (key : List Byte) (f : Nat → Word → Word) (hf : ∀ n, Sharp (f n))
    (see : Nat → Block → Word) (h : ∀ n, n < 4 → Shows (sm4InitKey key mode) n (f n) (see n)) : lookKey mode see = padKey key := by
  have hk := initKey_eq key
  have hr := lookRks_eq (sm4InitKey key mode) f hf see 4 (by decide) h
  generalize padKey key = pk at hk ⊢
  unfold lookKey
  rw [hr]
  cases mode with
  | encrypt =>
    rw [hk.1, show (sm4RoundKeys (quadOf pk)).take 4 = [sm4Rk (quadOf pk) 0, sm4Rk (quadOf pk) 1, sm4Rk (quadOf pk) 2, sm4Rk (quadOf pk) 3] from rfl]
    show (unschedule 4 (sm4KeyWindow (quadOf pk) 4)).toBlock = pk
    rw [unschedule_eq, toBlock_quadOf]
  | decrypt =>
    rw [hk.2, show (sm4RoundKeys (quadOf pk)).reverse.take 4 = [sm4Rk (quadOf pk) 31, sm4Rk (quadOf pk) 30, sm4Rk (quadOf pk) 29, sm4Rk (quadOf pk) 28] from rfl]
    show (unschedule 32 (sm4KeyWindow (quadOf pk) 32)).toBlock = pk
    rw [unschedule_eq, toBlock_quadOf]

/-! ### White-box SM4 -/

theorem gen_all_real (r : Wbsm4Rnd) (rk : Sm4Ctx) (junk : Nat → WbRound) (ds : List Byte) (hz : ∀ d ∈ ds, d = 0) (i p : Nat)
    (hp : p + ds.length = 32) (rs : List WbRound) (h : genRounds r rk junk ds i p false = some rs) :
    RealsFrom r rk p rs ∧ rs.length = ds.length := by
  induction ds generalizing i p rs with
  | nil =>
    cases h
    exact ⟨hp, rfl⟩
  | cons d ds ih =>
    rw [hz d (by simp), gen_zero r rk junk ds i p false (by simp) p (by simp) (by simp at hp; omega)] at h
    obtain ⟨rs', h', rfl⟩ := Option.map_eq_some_iff.1 h
    obtain ⟨h1, h2⟩ := ih (fun d hd => hz d (by simp [hd])) (i + 1) (p + 1) (by simp at hp; omega) rs' h'
    exact ⟨⟨by simp at hp; omega, i, rfl, h1⟩, by simp [h2]⟩

/-- A context without dummy rounds. -/
theorem gen_plain (r : Wbsm4Rnd) (junk : Nat → WbRound) (mode : EncMode) (key : List Byte) (c : Wbsm4Ctx)
    (h : wbsm4GenTable r junk mode 0 key = some c) : RealsFrom r (sm4InitKey key mode) 0 c.rnds ∧ c.rnds.length = 32 ∧
      ∀ i : Fin 4, c.se i = affTab r.qx (r.P i.1) := by
  obtain ⟨da, hperm, hdum, -, -⟩ := C37_dummy_rounds r junk mode 0 key
  have hz : ∀ e ∈ da, e = 0 := by
    intro e he
    have := hperm.mem_iff.mp he
    simpa using this
  have hx : expandDummy da = da := by
    clear hperm hdum
    unfold expandDummy
    induction da with
    | nil => rfl
    | cons e da ih =>
      rw [List.flatMap_cons, ih (fun e he => hz e (by simp [he])), hz e (by simp)]
      simp
  have hl : da.length = 32 := by
    rw [hperm.length_eq]
    simp
  rw [wbsm4GenTable, hdum, Option.bind_some, genTableWith, hx] at h
  obtain ⟨rs, hrs, rfl⟩ := Option.map_eq_some_iff.1 h
  obtain ⟨h1, h2⟩ := gen_all_real r _ junk da hz 0 0 (by omega) rs hrs
  exact ⟨h1, by simp only; omega, fun _ => rfl⟩

theorem reals_get (r : Wbsm4Rnd) (rk : Sm4Ctx) (l : List WbRound) (p : Nat) (hl : RealsFrom r rk p l) (n : Nat) (hn : n < l.length) :
    ∃ (h : p + n < 32) (i : Nat), l[n] = realRound r rk i ⟨p + n, h⟩ := by
  induction l generalizing p n with
  | nil => simp at hn
  | cons T Ts ih =>
    obtain ⟨h32, i, rfl, hTs⟩ := hl
    cases n with
    | zero => exact ⟨h32, i, rfl⟩
    | succ n =>
      obtain ⟨h, i', e⟩ := ih (p + 1) hTs n (by simpa using hn)
      exact ⟨by omega, i', by rw [List.getElem_cons_succ, e]; congr 2; omega⟩

theorem sboxIn_real (r : Wbsm4Rnd) (rk : Sm4Ctx) (i : Nat) (p : Fin 32) (X : Quad) (s : B4) (h : Enc r p.1 X s) :
    sboxIn s (realRound r rk i p) = affineU (r.EiInv p.1) (X.b ^^^ X.c ^^^ X.d) := by
  obtain ⟨-, h1, h2, h3⟩ := h
  simp only [sboxIn, realRound, look_affTab]
  simp only [Wbsm4Rnd.M, affineU_affinemix, h1, h2, h3]
  rw [show p.1 + 1 + (0 : Fin 3).1 = p.1 + 1 from rfl, show p.1 + 1 + (1 : Fin 3).1 = p.1 + 2 from rfl,
    show p.1 + 1 + (2 : Fin 3).1 = p.1 + 3 from rfl, (P_inv r _).1, (P_inv r _).1, (P_inv r _).1, affineU_xor3]

theorem wb_shows (g : Nat → Fin 4 → Byte → Byte) (r : Wbsm4Rnd) (rk : Sm4Ctx) (c : Wbsm4Ctx) (hr : RealsFrom r rk 0 c.rnds) (hl : c.rnds.length = 32)
    (hse : ∀ i : Fin 4, c.se i = affTab r.qx (r.P i.1)) (n : Nat) (hn : n < 31) :
    Shows rk n (fun x => seeWord (g (n + 1)) (affineU (r.EiInv (n + 1)) x)) (wbSee g (fun x => (wbsm4EncryptTr c x).log) n) := by
  intro X hb0 hc0
  rw [wbSee_eq g c n (by omega), hse, hse, hse, hse]
  simp only [look_affTab, get32_eq]
  have hq := load_eq X.toBlock
  rw [quadOf_toBlock] at hq
  simp only [B4.toQuad, B4.load] at hq
  have ha := congrArg Quad.a hq
  have hb := congrArg Quad.b hq
  have hc := congrArg Quad.c hq
  have hd := congrArg Quad.d hq
  simp only at ha hb hc hd
  rw [ha, hb, hc, hd]
  have h := reals_prefix r rk _ 0 hr (n + 1) (by omega) X
    ⟨affineU (r.P 0) X.a, affineU (r.P 1) X.b, affineU (r.P 2) X.c, affineU (r.P 3) X.d⟩ ⟨rfl, rfl, rfl, rfl⟩
  obtain ⟨h32, i, e⟩ := reals_get r rk _ 0 hr (n + 1) (by omega)
  rw [List.drop_zero] at h
  have hs := sboxIn_real r rk i ⟨0 + (n + 1), h32⟩ _ _ h
  rw [hb0, hc0, show (0 : BitVec 32) ^^^ 0 = 0 from rfl, show ∀ x : Word, 0 ^^^ x = x from fun x => BitVec.zero_xor] at hs
  have e2 : (⟨0 + (n + 1), h32⟩ : Fin 32).1 = n + 1 := by simp
  rw [e2] at hs
  rw [e]
  exact congrArg (seeWord (g (n + 1))) hs

theorem byteOf_com (a : Fin 4 → Aff 8) (x : BitVec 32) (j : Fin 4) :
    byteOf j (affineU (affinecom8to32 (a 0) (a 1) (a 2) (a 3)) x) = affineU (a j) (byteOf j x) := by
  obtain ⟨h0, h1, h2, h3⟩ := com_bytes a x
  simp only [trunc_shift] at h0 h1 h2
  rw [trunc_zero, trunc_zero] at h3
  have hj : j = 0 ∨ j = 1 ∨ j = 2 ∨ j = 3 := by omega
  rcases hj with rfl | rfl | rfl | rfl
  · exact h0
  · exact h1
  · exact h2
  · exact h3

theorem com_sharp (a : Fin 4 → Aff 8) (ha : ∀ j x y, affineU (a j) x = affineU (a j) y → x = y) (c : Word) (g : Fin 4 → Byte → Byte)
    (hg : ∀ j, Telling (g j)) : Sharp fun x => seeWord g (affineU (affinecom8to32 (a 0) (a 1) (a 2) (a 3)) (x ^^^ c)) :=
  sharp_of _ fun j => ⟨a j, byteOf j c, g j, ha j, hg j, fun x => by simp only [byteOf_seeWord, byteOf_com, byteOf_xor]⟩

/-- C125: the entries that the encryptions of chosen texts look up in a context without dummy rounds give the (padded) key, whatever
the random numbers, even if only part of the entry numbers is seen. No value of a table is used. -/
theorem C125_wbsm4_key (r : Wbsm4Rnd) (junk : Nat → WbRound) (mode : EncMode) (key : List Byte) (c : Wbsm4Ctx)
    (h : wbsm4GenTable r junk mode 0 key = some c) (g : Nat → Fin 4 → Byte → Byte) (hg : ∀ n j, Telling (g n j)) :
    lookKey mode (wbSee g fun x => (wbsm4EncryptTr c x).log) = padKey key := by
  obtain ⟨h1, h2, h3⟩ := gen_plain r junk mode key c h
  refine lookKey_eq mode key (fun n x => seeWord (g (n + 1)) (affineU (r.EiInv (n + 1)) x)) (fun n => ?_) _
    (fun n hn => wb_shows g r _ c h1 h2 h3 n (by omega))
  have hs := com_sharp (r.Einv (n + 1)) (fun j x y e => by
    have := congrArg (affineU (r.E (n + 1) j)) e
    rwa [(E_inv r (n + 1) j).2, (E_inv r (n + 1) j).2] at this) 0 (g (n + 1)) (hg (n + 1))
  simp only [show ∀ x : Word, x ^^^ 0 = x from fun x => BitVec.xor_zero] at hs
  exact hs

/-- Seeing everything, seeing some bits. -/
theorem telling_id : Telling id := .inl ⟨0xFF, by decide, fun x => by
  have h : ∀ x : BitVec 8, id x = x &&& 0xFF := by decide +kernel
  exact h x⟩

theorem telling_mask (m : Byte) (hm : m ≠ 0) : Telling (· &&& m) := .inl ⟨m, hm, fun _ => rfl⟩

theorem count_le (size o : Nat) (hs : o + size * 255 < 64 * 18)
    (h : ∀ b, ∃ lo, ∀ x, (o + size * x) / 64 = b → lo ≤ x ∧ x < lo + 126) : Telling (cacheLine size o) := by
  refine .inr fun b => ?_
  unfold byteList
  rw [List.countP_map, List.countP_eq_length_filter]
  obtain ⟨lo, hlo⟩ := h b.toNat
  have hsub : (List.range 256).filter ((fun x => decide (cacheLine size o x = b)) ∘ BitVec.ofNat 8) ⊆ List.range' lo 126 := by
    intro x hx
    obtain ⟨hx, hp⟩ := List.mem_filter.1 hx
    have hx := List.mem_range.1 hx
    have h18 : (o + size * x) / 64 < 18 := by
      have := Nat.mul_le_mul_left size (show x ≤ 255 by omega)
      omega
    simp only [Function.comp_apply, decide_eq_true_eq, cacheLine, BitVec.toNat_ofNat] at hp
    rw [show x % 2 ^ 8 = x by omega] at hp
    have := congrArg BitVec.toNat hp
    rw [BitVec.toNat_ofNat] at this
    have := hlo x (by omega)
    exact List.mem_range'_1.2 this
  have hn : ((List.range 256).filter ((fun x => decide (cacheLine size o x = b)) ∘ BitVec.ofNat 8)).Nodup := List.nodup_range.filter _
  have := (hn.subperm hsub).length_le
  rwa [List.length_range'] at this

/-- C125: the cache lines of a table of 256 words, wherever it begins, and those of a table of 256 bytes tell enough. -/
theorem C125_cache_lines (o : Nat) (ho : o < 64) : Telling (cacheLine 4 o) ∧ Telling (cacheLine 1 o) :=
  ⟨count_le 4 o (by omega) fun b => ⟨(64 * b - o) / 4, fun x h => by omega⟩, count_le 1 o (by omega) fun b => ⟨64 * b - o, fun x h => by omega⟩⟩

end Verif.Props
