import Verif.Model.GcmTagLong
import Verif.Props.GcmAuth
import Verif.Props.GcmLong

/-! Property C133: what `gcm_finish` returns for a tag length above 16. -/
set_option autoImplicit false

namespace Verif.Props
open Verif Verif.Model Verif.Spec Polynomial

/-! ### the bytes -/

theorem finishMem_length (c : GcmCtx) (behind : Nat → Byte) (n : Nat) : (gcmFinishMem c behind n).1.length = n := by
  unfold gcmFinishMem
  simp only
  split <;> simp

/-- Whether something has been counted. -/
def Counted (c : GcmCtx) : Prop := c.len * 8 ≠ 0 ∨ c.addLen * 8 ≠ 0

/-- `buf` after `finish`. -/
def lastBuf (c : GcmCtx) : Block := gcmMult c.HL c.HH (c.buf ^^^ putBlock ((c.addLen * 8) >>> 32) (c.addLen * 8) ((c.len * 8) >>> 32) (c.len * 8))

theorem finishMem_get (c : GcmCtx) (behind : Nat → Byte) (n k : Nat) (hk : k < n) (h : Counted c) :
    (gcmFinishMem c behind n).1[k]? = some (ctxByte c behind k ^^^ ctxByte { c with buf := lastBuf c } behind (32 + k)) := by
  unfold gcmFinishMem
  simp only
  rw [if_pos (show c.len * 8 ≠ 0 ∨ c.addLen * 8 ≠ 0 from h), List.getElem?_zipWith, List.getElem?_map, List.getElem?_range hk]
  rfl

theorem finishMem_get_empty (c : GcmCtx) (behind : Nat → Byte) (n k : Nat) (hk : k < n) (h : ¬ Counted c) :
    (gcmFinishMem c behind n).1[k]? = some (ctxByte c behind k) := by
  unfold gcmFinishMem
  simp only
  rw [if_neg (show ¬(c.len * 8 ≠ 0 ∨ c.addLen * 8 ≠ 0) from h), List.getElem?_map, List.getElem?_range hk]
  rfl

theorem block_getD (b : Block) (k : Nat) (h : k < 16) : b.toList.getD k 0 = b[k] := by
  rw [List.getD_eq_getElem?_getD, List.getElem?_eq_getElem (by simpa using h)]
  simp

theorem ctxByte_base (c : GcmCtx) (behind : Nat → Byte) (k : Nat) (h : k < 16) : ctxByte c behind k = c.baseEctr[k] := by
  rw [ctxByte, if_pos h, block_getD _ _ h]
theorem ctxByte_y (c : GcmCtx) (behind : Nat → Byte) (k : Nat) (h : k < 16) : ctxByte c behind (16 + k) = c.y[k] := by
  rw [ctxByte, if_neg (by omega), if_pos (by omega), Nat.add_sub_cancel_left, block_getD _ _ h]
theorem ctxByte_buf (c : GcmCtx) (behind : Nat → Byte) (k : Nat) (h : k < 16) : ctxByte c behind (32 + k) = c.buf[k] := by
  rw [ctxByte, if_neg (by omega), if_neg (by omega), if_pos (by omega), Nat.add_sub_cancel_left, block_getD _ _ h]
theorem ctxByte_behind (c : GcmCtx) (behind : Nat → Byte) (k : Nat) : ctxByte c behind (48 + k) = behind k := by
  rw [ctxByte, if_neg (by omega), if_neg (by omega), if_neg (by omega), Nat.add_sub_cancel_left]

/-- C133: up to 16 bytes the tag is the one of the other properties; a longer one begins with it and leaves the same context, but in the
C language the call is undefined. -/
theorem C133_prefix (c : GcmCtx) (behind : Nat → Byte) (n : Nat) :
    gcmFinish c (min n 16) = some ((gcmFinishMem c behind n).1.take 16, (gcmFinishMem c behind n).2) ∧
    (gcmFinishMem c behind n).1.length = n ∧ (16 < n → gcmFinish c n = none) := by
  refine ⟨?_, finishMem_length c behind n, fun h => by rw [gcmFinish, if_pos h]⟩
  have hl := finishMem_length c behind n
  by_cases h : Counted c
  · have hc : (gcmFinishMem c behind n).2 = { c with buf := lastBuf c } := by
      unfold gcmFinishMem; simp only; rw [if_pos (show c.len * 8 ≠ 0 ∨ c.addLen * 8 ≠ 0 from h)]; rfl
    rw [hc, gcmFinish, if_neg (by omega)]
    simp only
    rw [if_pos (show c.len * 8 ≠ 0 ∨ c.addLen * 8 ≠ 0 from h)]
    refine congrArg some (Prod.ext ?_ rfl)
    apply List.ext_getElem?
    intro k
    by_cases hk : k < min n 16
    · rw [List.getElem?_take_of_lt hk, List.getElem?_take_of_lt (by omega), finishMem_get c behind n k (by omega) h,
        ctxByte_base _ _ _ (by omega), ctxByte_buf _ _ _ (by omega), List.getElem?_eq_getElem (by simp; omega), Vector.getElem_toList,
        Vec.getElem_xor]
      rfl
    · rw [List.getElem?_eq_none (by simp; omega), List.getElem?_eq_none (by simp; omega)]
  · have hc : (gcmFinishMem c behind n).2 = c := by
      unfold gcmFinishMem; simp only; rw [if_neg (show ¬(c.len * 8 ≠ 0 ∨ c.addLen * 8 ≠ 0) from h)]
    rw [hc, gcmFinish, if_neg (by omega)]
    simp only
    rw [if_neg (show ¬(c.len * 8 ≠ 0 ∨ c.addLen * 8 ≠ 0) from h)]
    refine congrArg some (Prod.ext ?_ rfl)
    apply List.ext_getElem?
    intro k
    by_cases hk : k < min n 16
    · rw [List.getElem?_take_of_lt hk, List.getElem?_take_of_lt (by omega), finishMem_get_empty c behind n k (by omega) h,
        ctxByte_base _ _ _ (by omega), List.getElem?_eq_getElem (by simp; omega), Vector.getElem_toList]
    · rw [List.getElem?_eq_none (by simp; omega), List.getElem?_eq_none (by simp; omega)]

/-! ### a message -/

/-- The context after init, setiv, aad and one message. -/
theorem sealed_state (E : Block → Block) (iv a p out : List Byte) (outlen : Nat) (hiv : iv.length < 2 ^ 29)
    (hp : p.length < 2 ^ 31) (ho : p.length ≤ outlen) (hb : outlen ≤ out.length) :
    ∃ r, gcmEncrypt (gcmAad (gcmSetiv (gcmInit E) iv) a) p out outlen = some r ∧
      r.out.take p.length = gcmCipher E iv p ∧ r.ctx.baseEctr = E (ofBV (j0 E iv)) ∧
      toBV r.ctx.y = incN ((p.length + 15) / 16) (j0 E iv) ∧
      toBV r.ctx.buf = ghash (hashKey E) ((chunks a).map padBV ++ (chunks (gcmCipher E iv p)).map padBV) ∧
      r.ctx.len = BitVec.ofNat 64 p.length ∧ r.ctx.addLen = BitVec.ofNat 64 a.length := by
  have hy : toBV (gcmAad (gcmSetiv (gcmInit E) iv) a).y = j0 E iv := setiv_y (gcmInit E) (init_ok E) iv hiv
  have hbase : (gcmAad (gcmSetiv (gcmInit E) iv) a).baseEctr = E (ofBV (j0 E iv)) := by
    rw [← hy, ofBV_toBV]; rfl
  have hbuf : toBV (gcmAad (gcmSetiv (gcmInit E) iv) a).buf = ghash (hashKey E) ((chunks a).map padBV) := by
    show toBV (absorb (gcmInit E).HL (gcmInit E).HH zeroBlock a) = _
    rw [absorb_eq (init_ok E)]; rfl
  have hlen : (gcmAad (gcmSetiv (gcmInit E) iv) a).len = 0 := rfl
  have hadd : (gcmAad (gcmSetiv (gcmInit E) iv) a).addLen = BitVec.ofNat 64 a.length := rfl
  have hblk : (gcmAad (gcmSetiv (gcmInit E) iv) a).block = E := rfl
  have hok : TabOk (gcmAad (gcmSetiv (gcmInit E) iv) a).HL (gcmAad (gcmSetiv (gcmInit E) iv) a).HH (hashKey E) := init_ok E
  generalize gcmAad (gcmSetiv (gcmInit E) iv) a = c at *
  refine ⟨_, gcmEncrypt_eq c p out outlen hp ho hb, ?_, hbase, ?_, ?_, ?_, hadd⟩
  · show (gctr c.block (inc32 (toBV c.y)) p ++ out.drop p.length).take p.length = _
    rw [List.take_left' (length_gctr _ _ _), hblk, hy]; rfl
  · show toBV ((chunks p).foldl (encPiece c) (c.y, c.buf, [])).1 = _
    rw [(fold_y c (chunks p) c.y c.buf []).1, foldl_inc, chunks_count, hy]
  · show toBV ((chunks p).foldl (encPiece c) (c.y, c.buf, [])).2.1 = _
    rw [fold_enc_buf c hok p c.y c.buf [], hbuf, hblk, hy, ghash, ghash, ghashFrom_append]; rfl
  · show c.len + BitVec.ofNat 64 p.length = _
    rw [hlen]; exact BitVec.zero_add _

theorem sealed_counted {c : GcmCtx} {a p : List Byte} (h1 : c.len = BitVec.ofNat 64 p.length) (h2 : c.addLen = BitVec.ofNat 64 a.length)
    (ha : a.length < 2 ^ 61) (hp : p.length < 2 ^ 31) : Counted c ↔ ¬(a = [] ∧ p = []) := by
  unfold Counted
  rw [h1, h2]
  constructor
  · rintro h ⟨rfl, rfl⟩
    rcases h with h | h <;> exact h rfl
  · intro h
    by_contra hn
    rw [not_or, not_not, not_not] at hn
    exact h ⟨List.length_eq_zero_iff.mp (mul8_eq_zero ha hn.2), List.length_eq_zero_iff.mp (mul8_eq_zero (by omega) hn.1)⟩

/-- C133: with AAD or a message, byte `16 + k` of the tag is byte `k` of the last counter block xored with byte `k` behind `buf`. For a 12-byte
IV the counter block is public: the first 32 bytes give the pointers `key` and `block` away. -/
theorem C133_pointers (E : Block → Block) (iv a p out : List Byte) (outlen n : Nat) (behind : Nat → Byte) (hiv : iv.length < 2 ^ 29)
    (ha : a.length < 2 ^ 61) (hp : p.length < 2 ^ 31) (ho : p.length ≤ outlen) (hb : outlen ≤ out.length) (hne : ¬(a = [] ∧ p = [])) :
    ∃ r, gcmEncrypt (gcmAad (gcmSetiv (gcmInit E) iv) a) p out outlen = some r ∧
      ∀ k (hk : k < 16), 16 + k < n → (gcmFinishMem r.ctx behind n).1[16 + k]? =
        some ((ofBV (incN ((p.length + 15) / 16) (j0 E iv)))[k] ^^^ behind k) := by
  obtain ⟨r, h1, _, _, h4, _, h6, h7⟩ := sealed_state E iv a p out outlen hiv hp ho hb
  refine ⟨r, h1, fun k hk hn => ?_⟩
  rw [finishMem_get _ _ _ _ hn ((sealed_counted h6 h7 ha hp).mpr hne), ctxByte_y _ _ _ hk, ← Nat.add_assoc, ctxByte_behind, ← h4, ofBV_toBV]

/-- C133: with neither, the tag is a copy: the encrypted first counter block, that counter block, 16 zero bytes, and the memory behind. -/
theorem C133_empty (E : Block → Block) (iv : List Byte) (n : Nat) (behind : Nat → Byte) (hiv : iv.length < 2 ^ 29) :
    (gcmFinishMem (gcmAad (gcmSetiv (gcmInit E) iv) []) behind n).1 =
      ((E (ofBV (j0 E iv))).toList ++ (ofBV (j0 E iv)).toList ++ List.replicate 16 0 ++ (List.range (n - 48)).map behind).take n := by
  have hy : (gcmAad (gcmSetiv (gcmInit E) iv) []).y = ofBV (j0 E iv) := by
    rw [show j0 E iv = _ from (setiv_y (gcmInit E) (init_ok E) iv hiv).symm, ofBV_toBV]; rfl
  have hbase : (gcmAad (gcmSetiv (gcmInit E) iv) []).baseEctr = E (ofBV (j0 E iv)) := by rw [← hy]; rfl
  have hbuf : (gcmAad (gcmSetiv (gcmInit E) iv) []).buf = zeroBlock := rfl
  have hc : ¬ Counted (gcmAad (gcmSetiv (gcmInit E) iv) []) := by
    rintro (h | h) <;> exact h rfl
  generalize gcmAad (gcmSetiv (gcmInit E) iv) [] = c at *
  apply List.ext_getElem?
  intro k
  by_cases hk : k < n
  · rw [finishMem_get_empty c behind n k hk hc, List.getElem?_take_of_lt hk]
    by_cases h1 : k < 16
    · rw [ctxByte_base _ _ _ h1, List.append_assoc, List.append_assoc, List.getElem?_append_left (by simpa using h1),
        List.getElem?_eq_getElem (by simpa using h1), Vector.getElem_toList]
      simp only [hbase]
    · by_cases h2 : k < 32
      · obtain ⟨j, rfl⟩ : ∃ j, k = 16 + j := ⟨k - 16, by omega⟩
        have hj : j < 16 := by omega
        rw [ctxByte_y _ _ _ hj, List.append_assoc, List.append_assoc, List.getElem?_append_right (by simp), Vector.length_toList,
          Nat.add_sub_cancel_left, List.getElem?_append_left (by simpa using hj), List.getElem?_eq_getElem (by simpa using hj),
          Vector.getElem_toList]
        simp only [hy]
      · by_cases h3 : k < 48
        · obtain ⟨j, rfl⟩ : ∃ j, k = 32 + j := ⟨k - 32, by omega⟩
          have hj : j < 16 := by omega
          rw [ctxByte_buf _ _ _ hj, List.append_assoc, List.getElem?_append_right (by simp), List.length_append, Vector.length_toList,
            Vector.length_toList, Nat.add_sub_cancel_left, List.getElem?_append_left (by simpa using hj), List.getElem?_replicate_of_lt hj]
          simp only [hbuf]
          simp [zeroBlock]
        · obtain ⟨j, rfl⟩ : ∃ j, k = 48 + j := ⟨k - 48, by omega⟩
          rw [ctxByte_behind, List.getElem?_append_right (by simp), List.length_append, List.length_append, Vector.length_toList,
            Vector.length_toList, List.length_replicate, Nat.add_sub_cancel_left, List.getElem?_map, List.getElem?_range (by omega)]
          rfl
  · rw [List.getElem?_eq_none (by rw [finishMem_length]; omega), List.getElem?_eq_none (by rw [List.length_take]; omega)]

/-- C133: sender and receiver who ask for `n` bytes, 16 to 32, get the same tag exactly if the first `n - 16` bytes behind `buf`, which are
the addresses of the cipher context and of the cipher, are the same in both contexts. -/
theorem C133_verify (E : Block → Block) (iv a p out out' : List Byte) (outlen outlen' n : Nat) (behind behind' : Nat → Byte)
    (hiv : iv.length < 2 ^ 29) (ha : a.length < 2 ^ 61) (hp : p.length < 2 ^ 31) (ho : p.length ≤ outlen) (hb : outlen ≤ out.length)
    (ho' : p.length ≤ outlen') (hb' : outlen' ≤ out'.length) (hne : ¬(a = [] ∧ p = [])) (hn : 16 ≤ n) (hn' : n ≤ 32) :
    ∃ r r', gcmEncrypt (gcmAad (gcmSetiv (gcmInit E) iv) a) p out outlen = some r ∧
      gcmDecrypt (gcmAad (gcmSetiv (gcmInit E) iv) a) (r.out.take p.length) out' outlen' = some r' ∧ r'.out.take p.length = p ∧
      ((gcmFinishMem r.ctx behind n).1 = (gcmFinishMem r'.ctx behind' n).1 ↔ ∀ k, k < n - 16 → behind k = behind' k) := by
  obtain ⟨r, h1, _, _, _, _, h6, h7⟩ := sealed_state E iv a p out outlen hiv hp ho hb
  obtain ⟨r₀, g1, _, g3⟩ := C11_gcm_roundtrip (gcmAad (gcmSetiv (gcmInit E) iv) a) p out out' outlen outlen' hp ho hb ho' hb'
  obtain rfl : r = r₀ := Option.some.inj (h1.symm.trans g1)
  refine ⟨r, _, h1, g3, List.take_left' rfl, ?_⟩
  have hc : Counted r.ctx := (sealed_counted h6 h7 ha hp).mpr hne
  constructor
  · intro h k hk
    have h2 := congrArg (fun l : List Byte => l[16 + k]?) h
    simp only at h2
    rw [finishMem_get _ _ _ _ (by omega) hc, finishMem_get _ _ _ _ (by omega) hc, ctxByte_y _ _ _ (by omega), ctxByte_y _ _ _ (by omega),
      ← Nat.add_assoc, ctxByte_behind, ctxByte_behind] at h2
    have h3 := congrArg (r.ctx.y[k]'(by omega) ^^^ ·) (Option.some.inj h2)
    simpa [← BitVec.xor_assoc] using h3
  · intro h
    apply List.ext_getElem?
    intro k
    by_cases hk : k < n
    · rw [finishMem_get _ _ _ _ hk hc, finishMem_get _ _ _ _ hk hc]
      by_cases h16 : k < 16
      · rw [ctxByte_base _ _ _ h16, ctxByte_base _ _ _ h16, ctxByte_buf _ _ _ h16, ctxByte_buf _ _ _ h16]
      · obtain ⟨j, rfl⟩ : ∃ j, k = 16 + j := ⟨k - 16, by omega⟩
        rw [ctxByte_y _ _ _ (by omega), ctxByte_y _ _ _ (by omega), ← Nat.add_assoc, ctxByte_behind, ctxByte_behind, h j (by omega)]
    · rw [List.getElem?_eq_none (by rw [finishMem_length]; omega), List.getElem?_eq_none (by rw [finishMem_length]; omega)]

/-! ### the hash key -/

/-- The blocks of AAD and ciphertext. -/
def dataBlocks (a c : List Byte) : List (BitVec 128) := (chunks a).map padBV ++ (chunks c).map padBV

theorem hp_zero (n : Nat) : hp (List.replicate n (0 : BitVec 128)) = 0 := by
  induction n with
  | zero => rfl
  | succ n ih =>
    rw [List.replicate_succ', hp_append, ih, show (⟨0⟩ : Gf) = 0 from rfl, C_0, add_zero, zero_mul]

/-- The hash keys for which the blocks hash to `d`. -/
noncomputable def stateRoots (a c : List Byte) (d : BitVec 128) : List (BitVec 128) :=
  (hp (dataBlocks a c) + C (⟨d⟩ : Gf)).roots.toList.map Gf.val

theorem stateRoots_length (a c : List Byte) (d : BitVec 128) :
    (stateRoots a c d).length ≤ (a.length + 15) / 16 + (c.length + 15) / 16 := by
  rw [stateRoots, List.length_map, Multiset.length_toList]
  refine (card_roots' _).trans ?_
  rw [natDegree_add_C]
  refine (hp_degree _).trans ?_
  rw [dataBlocks, List.length_append, List.length_map, List.length_map, chunks_count, chunks_count]

theorem mem_stateRoots (a c : List Byte) (d h : BitVec 128) (hne : ∃ x ∈ dataBlocks a c, x ≠ 0) (hd : ghash h (dataBlocks a c) = d) :
    h ∈ stateRoots a c d := by
  have hq : hp (dataBlocks a c) + C (⟨d⟩ : Gf) ≠ 0 := by
    intro h0
    have h1 := congrArg (eval 0) h0
    rw [eval_add, hp_eval_zero, eval_C, eval_zero, zero_add] at h1
    rw [h1, C_0, add_zero, ← hp_zero (dataBlocks a c).length] at h0
    have h2 := hp_injective _ _ _ rfl (List.length_replicate ..) h0
    obtain ⟨x, hx, hx0⟩ := hne
    rw [h2] at hx
    exact hx0 (List.eq_of_mem_replicate hx)
  rw [stateRoots, List.mem_map]
  refine ⟨⟨h⟩, ?_, rfl⟩
  rw [Multiset.mem_toList, mem_roots hq, IsRoot.def, eval_add, hp_eval, eval_C, hd]
  apply Gf.ext
  rw [Gf.val_add]
  exact BitVec.xor_self

/-- C133: a tag of 48 bytes or more gives the hash key away to whoever knows the 16 bytes `z` that follow the two pointers in memory: for every
AAD `a` and ciphertext `c`, not all zero, and every tag there are at most as many keys as blocks; a message of one block leaves one. -/
theorem C133_hash_key (a c t : List Byte) (z : Nat → Byte) (hne : ∃ x ∈ dataBlocks a c, x ≠ 0) :
    ∃ S : List Block, S.length ≤ (a.length + 15) / 16 + (c.length + 15) / 16 ∧
      ∀ (E : Block → Block) (iv p out : List Byte) (outlen n : Nat) (behind : Nat → Byte) (r : GcmResult), iv.length < 2 ^ 29 →
        a.length < 2 ^ 61 → p.length < 2 ^ 31 → p.length ≤ outlen → outlen ≤ out.length → 48 ≤ n →
        gcmEncrypt (gcmAad (gcmSetiv (gcmInit E) iv) a) p out outlen = some r → r.out.take p.length = c →
        (gcmFinishMem r.ctx behind n).1 = t → (∀ k, k < 16 → behind (16 + k) = z k) → E zeroBlock ∈ S := by
  refine ⟨(stateRoots a c (toBV (Vector.ofFn fun i : Fin 16 => t.getD (32 + i.1) 0 ^^^ z i.1))).map ofBV,
    by rw [List.length_map]; exact stateRoots_length _ _ _, ?_⟩
  intro E iv p out outlen n behind r hiv ha hp ho hb hn hr hc ht hz
  obtain ⟨r', h1, h2, _, _, h5, h6, h7⟩ := sealed_state E iv a p out outlen hiv hp ho hb
  obtain rfl : r = r' := Option.some.inj (hr.symm.trans h1)
  have hcc : gcmCipher E iv p = c := h2.symm.trans hc
  rw [hcc] at h5
  have hcount : Counted r.ctx := by
    rw [sealed_counted h6 h7 ha hp]
    rintro ⟨rfl, rfl⟩
    obtain ⟨x, hx, _⟩ := hne
    rw [← hcc] at hx
    exact (nomatch hx)
  have hb : (Vector.ofFn fun i : Fin 16 => t.getD (32 + i.1) 0 ^^^ z i.1 : Block) = r.ctx.buf := by
    apply Vector.ext
    intro k hk
    rw [Vector.getElem_ofFn, ← ht, List.getD_eq_getElem?_getD, finishMem_get _ _ _ _ (by omega) hcount, ctxByte_buf _ _ _ hk,
      show 32 + (32 + k) = 48 + (16 + k) by omega, ctxByte_behind, Option.getD_some, hz k hk, BitVec.xor_assoc, BitVec.xor_self,
      BitVec.xor_zero]
  rw [hb, List.mem_map]
  exact ⟨toBV (E zeroBlock), mem_stateRoots a c _ _ hne h5.symm, ofBV_toBV _⟩

/-- A ciphertext of one block that is not zero meets the hypothesis; there is one candidate at most. -/
example : ∃ x ∈ dataBlocks [] [1, 2, 3], x ≠ 0 := by
  refine ⟨padBV [1, 2, 3], ?_, by decide⟩
  have h : chunks ([1, 2, 3] : List Byte) = [1, 2, 3] :: chunks [] := chunks_of_ne_nil (List.cons_ne_nil _ _)
  rw [dataBlocks, h]
  exact List.mem_append_right _ List.mem_cons_self

end Verif.Props
