import Verif.Model.GcmTrace
import Verif.Spec.GcmAuth
import Verif.Props.Gcm
import Verif.Lemmas.GfField
import Verif.Props.GcmAuth

/-! Property C106: what the table lookups of GHASH reveal. -/
set_option autoImplicit false

namespace Verif.Props
open Verif Spec Model

/-! ### the record does not change the program -/

theorem gFoldlM_val {α β : Type} (f : β → α → GcmTraced β) (g : β → α → β) (h : ∀ b a, (f b a).val = g b a) (l : List α) :
    ∀ b, (l.foldlM f b).val = l.foldl g b := by
  induction l with
  | nil => intro b; rfl
  | cons a l ih =>
    intro b
    rw [List.foldlM_cons, List.foldl_cons, ← h, ← ih]
    rfl

theorem multByteTr_val (HL HH : Vector (BitVec 64) 16) (x : Block) (z : BitVec 64 × BitVec 64) (i : Fin 16) :
    (multByteTr HL HH x z i).val = multByte HL HH x z i := by
  unfold multByteTr multByte
  by_cases h : i.1 ≠ 15
  · simp only [if_pos h]
    rfl
  · simp only [if_neg h]
    rfl

theorem gcmMultTr_val (HL HH : Vector (BitVec 64) 16) (x : Block) : (gcmMultTr HL HH x).val = gcmMult HL HH x := by
  have h := gFoldlM_val _ _ (multByteTr_val HL HH x) [15, 14, 13, 12, 11, 10, 9, 8, 7, 6, 5, 4, 3, 2, 1, 0]
    (HH[(x[15].truncate 4 : BitVec 4).toFin], HL[(x[15].truncate 4 : BitVec 4).toFin])
  exact congrArg (fun z : BitVec 64 × BitVec 64 => putBlock (z.1 >>> 32) z.1 (z.2 >>> 32) z.2) h

/-- C106: with the lookups recorded the functions compute what they compute. -/
theorem C106_same (HL HH : Vector (BitVec 64) 16) (x : Block) (c : GcmCtx) (aad : List Byte) :
    (gcmMultTr HL HH x).val = gcmMult HL HH x ∧ (gcmAadTr c aad).val = gcmAad c aad := by
  refine ⟨gcmMultTr_val HL HH x, ?_⟩
  have h := gFoldlM_val _ _ (fun b p => gcmMultTr_val c.HL c.HH (xorInto b p)) (chunks aad) c.buf
  unfold gcmAad absorb
  rw [← h]
  rfl

/-! ### which entries -/

/-- The entries of `HH` looked up. -/
def hhIdx (l : List GcmLook) : List (BitVec 4) := l.filterMap fun k => if k.tab = .hh then some k.idx else none

/-- The nibbles of a block, the last first. -/
def nibbles (x : Block) : List (BitVec 4) :=
  (List.range 32).map fun k => (toBV x).extractLsb' (4 * k) 4

def loN (x : Block) (i : Fin 16) : BitVec 4 := x[i].truncate 4
def hiN (x : Block) (i : Fin 16) : BitVec 4 := (x[i] >>> 4).truncate 4

/- The nibbles of a block that ends in the byte 5a. -/
example : (nibbles ((Vector.replicate 16 (1 : Byte)).set 15 0x5a)).take 3 = [0xa, 0x5, 0x1] := by decide

theorem hhIdx_append (a b : List GcmLook) : hhIdx (a ++ b) = hhIdx a ++ hhIdx b := List.filterMap_append

theorem multByteTr_log (HL HH : Vector (BitVec 64) 16) (x : Block) (z : BitVec 64 × BitVec 64) (i : Fin 16) :
    hhIdx (multByteTr HL HH x z i).log =
      if i.1 ≠ 15 then [loN x i, hiN x i] else [hiN x i] := by
  unfold multByteTr
  by_cases h : i.1 ≠ 15
  · simp only [if_pos h]
    rfl
  · simp only [if_neg h]
    rfl

theorem multBytesTr_log (HL HH : Vector (BitVec 64) 16) (x : Block) (l : List (Fin 16)) : ∀ z : BitVec 64 × BitVec 64,
    hhIdx (l.foldlM (multByteTr HL HH x) z).log = l.flatMap fun i =>
      if i.1 ≠ 15 then [loN x i, hiN x i] else [hiN x i] := by
  induction l with
  | nil => intro z; rfl
  | cons i l ih =>
    intro z
    rw [List.foldlM_cons, List.flatMap_cons, ← multByteTr_log HL HH x z i, ← ih (multByteTr HL HH x z i).val, ← hhIdx_append]
    rfl

theorem nib_lo (x : Block) (i : Fin 16) : (toBV x).extractLsb' (8 * (15 - i.1)) 4 = loN x i := by
  apply BitVec.eq_of_getLsbD_eq
  intro j hj
  rw [BitVec.getLsbD_extractLsb', toBV_getLsbD x _ (by omega), loN, BitVec.truncate_eq_setWidth, BitVec.getLsbD_setWidth]
  have h1 : 15 - (8 * (15 - i.1) + j) / 8 = i.1 := by omega
  have h2 : (8 * (15 - i.1) + j) % 8 = j := by omega
  simp only [h1, h2]
  rfl

theorem nib_hi (x : Block) (i : Fin 16) : (toBV x).extractLsb' (8 * (15 - i.1) + 4) 4 = hiN x i := by
  apply BitVec.eq_of_getLsbD_eq
  intro j hj
  rw [BitVec.getLsbD_extractLsb', toBV_getLsbD x _ (by omega), hiN, BitVec.truncate_eq_setWidth, BitVec.getLsbD_setWidth,
    BitVec.getLsbD_ushiftRight]
  have h1 : 15 - (8 * (15 - i.1) + 4 + j) / 8 = i.1 := by omega
  have h2 : (8 * (15 - i.1) + 4 + j) % 8 = 4 + j := by omega
  simp only [h1, h2]
  rfl

/-- C106: the entries of `HH` that a multiplication looks up are the nibbles of its argument. -/
theorem C106_index (HL HH : Vector (BitVec 64) 16) (x : Block) : hhIdx (gcmMultTr HL HH x).log = nibbles x := by
  have h : hhIdx (gcmMultTr HL HH x).log = (loN x 15 :: ([15, 14, 13, 12, 11, 10, 9, 8, 7, 6, 5, 4, 3, 2, 1, 0] : List (Fin 16)).flatMap fun i =>
      if i.1 ≠ 15 then [loN x i, hiN x i] else [hiN x i]) := by
    rw [← multBytesTr_log HL HH x _ (HH[(x[15].truncate 4 : BitVec 4).toFin], HL[(x[15].truncate 4 : BitVec 4).toFin])]
    have e : (gcmMultTr HL HH x).log = [⟨.hh, x[15].truncate 4⟩] ++ ([⟨.hl, x[15].truncate 4⟩] ++
      ((([15, 14, 13, 12, 11, 10, 9, 8, 7, 6, 5, 4, 3, 2, 1, 0] : List (Fin 16)).foldlM (multByteTr HL HH x)
        (HH[(x[15].truncate 4 : BitVec 4).toFin], HL[(x[15].truncate 4 : BitVec 4).toFin])).log ++ [])) := rfl
    rw [e, List.append_nil, hhIdx_append, hhIdx_append]
    rfl
  rw [h]
  simp only [← nib_lo, ← nib_hi]
  rfl

/-! ### which tables -/

/-- The tables of a 4-bit step. -/
def stepTabs : List GcmTab := [.last4, .hh, .hl]

theorem multBytesTr_tabs (HL HH : Vector (BitVec 64) 16) (x : Block) (l : List (Fin 16)) : ∀ z : BitVec 64 × BitVec 64,
    (l.foldlM (multByteTr HL HH x) z).log.map GcmLook.tab = l.flatMap fun i => if i.1 ≠ 15 then stepTabs ++ stepTabs else stepTabs := by
  induction l with
  | nil => intro z; rfl
  | cons i l ih =>
    intro z
    rw [List.foldlM_cons, List.flatMap_cons, ← ih (multByteTr HL HH x z i).val]
    have h : (multByteTr HL HH x z i).log.map GcmLook.tab = if i.1 ≠ 15 then stepTabs ++ stepTabs else stepTabs := by
      unfold multByteTr
      by_cases h : i.1 ≠ 15
      · simp only [if_pos h]
        rfl
      · simp only [if_neg h]
        rfl
    rw [← h, ← List.map_append]
    rfl

theorem gcmMultTr_tabs (HL HH : Vector (BitVec 64) 16) (x : Block) :
    (gcmMultTr HL HH x).log.map GcmLook.tab = [.hh, .hl] ++ (List.replicate 31 stepTabs).flatten := by
  have e : (gcmMultTr HL HH x).log = [⟨.hh, x[15].truncate 4⟩] ++ ([⟨.hl, x[15].truncate 4⟩] ++
      ((([15, 14, 13, 12, 11, 10, 9, 8, 7, 6, 5, 4, 3, 2, 1, 0] : List (Fin 16)).foldlM (multByteTr HL HH x)
        (HH[(x[15].truncate 4 : BitVec 4).toFin], HL[(x[15].truncate 4 : BitVec 4).toFin])).log ++ [])) := rfl
  rw [e, List.append_nil, List.map_append, List.map_append, multBytesTr_tabs]
  show [GcmTab.hh] ++ ([GcmTab.hl] ++ _) = _
  decide

/-- C106: which tables are looked up, and how often, depends on the number of blocks only. -/
theorem C106_shape (c : GcmCtx) (aad : List Byte) : (gcmAadTr c aad).log.map GcmLook.tab =
    (List.replicate ((aad.length + 15) / 16) ([.hh, .hl] ++ (List.replicate 31 [.last4, .hh, .hl]).flatten)).flatten := by
  have h : ∀ (l : List (List Byte)) (b : Block), (l.foldlM (fun b p => gcmMultTr c.HL c.HH (xorInto b p)) b).log.map GcmLook.tab =
      (List.replicate l.length ([.hh, .hl] ++ (List.replicate 31 stepTabs).flatten)).flatten := by
    intro l
    induction l with
    | nil => intro b; rfl
    | cons p l ih =>
      intro b
      rw [List.foldlM_cons, List.length_cons, List.replicate_succ, List.flatten_cons,
        ← ih (gcmMultTr c.HL c.HH (xorInto b p)).val, ← gcmMultTr_tabs c.HL c.HH (xorInto b p), ← List.map_append]
      rfl
  have e : (gcmAadTr c aad).log = ((chunks aad).foldlM (fun b p => gcmMultTr c.HL c.HH (xorInto b p)) c.buf).log ++ [] := rfl
  rw [e, List.append_nil, h, chunks_count]
  rfl

/-! ### the hash key -/

theorem exists_of_inj {α β γ : Type} [Inhabited γ] (o : α → β) (k : α → γ) (h : ∀ a b, o a = o b → k a = k b) :
    ∃ f : β → γ, ∀ a, f (o a) = k a := by
  classical
  refine ⟨fun b => if hb : ∃ a, o a = b then k hb.choose else default, fun a => ?_⟩
  have hb : ∃ a', o a' = o a := ⟨a, rfl⟩
  show (if hb : ∃ a', o a' = o a then k hb.choose else default) = _
  rw [dif_pos hb]
  exact h _ _ hb.choose_spec

theorem nibbles_length (x : Block) : (nibbles x).length = 32 := by
  rw [nibbles, List.length_map, List.length_range]

theorem nibbles_get {x y : Block} (g : BitVec 4 → Bool) (h : (nibbles x).map g = (nibbles y).map g) (k : Nat) (hk : k < 32) :
    g ((toBV x).extractLsb' (4 * k) 4) = g ((toBV y).extractLsb' (4 * k) 4) := by
  have := congrArg (fun l => l[k]?) h
  simp only [nibbles, List.map_map, List.getElem?_map, List.getElem?_range hk, Option.map_some, Function.comp] at this
  exact Option.some.inj this

theorem nibbles_inj {x y : Block} (h : nibbles x = nibbles y) : x = y := by
  apply toBV_injective
  apply BitVec.eq_of_getLsbD_eq
  intro i hi
  have := nibbles_get (fun v => v.getLsbD (i % 4)) (congrArg _ h) (i / 4) (by omega)
  simp only [BitVec.getLsbD_extractLsb'] at this
  rw [show 4 * (i / 4) + i % 4 = i by omega] at this
  simpa [Nat.mod_lt] using this

theorem aadTr_two (c : GcmCtx) (aad : List Byte) (h : 17 ≤ aad.length) : ∃ r, hhIdx (gcmAadTr c aad).log =
    nibbles (xorInto c.buf (aad.take 16)) ++
      (nibbles (xorInto (gcmMult c.HL c.HH (xorInto c.buf (aad.take 16))) ((aad.drop 16).take 16)) ++ r) := by
  have h1 : aad ≠ [] := by rintro rfl; simp at h
  have h2 : aad.drop 16 ≠ [] := by
    intro e
    have := congrArg List.length e
    rw [List.length_drop, List.length_nil] at this
    omega
  have hc : chunks aad = aad.take 16 :: (aad.drop 16).take 16 :: chunks ((aad.drop 16).drop 16) := by
    rw [chunks_of_ne_nil h1, chunks_of_ne_nil h2]
  obtain ⟨r, hr⟩ : ∃ r, (gcmAadTr c aad).log = (gcmMultTr c.HL c.HH (xorInto c.buf (aad.take 16))).log ++
      ((gcmMultTr c.HL c.HH (xorInto (gcmMultTr c.HL c.HH (xorInto c.buf (aad.take 16))).val ((aad.drop 16).take 16))).log ++ r) := by
    have e : (gcmAadTr c aad).log = ((chunks aad).foldlM (fun b p => gcmMultTr c.HL c.HH (xorInto b p)) c.buf).log ++ [] := rfl
    rw [e, hc, List.append_nil]
    simp only [List.foldlM_cons]
    exact ⟨_, rfl⟩
  refine ⟨hhIdx r, ?_⟩
  rw [hr, hhIdx_append, hhIdx_append, C106_index, C106_index, gcmMultTr_val]

/-- What the second multiplication gets. -/
theorem second_arg (E : Block → Block) (iv p q : List Byte) :
    toBV (xorInto (gcmMult (gcmSetiv (gcmInit E) iv).HL (gcmSetiv (gcmInit E) iv).HH (xorInto (gcmSetiv (gcmInit E) iv).buf p)) q) =
      gfMul (padBV p) (hashKey E) ^^^ padBV q := by
  rw [toBV_xorInto]
  have : toBV (gcmMult (gcmSetiv (gcmInit E) iv).HL (gcmSetiv (gcmInit E) iv).HH (xorInto (gcmSetiv (gcmInit E) iv).buf p)) =
      gfMul (toBV (xorInto zeroBlock p)) (toBV (E zeroBlock)) := C09_gcm_mult _ _
  rw [this, toBV_xorInto, toBV_zero]
  rw [show (0 : BitVec 128) = 0#128 from rfl, BitVec.zero_xor]
  rfl

/-- C106: the AAD, if its first block is not zero and it goes on after that, and the lookups made for it give the hash key. -/
theorem C106_key : ∃ f : List Byte → List GcmLook → Block, ∀ (E : Block → Block) (iv aad : List Byte), 17 ≤ aad.length →
    (∃ b ∈ aad.take 16, b ≠ 0) → f aad (gcmAadTr (gcmSetiv (gcmInit E) iv) aad).log = E zeroBlock := by
  obtain ⟨f, hf⟩ := exists_of_inj (γ := Block)
    (fun a : {a : (Block → Block) × List Byte × List Byte // 17 ≤ a.2.2.length ∧ ∃ b ∈ a.2.2.take 16, b ≠ 0} =>
      (a.1.2.2, (gcmAadTr (gcmSetiv (gcmInit a.1.1) a.1.2.1) a.1.2.2).log)) (fun a => a.1.1 zeroBlock) (by
    rintro ⟨⟨E, iv, aad⟩, hl, b, hb, hb0⟩ ⟨⟨E', iv', aad'⟩, hl', hb'⟩ h
    simp only [Prod.mk.injEq] at h
    obtain ⟨rfl, h⟩ := h
    obtain ⟨r, hr⟩ := aadTr_two (gcmSetiv (gcmInit E) iv) aad hl
    obtain ⟨r', hr'⟩ := aadTr_two (gcmSetiv (gcmInit E') iv') aad hl
    rw [h, hr'] at hr
    obtain ⟨-, h2⟩ := List.append_inj hr (by rw [nibbles_length, nibbles_length])
    obtain ⟨h2, -⟩ := List.append_inj h2 (by rw [nibbles_length, nibbles_length])
    have h3 := congrArg toBV (nibbles_inj h2)
    rw [second_arg, second_arg] at h3
    have h4 : gfMul (padBV (aad.take 16)) (hashKey E') = gfMul (padBV (aad.take 16)) (hashKey E) := by
      have := congrArg (· ^^^ padBV ((aad.drop 16).take 16)) h3
      simpa only [BitVec.xor_assoc, BitVec.xor_self, BitVec.xor_zero] using this
    have h0 : (⟨padBV (aad.take 16)⟩ : Gf) ≠ 0 := by
      intro e
      have e : padBV (aad.take 16) = toBV zeroBlock := by rw [toBV_zero]; exact congrArg Gf.val e
      have e := toBV_injective e
      obtain ⟨i, hi, rfl⟩ := List.mem_iff_getElem.mp hb
      have hi16 : i < 16 := by rw [List.length_take] at hi; omega
      have := congrArg (fun v : Block => v[i]) e
      simp only [Vector.getElem_ofFn] at this
      apply hb0
      rw [List.getD_eq_getElem?_getD, List.getElem?_eq_getElem hi] at this
      rw [Option.getD_some] at this
      rw [this]
      simp [zeroBlock]
    have h5 : (⟨padBV (aad.take 16)⟩ : Gf) * ⟨hashKey E'⟩ = ⟨padBV (aad.take 16)⟩ * ⟨hashKey E⟩ := by
      apply Gf.ext
      rw [Gf.val_mul, Gf.val_mul, h4]
    have h6 := congrArg Gf.val (mul_left_cancel₀ h0 h5)
    exact (toBV_injective h6).symm)
  exact ⟨fun aad l => f (aad, l), fun E iv aad hl hb => hf ⟨(E, iv, aad), hl, hb⟩⟩

/- An AAD of 17 bytes that will do. -/
example : 17 ≤ (1 :: List.replicate 16 (0 : Byte)).length ∧ ∃ b ∈ (1 :: List.replicate 16 (0 : Byte)).take 16, b ≠ 0 :=
  ⟨by simp, 1, by simp, by decide⟩

/-- C106: with the hash key the tag of one message gives those of all messages under the same IV. -/
theorem C106_forge : ∃ f : List Byte → List GcmLook → List Byte × List Byte × Block → List Byte × List Byte → Block,
    ∀ (E : Block → Block) (iv aad iv' a c a' c' : List Byte), 17 ≤ aad.length → (∃ b ∈ aad.take 16, b ≠ 0) →
      f aad (gcmAadTr (gcmSetiv (gcmInit E) iv) aad).log (a, c, gcmTag E iv' a c) (a', c') = gcmTag E iv' a' c' := by
  obtain ⟨f, hf⟩ := C106_key
  refine ⟨fun aad l m m' => m.2.2 ^^^ ofBV (ghash (toBV (f aad l)) (gcmBlocks m.1 m.2.1)) ^^^
    ofBV (ghash (toBV (f aad l)) (gcmBlocks m'.1 m'.2)), fun E iv aad iv' a c a' c' hl hb => ?_⟩
  simp only [hf E iv aad hl hb]
  show E (ofBV (j0 E iv')) ^^^ ofBV (ghash (toBV (E zeroBlock)) (gcmBlocks a c)) ^^^ ofBV (ghash (toBV (E zeroBlock)) (gcmBlocks a c)) ^^^
    ofBV (ghash (toBV (E zeroBlock)) (gcmBlocks a' c')) = E (ofBV (j0 E iv')) ^^^ ofBV (ghash (toBV (E zeroBlock)) (gcmBlocks a' c'))
  apply toBV_injective
  simp only [toBV_xor, BitVec.xor_assoc]
  rw [← BitVec.xor_assoc (toBV (ofBV (ghash (toBV (E zeroBlock)) (gcmBlocks a c)))), BitVec.xor_self, BitVec.zero_xor]

/-! ### half tables only -/

/-- What is seen of the lookups when only the half of the table is seen: eight entries are 64 bytes. -/
def halfLooks (l : List GcmLook) : List (GcmTab × Bool) := l.map fun k => (k.tab, k.idx.getLsbD 3)

/-- AAD of two blocks: one bit and zeros. -/
def probe (i : Nat) : List Byte := (0x80#8 >>> i) :: List.replicate 31 0

theorem hhIdx_halfLooks {l l' : List GcmLook} (h : halfLooks l = halfLooks l') :
    (hhIdx l).map (·.getLsbD 3) = (hhIdx l').map (·.getLsbD 3) := by
  have e : ∀ l : List GcmLook, (hhIdx l).map (·.getLsbD 3) = (halfLooks l).filterMap fun p => if p.1 = .hh then some p.2 else none := by
    intro l
    rw [hhIdx, halfLooks, List.map_filterMap, List.filterMap_map]
    congr 1
    funext k
    by_cases hk : k.tab = .hh <;> simp [hk]
  rw [e, e, h]

/-- Every fourth bit. -/
def tops (v : BitVec 128) : Prop := ∀ k < 32, v.getLsbD (4 * k + 3) = false

theorem tops_zero (u : BitVec 128) (h0 : tops u) (h1 : tops (mulx u)) (h2 : tops (mulx (mulx u))) (h3 : tops (mulx (mulx (mulx u)))) :
    u = 0#128 := by
  have step : ∀ w : BitVec 128, tops (mulx w) → w.getLsbD 0 = false ∧ mulx w = w >>> 1 := by
    intro w h
    have hw : w.getLsbD 0 = false := by
      have := h 31 (by decide)
      rw [mulx_eq, BitVec.getLsbD_xor, BitVec.getLsbD_ushiftRight, BitVec.getLsbD_of_ge w _ (by decide)] at this
      cases h0 : w.getLsbD 0 with
      | false => rfl
      | true =>
        rw [h0] at this
        exact absurd this (by decide)
    exact ⟨hw, mulx_even w hw⟩
  obtain ⟨a0, e1⟩ := step u h1
  rw [e1] at h2 h3 h1
  obtain ⟨a1, e2⟩ := step _ h2
  rw [e2] at h3 h2
  obtain ⟨a2, e3⟩ := step _ h3
  rw [e3] at h3
  apply BitVec.eq_of_getLsbD_eq
  intro i hi
  rw [BitVec.getLsbD_zero]
  simp only [tops, BitVec.getLsbD_ushiftRight] at h0 h1 h2 h3 a1 a2
  by_cases hs : i < 3
  · match i, hs with
    | 0, _ => exact a0
    | 1, _ => exact a1
    | 2, _ => exact a2
  · have hk : (i - 3) / 4 < 32 := by omega
    have hj : (i - 3) % 4 < 4 := Nat.mod_lt _ (by decide)
    have hij : i = 4 * ((i - 3) / 4) + 3 + (i - 3) % 4 := by omega
    rw [hij]
    generalize (i - 3) / 4 = k at hk
    generalize (i - 3) % 4 = j at hj
    match j, hj with
    | 0, _ => exact h0 k hk
    | 1, _ => rw [← h1 k hk]; congr 1; omega
    | 2, _ => rw [← h2 k hk]; congr 1; omega
    | 3, _ => rw [← h3 k hk]; congr 1; omega

theorem tops_inj (u v : BitVec 128) (h : ∀ i < 4, ∀ k < 32, (gfMul (BitVec.twoPow 128 (127 - i)) u).getLsbD (4 * k + 3) =
    (gfMul (BitVec.twoPow 128 (127 - i)) v).getLsbD (4 * k + 3)) : u = v := by
  have hx : ∀ i < 4, tops (gfMul (BitVec.twoPow 128 (127 - i)) (u ^^^ v)) := by
    intro i hi k hk
    rw [gfMul_xor_right, BitVec.getLsbD_xor, h i hi k hk, Bool.xor_self]
  have m0 : ∀ w, gfMul (BitVec.twoPow 128 127) w = w := fun w => by
    rw [gfMul_comm]; exact gfMul_one w
  have k2 : gfMul (BitVec.twoPow 128 126) (BitVec.twoPow 128 126) = BitVec.twoPow 128 125 := by decide +kernel
  have k3 : gfMul (BitVec.twoPow 128 126) (BitVec.twoPow 128 125) = BitVec.twoPow 128 124 := by decide +kernel
  have m2 : ∀ w, gfMul (BitVec.twoPow 128 125) w = mulx (mulx w) := fun w => by
    rw [Gf.mulx_eq_mul, Gf.mulx_eq_mul, ← gfMul_assoc, k2]
  have m3 : ∀ w, gfMul (BitVec.twoPow 128 124) w = mulx (mulx (mulx w)) := fun w => by
    rw [Gf.mulx_eq_mul (mulx (mulx w)), ← m2, ← gfMul_assoc, k3]
  have t0 := hx 0 (by decide)
  have t1 := hx 1 (by decide)
  have t2 := hx 2 (by decide)
  have t3 := hx 3 (by decide)
  rw [m0] at t0
  rw [← Gf.mulx_eq_mul] at t1
  rw [m2] at t2
  rw [m3] at t3
  have := tops_zero _ t0 t1 t2 t3
  have e := congrArg (· ^^^ v) this
  simpa only [BitVec.xor_assoc, BitVec.xor_self, BitVec.xor_zero, BitVec.zero_xor] using e

theorem probe_fst (i : Nat) (hi : i < 4) : padBV ((probe i).take 16) = BitVec.twoPow 128 (127 - i) := by
  revert i; decide

theorem probe_snd (i : Nat) (hi : i < 4) : padBV (((probe i).drop 16).take 16) = 0#128 := by
  revert i; decide

/-- C106: which half of the tables is looked up for four AADs under one key gives the hash key. -/
theorem C106_halves : ∃ f : (Fin 4 → List (GcmTab × Bool)) → Block, ∀ (E : Block → Block) (iv : Fin 4 → List Byte),
    f (fun i => halfLooks (gcmAadTr (gcmSetiv (gcmInit E) (iv i)) (probe i.1)).log) = E zeroBlock := by
  obtain ⟨f, hf⟩ := exists_of_inj (γ := Block)
    (fun a : (Block → Block) × (Fin 4 → List Byte) => fun i : Fin 4 => halfLooks (gcmAadTr (gcmSetiv (gcmInit a.1) (a.2 i)) (probe i.1)).log)
    (fun a => a.1 zeroBlock) (by
    rintro ⟨E, iv⟩ ⟨E', iv'⟩ h
    apply toBV_injective
    apply tops_inj
    intro i hi k hk
    have h1 := hhIdx_halfLooks (congrFun h ⟨i, hi⟩)
    simp only at h1
    obtain ⟨r, hr⟩ := aadTr_two (gcmSetiv (gcmInit E) (iv ⟨i, hi⟩)) (probe i) (by simp [probe])
    obtain ⟨r', hr'⟩ := aadTr_two (gcmSetiv (gcmInit E') (iv' ⟨i, hi⟩)) (probe i) (by simp [probe])
    rw [hr, hr', List.map_append, List.map_append, List.map_append, List.map_append] at h1
    obtain ⟨-, h2⟩ := List.append_inj h1 (by rw [List.length_map, List.length_map, nibbles_length, nibbles_length])
    obtain ⟨h2, -⟩ := List.append_inj h2 (by rw [List.length_map, List.length_map, nibbles_length, nibbles_length])
    have h3 := nibbles_get _ h2 k hk
    rw [second_arg, second_arg] at h3
    simp only [BitVec.getLsbD_extractLsb'] at h3
    rw [probe_fst i hi, probe_snd i hi, BitVec.xor_zero, BitVec.xor_zero] at h3
    rw [hashKey, hashKey] at h3
    simpa using h3)
  exact ⟨f, fun E iv => hf (E, iv)⟩

end Verif.Props
