import Verif.Lemmas.FpeCn

/-! C56, C57: Chinese text. -/
set_option autoImplicit false

namespace Verif.Props
open Verif Spec Model

/-! ### C57: the codecs -/

/-- C57: a code point up to `U+FFFF` is written in its three-byte UTF-8 form, and reading that form gives it back. -/
theorem C57_utf8_roundtrip (cp : Nat) (h : cp ≤ 0xFFFF) :
    utf8OfU32 (BitVec.ofNat 32 cp) = utf8Three cp ∧
    ∃ a b c, utf8Three cp = [a, b, c] ∧ utf8ToU32 a b c = BitVec.ofNat 32 cp :=
  ⟨utf8OfU32_eq cp h, _, _, _, rfl, utf8ToU32_three cp h⟩

/-- C57: every three bytes of the UTF-8 form are reproduced, and no other bytes: the reader does not check the
form. -/
theorem C57_utf8_bytes (a b c : Byte) :
    utf8OfU32 (utf8ToU32 a b c) = [a, b, c] ↔
      (0xE0 ≤ a.toNat ∧ a.toNat ≤ 0xEF) ∧ (0x80 ≤ b.toNat ∧ b.toNat ≤ 0xBF) ∧ (0x80 ≤ c.toNat ∧ c.toNat ≤ 0xBF) := by
  have ha := a.isLt
  have hb := b.isLt
  have hc := c.isLt
  have ht := utf8ToU32_toNat a b c
  generalize hn : a.toNat % 16 * 4096 + b.toNat % 64 * 64 + c.toNat % 64 = n at ht
  have hle : n ≤ 0xFFFF := by omega
  have e : utf8ToU32 a b c = BitVec.ofNat 32 n := by
    apply BitVec.eq_of_toNat_eq
    rw [ht, BitVec.toNat_ofNat, Nat.mod_eq_of_lt (by omega)]
  rw [e, utf8OfU32_eq n hle, utf8Three]
  simp only [List.cons.injEq, and_true]
  rw [← BitVec.toNat_inj, ← BitVec.toNat_inj, ← BitVec.toNat_inj]
  simp only [BitVec.toNat_ofNat]
  constructor
  · rintro ⟨h1, h2, h3⟩
    omega
  · rintro ⟨h1, h2, h3⟩
    omega

example : utf8OfU32 (utf8ToU32 0xe4 0xb8 0xad) = [0xe4, 0xb8, 0xad] :=
  (C57_utf8_bytes _ _ _).mpr (by decide)

/-- C57: the offset of a code point counts from U+4E00, and the code point comes back from it: for code points below the first one too
(their offset is negative), and for every offset from 0 to 20735. -/
theorem C57_offset_roundtrip (cp : Nat) (h : cp ≤ 0xFFFF) (v : Nat) (hv : v ≤ 20735) :
    utf8U32ToInt (BitVec.ofNat 32 cp) = (cp : Int) - 0x4E00 ∧ utf8IntToU32 ((cp : Int) - 0x4E00) = BitVec.ofNat 32 cp ∧
    utf8IntToU32 (v : Int) = BitVec.ofNat 32 (0x4E00 + v) ∧ utf8U32ToInt (utf8IntToU32 (v : Int)) = (v : Int) := by
  refine ⟨utf8U32ToInt_eq cp h, ?_, ?_, ?_⟩
  · unfold utf8IntToU32
    apply BitVec.eq_of_toNat_eq
    simp only [BitVec.toNat_ofInt, BitVec.toNat_ofNat]
    omega
  · rw [utf8IntToU32_eq v hv, Nat.add_comm]
  · rw [utf8IntToU32_eq v hv, utf8U32ToInt_eq _ (by omega)]
    omega

/- U+4E2D is number 45. -/
example : utf8U32ToInt (BitVec.ofNat 32 0x4E2D) = 45 ∧ utf8IntToU32 45 = BitVec.ofNat 32 0x4E2D := by
  have := C57_offset_roundtrip 0x4E2D (by decide) 45 (by decide)
  exact ⟨this.1, this.2.1⟩

/-- C57: for offsets from 0 to 20735 the first four characters written are numerals of radix 12 (least significant
first, the fifth is `0`), and they are read back as the offset, whatever follows up to the terminator. -/
theorem C57_duo_roundtrip (v : Nat) (h : v ≤ 20735) :
    ∃ s : List Byte, duoEncode v = s ++ [0x30] ∧ s.length = 4 ∧ (∀ c ∈ s, IsNumeral 12 c) ∧
      s.map numeralVal = [v % 12, v / 12 % 12, v / 144 % 12, v / 1728 % 12] ∧
      ∀ rest : List Byte, (0 : Byte) ∈ rest → duoDecode (s ++ rest) = some (v : Int) := by
  refine ⟨duo4 v, duoEncode_eq v h, length_duo4 v, duo4_numeral v, ?_, fun rest h0 => duoDecode_duo4 v h rest h0⟩
  have hlt : ∀ d ∈ num2strRev v 12 4, d < 36 := fun d hd => by
    rw [num2strRev_eq, List.mem_reverse] at hd
    have := num2str_lt 12 (by decide) 4 v d hd
    omega
  have e := vals_chars _ hlt
  unfold vals at e
  rw [duo4, e]
  simp only [num2strRev, Nat.div_div_eq_div_mul, Nat.reduceMul]

/-- C57: every string of four numerals of radix 12 is the encoding of the offset it decodes to. -/
theorem C57_duo_surjective (s : List Byte) (h4 : s.length = 4) (hs : ∀ c ∈ s, IsNumeral 12 c) :
    ∃ v : Nat, v ≤ 20735 ∧ duoEncode v = s ++ [0x30] ∧
      ∀ rest : List Byte, (0 : Byte) ∈ rest → duoDecode (s ++ rest) = some (v : Int) := by
  obtain ⟨v, hv, e⟩ := duo4_surj s h4 hs
  refine ⟨v, hv, ?_, ?_⟩
  · rw [duoEncode_eq v hv, e]
  · intro rest h0
    rw [← e]
    exact duoDecode_duo4 v hv rest h0

/-- C57: outside the range nothing is written; inside five bytes are; and the reader returns an offset in
the range for every string. -/
theorem C57_duo_range (dec : Int) :
    (duoEncode dec = [] ↔ dec < 0 ∨ 20735 < dec) ∧ (0 ≤ dec ∧ dec ≤ 20735 → (duoEncode dec).length = 5) ∧
    ∀ s v, duoDecode s = some v → 0 ≤ v ∧ v ≤ 20735 := by
  have key : 0 ≤ dec ∧ dec ≤ 20735 → (duoEncode dec).length = 5 := by
    rintro ⟨h1, h2⟩
    obtain ⟨v, rfl⟩ := Int.eq_ofNat_of_zero_le h1
    rw [duoEncode_eq v (by omega), List.length_append, length_duo4]
    rfl
  refine ⟨⟨fun h => ?_, fun h => ?_⟩, key, fun s v h => duoDecode_range s v h⟩
  · by_cases hr : 0 ≤ dec ∧ dec ≤ 20735
    · have := key hr
      rw [h] at this
      cases this
    · omega
  · unfold duoEncode
    rw [if_pos (by omega)]

/-! ### C56: text -/

/-- A sample string and the flags it stands for, for a text of `n` characters: the empty string hides all;
otherwise there is one item per character. -/
def CnSample (smp : List Byte) (mask : List Bool) (n : Nat) : Prop :=
  (smp = [] ∧ mask = List.replicate n false) ∨
  ∃ items, SampleOk items ∧ items ≠ [] ∧ items.length = n ∧ smp = sampleOf items ∧ mask = items.map Option.isSome

theorem CnSample.length {smp : List Byte} {mask : List Bool} {n : Nat} (h : CnSample smp mask n) : mask.length = n := by
  rcases h with ⟨_, rfl⟩ | ⟨items, _, _, rfl, _, rfl⟩ <;> simp

theorem sampleOf_ne_nil (items : List (Option (Byte × Byte × Byte))) (h : items ≠ []) : sampleOf items ≠ [] := by
  cases items with
  | nil => exact absurd rfl h
  | cons x l =>
    cases x with
    | none => simp [sampleOf]
    | some abc => obtain ⟨a, b, c⟩ := abc; simp [sampleOf]

theorem fpeInit_twelve (t : List Byte) (E : Block → Block) : fpeInit t 12 E = some ⟨E, 12, t⟩ := rfl

theorem set_last (l : List Byte) (x c : Byte) (n : Nat) (h : l.length = n) : (l ++ [x]).set n c = l ++ [c] := by
  rw [List.set_append_right _ _ (by omega), ← h, Nat.sub_self]
  rfl

/-- What `aux_fpe_cn` computes, in terms of the engine. -/
theorem auxCn_eq (app : FpeApp) (mem : AppMem) (cps : List Nat) (smp rest more after : List Byte) (mask : List Bool)
    (hr : ∀ cp ∈ cps, InCnRange cp) (hm : CnSample smp mask cps.length) (block : FpeFn) :
    auxCn app mem (utf8Text cps ++ 0 :: rest) (smp ++ 0 :: more) after block =
      (block ⟨app.E, 12, duoText (pick true mask cps) ++ [0]⟩ (duoText (pick false mask cps) ++ [0])
        (vla mem.ans (4 * mask.count false + mem.slack))).bind fun ans =>
      (cnMergeMask (utf8Text cps ++ 0 :: rest) ans mask ⟨after, 0, 0⟩).bind fun o => some o.out := by
  have hl := hm.length
  have hcount := count_flags mask
  have hlt := length_pick true mask cps hl
  have hlf := length_pick false mask cps hl
  have hz : ∀ c ∈ smp, c ≠ 0 := by
    rcases hm with ⟨rfl, _⟩ | ⟨items, h1, _, _, rfl, _⟩
    · simp
    · exact (sampleOf_ne_zero items h1).1
  unfold auxCn
  rw [cstr_append _ rest (utf8Text_ne_zero cps hr), cstr_append smp more hz]
  simp only [Option.bind_some]
  rw [length_utf8Text, Nat.mul_div_cancel_left _ (by decide : 0 < 3)]
  have htw : (if smp = [] then some 0 else if smp.count 0x2a ≤ cps.length then some (cps.length - smp.count 0x2a)
      else none) = some (mask.count true) := by
    rcases hm with ⟨rfl, rfl⟩ | ⟨items, h1, h2, h3, rfl, rfl⟩
    · rw [if_pos rfl, List.count_replicate]; rfl
    · rw [if_neg (sampleOf_ne_nil items h2), (sampleOf_ne_zero items h1).2, if_pos (by omega)]
      congr 1
      omega
  rw [htw]
  simp only [Option.bind_some]
  have hsub : cps.length - mask.count true = mask.count false := by omega
  rw [hsub]
  have hsplit : ∀ s, (if smp = [] then cnSplitAll (utf8Text cps ++ 0 :: rest) cps.length s
      else cnSplitLoop (utf8Text cps ++ 0 :: rest) smp s) = cnSplitMask (utf8Text cps ++ 0 :: rest) mask s := by
    intro s
    rcases hm with ⟨rfl, rfl⟩ | ⟨items, h1, h2, h3, rfl, rfl⟩
    · rw [if_pos rfl]; exact cnSplitAll_eq _ _ s
    · rw [if_neg (sampleOf_ne_nil items h2)]; exact cnSplitLoop_eq _ items h1 s
  have hmerge : ∀ ans s, (if smp = [] then cnMergeAll ans cps.length s
      else cnMergeLoop (utf8Text cps ++ 0 :: rest) ans smp s) =
      cnMergeMask (utf8Text cps ++ 0 :: rest) ans mask s := by
    intro ans s
    rcases hm with ⟨rfl, rfl⟩ | ⟨items, h1, h2, h3, rfl, rfl⟩
    · rw [if_pos rfl]; exact cnMergeAll_eq _ _ _ s
    · rw [if_neg (sampleOf_ne_nil items h2)]; exact cnMergeLoop_eq _ _ items h1 s
  rw [hsplit]
  simp only [hmerge]
  obtain ⟨x, y, ip, tp, ch', e⟩ := cnSplitMask_run (utf8Text cps ++ 0 :: rest) (0 :: rest) mask cps []
    (vla mem.input (mask.count false * 4 + 1)) [] (vla mem.tweak (mask.count true * 4 + 1)) 0 hl hr
    (by rw [length_vla]; omega) (by rw [length_vla]; omega) rfl
  simp only [List.nil_append, List.length_nil] at e
  rw [e]
  simp only [Option.bind_some]
  unfold wrByte
  rw [if_pos (by rw [List.length_append, length_duoText, hlf]; simp; omega),
    if_pos (by rw [List.length_append, length_duoText, hlt]; simp; omega)]
  simp only [Option.bind_some]
  rw [set_last _ _ _ _ (by rw [length_duoText, hlt]; omega), set_last _ _ _ _ (by rw [length_duoText, hlf]; omega),
    fpeInit_twelve, Nat.mul_comm (mask.count false) 4]
  rfl

/-- When the engine is defined: FF1 needs a hidden character, FF3 also two visible ones. -/
def CnOk (f : Ffx) (mask : List Bool) : Prop :=
  match f with
  | .ff1 => 1 ≤ mask.count false
  | .ff3 => 1 ≤ mask.count false ∧ 2 ≤ mask.count true

theorem fill_range (ms : List Bool) (xs r : List Nat) (hl : ms.length = xs.length) (hr : ms.count false ≤ r.length)
    (h1 : ∀ c ∈ xs, InCnRange c) (h2 : ∀ c ∈ r, InCnRange c) : ∀ c ∈ fill ms xs r, InCnRange c := by
  intro c hc
  obtain ⟨i, hi, rfl⟩ := List.mem_iff_getElem.mp hc
  have hi2 : i < xs.length := by rw [length_fill _ _ _ hl hr] at hi; exact hi
  have hi1 : i < ms.length := by omega
  have := fill_getElem ms xs r i hi1 hi2 hi
  cases h : ms[i] with
  | true => rw [this.1 h]; exact h1 _ (List.getElem_mem _)
  | false => exact h2 _ (this.2 h)

theorem cn_some (app : FpeApp) (mem : AppMem) (cps r : List Nat) (smp rest more after : List Byte) (mask : List Bool)
    (hr : ∀ cp ∈ cps, InCnRange cp) (hm : CnSample smp mask cps.length) (ha : 3 * cps.length ≤ after.length)
    (block : FpeFn) (more' : List Byte) (hl : r.length = mask.count false) (hrr : ∀ cp ∈ r, InCnRange cp)
    (hb : block ⟨app.E, 12, duoText (pick true mask cps) ++ [0]⟩ (duoText (pick false mask cps) ++ [0])
        (vla mem.ans (4 * mask.count false + mem.slack)) = some (duoText r ++ 0 :: more')) :
    auxCn app mem (utf8Text cps ++ 0 :: rest) (smp ++ 0 :: more) after block =
      some (utf8Text (fill mask cps r) ++ after.drop (3 * cps.length)) := by
  rw [auxCn_eq app mem cps smp rest more after mask hr hm block, hb]
  simp only [Option.bind_some]
  obtain ⟨ap, op, h⟩ := cnMergeMask_run (utf8Text cps ++ 0 :: rest) (0 :: rest) (duoText r ++ 0 :: more') mask cps r []
    after 0 (0 :: more') hm.length hl hrr (by rw [hm.length]; exact ha) rfl rfl List.mem_cons_self
  simp only [List.nil_append, List.length_nil] at h
  rw [h]
  simp only [Option.bind_some]
  rw [hm.length]

/-- C56: for every text over `U+4E00..U+9EFF` and every sample, if the byte behind `ans` may be written: the encrypted
text consists again of characters in that range, characters kept by the sample are unchanged, and
decryption with the same sample returns the text.  Nothing depends on uninitialised memory. -/
theorem C56_cn_roundtrip (app : FpeApp) (lg : Nat → Nat → Nat) (hlg : LgOk lg) (cps : List Nat) (smp : List Byte)
    (mask : List Bool) (hr : ∀ cp ∈ cps, InCnRange cp) (hm : CnSample smp mask cps.length) (hk : CnOk app.ffx mask) :
    ∃ o : List Nat, o.length = cps.length ∧ (∀ cp ∈ o, InCnRange cp) ∧
      (∀ i : Nat, mask[i]? = some true → o[i]? = cps[i]?) ∧
      (∀ (mem : AppMem) (rest more after : List Byte), 1 ≤ mem.slack → 3 * cps.length ≤ after.length →
        encryptCn app lg mem (utf8Text cps ++ 0 :: rest) (smp ++ 0 :: more) after =
          some (utf8Text o ++ after.drop (3 * cps.length))) ∧
      (∀ (mem : AppMem) (rest more after : List Byte), 1 ≤ mem.slack → 3 * cps.length ≤ after.length →
        decryptCn app lg mem (utf8Text o ++ 0 :: rest) (smp ++ 0 :: more) after =
          some (utf8Text cps ++ after.drop (3 * cps.length))) := by
  have hl := hm.length
  have hlt := length_pick true mask cps hl
  have hlf := length_pick false mask cps hl
  obtain ⟨ct, hct, hnum, hf, hg⟩ := engine_fwd app lg hlg 12 (by decide) (by decide) app.E
    (duoText (pick true mask cps) ++ [0]) (duoText (pick false mask cps)) (by
      unfold CnOk at hk
      unfold EngineOk
      rw [List.length_append, length_duoText, length_duoText, hlt, hlf]
      revert hk
      cases app.ffx
      · intro hk; simp only [List.length_cons, List.length_nil] at hk ⊢; omega
      · intro hk; simp only [List.length_cons, List.length_nil] at hk ⊢; omega) (duoText_numeral _)
  rw [length_duoText, hlf] at hct
  obtain ⟨r, hrl, hrr, rfl⟩ := duoText_surj (mask.count false) ct hct hnum
  have hlo : (fill mask cps r).length = cps.length := length_fill _ _ _ hl (by omega)
  have hro := fill_range mask cps r hl (by omega) hr hrr
  refine ⟨fill mask cps r, hlo, hro, ?_, ?_, ?_⟩
  · intro i hi
    obtain ⟨h1, h2⟩ := List.getElem?_eq_some_iff.mp hi
    rw [List.getElem?_eq_getElem (by omega), List.getElem?_eq_getElem (by omega)]
    exact congrArg some ((fill_getElem mask cps r i h1 (by omega) (by omega)).1 h2)
  · intro mem rest more after hs ha
    exact cn_some app mem cps r smp rest more after mask hr hm ha _ _ hrl hrr
      (hf [] _ (by rw [length_vla, length_duoText, hlf]; omega))
  · intro mem rest more after hs ha
    have hb := hg [] (vla mem.ans (4 * mask.count false + mem.slack))
      (by rw [length_vla, length_duoText, hlf]; omega)
    have := cn_some app mem (fill mask cps r) (pick false mask cps) smp rest more after mask hro (by rw [hlo]; exact hm)
      (by rw [hlo]; exact ha) (decFn app lg) _ hlf (fun c hc => hr c (mem_pick _ _ _ c hc)) (by
        rw [pick_true_fill _ _ _ hl (by omega), pick_false_fill _ _ _ hl hrl.symm]
        exact hb)
    unfold decryptCn
    rw [this, hlo, fill_fill _ _ _ hl (by omega)]

/-- C56, defect: as for phone numbers, `ans` has no room for the terminator. -/
theorem C56_cn_overflow (app : FpeApp) (lg : Nat → Nat → Nat) (mem : AppMem) (cps : List Nat)
    (smp rest more after : List Byte) (mask : List Bool) (hr : ∀ cp ∈ cps, InCnRange cp)
    (hm : CnSample smp mask cps.length) (hk : mem.slack = 0) :
    encryptCn app lg mem (utf8Text cps ++ 0 :: rest) (smp ++ 0 :: more) after = none ∧
    decryptCn app lg mem (utf8Text cps ++ 0 :: rest) (smp ++ 0 :: more) after = none := by
  have hn := engine_no_room app ⟨app.E, 12, duoText (pick true mask cps) ++ [0]⟩ lg (duoText (pick false mask cps)) []
    (vla mem.ans (4 * mask.count false + mem.slack)) (fun c hc => numeral_ne_zero c (duoText_numeral _ c hc))
    (by rw [length_vla, length_duoText, length_pick _ _ _ hm.length]; omega)
  unfold encryptCn decryptCn
  rw [auxCn_eq app mem cps smp rest more after mask hr hm, auxCn_eq app mem cps smp rest more after mask hr hm,
    hn.1, hn.2]
  exact ⟨rfl, rfl⟩

/-- C56, defect: with FF3 and fewer than two visible characters (in particular without a sample) both functions read
outside `tweak`. -/
theorem C56_cn_ff3_tweak (app : FpeApp) (lg : Nat → Nat → Nat) (mem : AppMem) (cps : List Nat)
    (smp rest more after : List Byte) (mask : List Bool) (hr : ∀ cp ∈ cps, InCnRange cp)
    (hm : CnSample smp mask cps.length) (hf : app.ffx = .ff3) (hv : mask.count true < 2) :
    encryptCn app lg mem (utf8Text cps ++ 0 :: rest) (smp ++ 0 :: more) after = none ∧
    decryptCn app lg mem (utf8Text cps ++ 0 :: rest) (smp ++ 0 :: more) after = none := by
  have hn := C49_ff3_short_tweak (duoText (pick true mask cps) ++ [0]) 12 app.E _ rfl
    (by rw [List.length_append, length_duoText, length_pick _ _ _ hm.length]; simp; omega) lg
    (duoText (pick false mask cps) ++ [0]) (vla mem.ans (4 * mask.count false + mem.slack))
  unfold encryptCn decryptCn
  rw [auxCn_eq app mem cps smp rest more after mask hr hm, auxCn_eq app mem cps smp rest more after mask hr hm]
  unfold encFn decFn
  simp only [hf]
  rw [hn.1, hn.2]
  exact ⟨rfl, rfl⟩

theorem wrBytes_facts {o : List Byte} {off : Nat} {bs o' : List Byte} (h : wrBytes o off bs = some o') :
    o'.length = o.length ∧ o'.take off = o.take off ∧ (o'.drop off).take bs.length = bs := by
  unfold wrBytes at h
  split at h
  · rename_i hle
    injection h with h
    subst h
    have ht : (o.take off).length = off := by rw [List.length_take]; omega
    refine ⟨?_, ?_, ?_⟩
    · simp only [List.length_append, List.length_take, List.length_drop]; omega
    · rw [List.append_assoc, List.take_append_of_le_length (by omega), List.take_of_length_le (by omega)]
    · rw [List.append_assoc, List.drop_append_of_le_length (by omega), List.drop_of_length_le (by omega),
        List.nil_append, List.take_append_of_le_length (Nat.le_refl _), List.take_of_length_le (Nat.le_refl _)]
  · cases h

theorem cnPut_facts {ans : List Byte} {s t : CnMerge} (h : cnPut ans s = some t) :
    ∃ cp, InCnRange cp ∧ wrBytes s.out s.op (utf8Three cp) = some t.out ∧ t.op = s.op + 3 := by
  unfold cnPut at h
  simp only [Option.bind_eq_some_iff, Option.some.injEq] at h
  obtain ⟨v, hv, o, ho, rfl⟩ := h
  obtain ⟨h1, h2⟩ := duoDecode_range _ v hv
  obtain ⟨n, rfl⟩ := Int.eq_ofNat_of_zero_le h1
  rw [utf8IntToU32_eq n (by omega), utf8OfU32_eq _ (by omega)] at ho
  exact ⟨n + 0x4E00, by unfold InCnRange; omega, ho, rfl⟩

theorem cnCopy_facts {cn : List Byte} {s t : CnMerge} (h : cnCopy cn s = some t) :
    ∃ bs : List Byte, bs.length = 3 ∧ wrBytes s.out s.op bs = some t.out ∧ t.op = s.op + 3 := by
  unfold cnCopy at h
  simp only [Option.bind_eq_some_iff, Option.some.injEq] at h
  obtain ⟨_, _, o, ho, rfl⟩ := h
  exact ⟨_, rfl, ho, rfl⟩

theorem cnMergeMask_facts (cn ans : List Byte) : ∀ (ms : List Bool) (s t : CnMerge), cnMergeMask cn ans ms s = some t →
    t.out.take s.op = s.out.take s.op ∧
    ∀ i : Nat, ms[i]? = some false → ∃ cp, InCnRange cp ∧ (t.out.drop (s.op + 3 * i)).take 3 = utf8Three cp := by
  intro ms
  induction ms with
  | nil => intro s t h; injection h with h; subst h; exact ⟨rfl, by simp⟩
  | cons m ms ih =>
    intro s t h
    rw [cnMergeMask, Option.bind_eq_some_iff] at h
    obtain ⟨u, hu, h⟩ := h
    obtain ⟨ih1, ih2⟩ := ih u t h
    have hw : ∃ bs : List Byte, bs.length = 3 ∧ wrBytes s.out s.op bs = some u.out ∧ u.op = s.op + 3 ∧
        (m = false → ∃ cp, InCnRange cp ∧ bs = utf8Three cp) := by
      cases m with
      | true =>
        rw [if_pos rfl] at hu
        obtain ⟨bs, h1, h2, h3⟩ := cnCopy_facts hu
        exact ⟨bs, h1, h2, h3, by simp⟩
      | false =>
        rw [if_neg (by decide)] at hu
        obtain ⟨cp, h1, h2, h3⟩ := cnPut_facts hu
        exact ⟨utf8Three cp, rfl, h2, h3, fun _ => ⟨cp, h1, rfl⟩⟩
    obtain ⟨bs, hb, hwr, hop, hcp⟩ := hw
    obtain ⟨_, f1, f2⟩ := wrBytes_facts hwr
    rw [hop] at ih1
    refine ⟨?_, ?_⟩
    · rw [← f1]
      have := congrArg (List.take s.op) ih1
      rwa [List.take_take, List.take_take, Nat.min_eq_left (by omega)] at this
    · intro i hi
      cases i with
      | zero =>
        simp only [List.getElem?_cons_zero, Option.some.injEq] at hi
        obtain ⟨cp, h1, h2⟩ := hcp hi
        refine ⟨cp, h1, ?_⟩
        have := congrArg (List.drop s.op) ih1
        rw [List.drop_take, List.drop_take, Nat.add_sub_cancel_left] at this
        rw [Nat.mul_zero, Nat.add_zero, this, ← hb, f2, h2]
      | succ i =>
        rw [List.getElem?_cons_succ] at hi
        obtain ⟨cp, h1, h2⟩ := ih2 i hi
        refine ⟨cp, h1, ?_⟩
        rw [hop] at h2
        rw [show s.op + 3 * (i + 1) = s.op + 3 + 3 * i by omega]
        exact h2

/-- C56, limit of the range: whatever the input and the engine, each hidden position of a result is a character in
`U+4E00..U+9EFF`. -/
theorem C56_cn_output_range (app : FpeApp) (mem : AppMem) (str rest smp more after out : List Byte) (mask : List Bool)
    (n : Nat) (h0 : ∀ c ∈ str, c ≠ 0) (hn : str.length / 3 = n) (hm : CnSample smp mask n) (block : FpeFn)
    (h : auxCn app mem (str ++ 0 :: rest) (smp ++ 0 :: more) after block = some out) (i : Nat)
    (hi : mask[i]? = some false) : ∃ cp, InCnRange cp ∧ (out.drop (3 * i)).take 3 = utf8Three cp := by
  have hz : ∀ c ∈ smp, c ≠ 0 := by
    rcases hm with ⟨rfl, _⟩ | ⟨items, h1, _, _, rfl, _⟩
    · simp
    · exact (sampleOf_ne_zero items h1).1
  unfold auxCn at h
  rw [cstr_append _ rest h0, cstr_append smp more hz] at h
  simp only [Option.bind_some, hn] at h
  simp only [Option.bind_eq_some_iff] at h
  obtain ⟨_, _, _, _, _, _, _, _, _, _, ans, _, o, ho, e⟩ := h
  injection e with e
  subst e
  have hmerge : cnMergeMask (str ++ 0 :: rest) ans mask ⟨after, 0, 0⟩ = some o := by
    rw [← ho]
    rcases hm with ⟨rfl, rfl⟩ | ⟨items, h1, h2, h3, rfl, rfl⟩
    · rw [if_pos rfl]; exact (cnMergeAll_eq _ _ _ _).symm
    · rw [if_neg (sampleOf_ne_nil items h2)]; exact (cnMergeLoop_eq _ _ items h1 _).symm
  have := (cnMergeMask_facts _ _ _ _ _ hmerge).2 i hi
  simpa using this

/-- C56, defect: a hidden character outside the range (for example `U+9F99`, or any punctuation) is lost: no call of
the decryption returns a text with this character at a hidden position. -/
theorem C56_cn_out_of_range_lost (app : FpeApp) (lg : Nat → Nat → Nat) (mem : AppMem)
    (str rest smp more after out : List Byte) (mask : List Bool) (n : Nat) (h0 : ∀ c ∈ str, c ≠ 0)
    (hn : str.length / 3 = n) (hm : CnSample smp mask n)
    (h : decryptCn app lg mem (str ++ 0 :: rest) (smp ++ 0 :: more) after = some out) (i : Nat)
    (hi : mask[i]? = some false) (cp : Nat) (h16 : cp ≤ 0xFFFF) (hcp : ¬ InCnRange cp) :
    (out.drop (3 * i)).take 3 ≠ utf8Three cp := by
  obtain ⟨cp', hr, e⟩ := C56_cn_output_range app mem str rest smp more after out mask n h0 hn hm _ h i hi
  rw [e]
  intro e'
  have h1 := utf8ToU32_three cp h16
  have h2 := utf8ToU32_three cp' (by unfold InCnRange at hr; omega)
  unfold utf8Three at e'
  simp only [List.cons.injEq, and_true] at e'
  obtain ⟨a, b, c⟩ := e'
  rw [a, b, c, h1] at h2
  have := congrArg BitVec.toNat h2
  simp only [BitVec.toNat_ofNat] at this
  unfold InCnRange at hr hcp
  omega

theorem list_of_vla (f : Nat → Byte) (s : List Byte) (h4 : s.length = 4) (h : ∀ j (hj : j < s.length), f j = s[j]) :
    (vla f 5).set 4 0 = s ++ [0] := by
  match s, h4 with
  | [a, b, c, d], _ =>
    have h0 : f 0 = a := h 0 (by simp)
    have h1 : f 1 = b := h 1 (by simp)
    have h2 : f 2 = c := h 2 (by simp)
    have h3 : f 3 = d := h 3 (by simp)
    simp [vla, List.range_succ, h0, h1, h2, h3]

theorem utf8Three_ne_zero (cp : Nat) (h : cp ≤ 0xFFFF) : ∀ c ∈ utf8Three cp, c ≠ 0 := by
  intro c hc e
  subst e
  simp only [utf8Three, List.mem_cons, List.not_mem_nil, or_false] at hc
  rcases hc with hm | hm | hm <;>
  · have := congrArg BitVec.toNat hm
    simp only [BitVec.toNat_ofNat, show (0 : Byte).toNat = 0 from rfl] at this
    omega

theorem cnSplitAll_one (cn : List Byte) (s : CnSplit) :
    cnSplitAll cn 1 s = (cnInt cn s.ch).bind fun uc => cnHide s uc := by
  unfold cnSplitAll
  rw [foldlM_range_const]
  generalize (cnInt cn s.ch).bind (fun uc => cnHide s uc) = x
  cases x <;> rfl

/-- The call on one character, no sample: only the digits written to `input` depend on the character. -/
theorem auxCn_one (app : FpeApp) (mem : AppMem) (str rest more after inp inp' : List Byte) (block : FpeFn) (uc : Int)
    (h0 : ∀ c ∈ str, c ≠ 0) (hlen : str.length / 3 = 1) (hint : cnInt (str ++ 0 :: rest) 0 = some uc)
    (h1 : wrBytes (vla mem.input 5) 0 (duoEncode uc) = some inp) (h2 : wrByte inp 4 0 = some inp') :
    auxCn app mem (str ++ 0 :: rest) (0 :: more) after block =
      (wrByte (vla mem.tweak 1) 0 0).bind fun tweak => (fpeInit tweak 12 app.E).bind fun ctx =>
        (block ctx inp' (vla mem.ans (4 + mem.slack))).bind fun ans =>
          (cnMergeAll ans 1 ⟨after, 0, 0⟩).bind fun o => some o.out := by
  have e0 : cstr (0 :: more) = some [] := cstr_append [] more (by simp)
  unfold auxCn
  rw [cstr_append _ rest h0, e0]
  simp only [Option.bind_some, hlen, if_true, Nat.sub_zero, Nat.one_mul, Nat.zero_mul, Nat.zero_add]
  rw [cnSplitAll_one, hint]
  simp only [Option.bind_some]
  unfold cnHide
  rw [h1]
  simp only [Option.bind_some]
  rw [h2]
  rfl

theorem cnInt_three (k : Nat) (r : List Byte) (hk : k ≤ 0xFFFF) :
    cnInt (utf8Three k ++ 0 :: r) 0 = some ((k : Int) - 0x4E00) := by
  unfold cnInt
  rw [rd3_drop (utf8Three k ++ 0 :: r) 0 _ _ _ (0 :: r) rfl]
  simp only [Option.bind_some]
  rw [utf8ToU32_three k hk, utf8U32ToInt_eq k hk]

theorem wrBytes_five (f : Nat → Byte) (s : List Byte) (h4 : s.length = 4) (b : Byte) :
    wrBytes (vla f 5) 0 (s ++ [b]) = some (s ++ [b]) := by
  have := wrBytes_prefix [] (vla f 5) (s ++ [b]) (by rw [length_vla, List.length_append, h4]; exact Nat.le_refl 5)
  simp only [List.nil_append, List.length_nil] at this
  rw [this, List.drop_of_length_le (by rw [length_vla, List.length_append, h4]; exact Nat.le_refl 5), List.append_nil]

/-- C56, defect: the digits of a character outside the range are read from uninitialised memory.  If the stack
holds the digits of some character `cp'`, the call encrypts `cp'`. -/
theorem C56_cn_uninitialised (app : FpeApp) (lg : Nat → Nat → Nat) (mem : AppMem) (cp cp' : Nat)
    (rest rest' more after : List Byte) (h16 : cp ≤ 0xFFFF) (hcp : ¬ InCnRange cp) (hcp' : InCnRange cp')
    (hmem : ∃ s : List Byte, duoEncode ((cp' : Int) - 0x4E00) = s ++ [0x30] ∧
      ∀ j (hj : j < s.length), mem.input j = s[j]) :
    encryptCn app lg mem (utf8Three cp ++ 0 :: rest) (0 :: more) after =
      encryptCn app lg mem (utf8Three cp' ++ 0 :: rest') (0 :: more) after := by
  obtain ⟨s, hs, hj⟩ := hmem
  have h16' : cp' ≤ 0xFFFF := by unfold InCnRange at hcp'; omega
  have h4 : s.length = 4 := by
    have := (C57_duo_range ((cp' : Int) - 0x4E00)).2.1 (by unfold InCnRange at hcp'; omega)
    rw [hs, List.length_append] at this
    simpa using this
  have henc : duoEncode ((cp : Int) - 0x4E00) = [] := by
    rw [(C57_duo_range _).1]
    unfold InCnRange at hcp
    omega
  unfold encryptCn
  refine (auxCn_one app mem (utf8Three cp) rest more after (vla mem.input 5) (s ++ [0]) _ ((cp : Int) - 0x4E00)
    (utf8Three_ne_zero cp h16) (by simp [utf8Three]) (cnInt_three cp rest h16) ?_ ?_).trans
    (auxCn_one app mem (utf8Three cp') rest' more after (s ++ [0x30]) (s ++ [0]) _ ((cp' : Int) - 0x4E00)
    (utf8Three_ne_zero cp' h16') (by simp [utf8Three]) (cnInt_three cp' rest' h16') ?_ ?_).symm
  · rw [henc]
    unfold wrBytes
    rw [if_pos (by simp)]
    simp
  · unfold wrByte
    rw [if_pos (by rw [length_vla]; decide), list_of_vla mem.input s h4 hj]
  · rw [hs, wrBytes_five mem.input s h4]
  · unfold wrByte
    rw [if_pos (by rw [List.length_append, h4]; decide), set_last s 0x30 0 4 h4]

/-- The character `U+9F99` is outside the range. -/
example (E : Block → Block) (mem : AppMem) (h : mem.input = fun _ => 0x30) :=
  C56_cn_uninitialised ⟨E, .ff1⟩ Nat.clog mem 0x9F99 0x4E00 [] [] [] [] (by decide) (by unfold InCnRange; decide)
    (by unfold InCnRange; decide) ⟨[0x30, 0x30, 0x30, 0x30], by decide +kernel, by
      intro j hj; rw [h]; match j, hj with | 0, _ => rfl | 1, _ => rfl | 2, _ => rfl | 3, _ => rfl⟩

example : (0x9F99 : Nat) ≤ 0xFFFF ∧ ¬ InCnRange 0x9F99 ∧ InCnRange 0x4E2D := by unfold InCnRange; decide

/-- "中国人" with the sample "中**": one visible and two hidden characters. -/
example : CnSample [0xe4, 0xb8, 0xad, 0x2a, 0x2a] [true, false, false] 3 ∧ CnOk .ff1 [true, false, false] ∧
    ∀ cp ∈ [0x4E2D, 0x56FD, 0x4EBA], InCnRange cp := by
  refine ⟨Or.inr ⟨[some (0xe4, 0xb8, 0xad), none, none], ?_, by simp, rfl, rfl, rfl⟩, ?_, ?_⟩
  · intro a b c h
    simp at h
    obtain ⟨rfl, rfl, rfl⟩ := h
    decide
  · unfold CnOk; decide
  · unfold InCnRange; decide

end Verif.Props
