import Verif.Props.FpeSample
import Verif.Model.Docs

/-! C121, lemmas: Chinese text with a sample for fewer characters, with the tweak as uninitialised memory makes it. -/
set_option autoImplicit false

namespace Verif.Props
open Verif Spec Model

/-- The bytes of the tweak array behind the visible characters. -/
def tweakTail (ms : List Bool) (t : List Byte) : List Byte :=
  if ms.count true = 0 then t else 0x30 :: t.drop (4 * ms.count true + 1)

theorem tweakTail_false (ms : List Bool) (t : List Byte) : tweakTail (false :: ms) t = tweakTail ms t := by
  unfold tweakTail
  rw [List.count_cons_of_ne (by decide)]

theorem tweakTail_true (ms : List Bool) (t : List Byte) : tweakTail (true :: ms) t = tweakTail ms (0x30 :: t.drop 5) := by
  unfold tweakTail
  rw [List.count_cons_self, if_neg (by omega)]
  split
  · rename_i h; rw [h]
  · rw [List.drop_succ_cons, List.drop_drop, show 5 + 4 * ms.count true = 4 * (ms.count true + 1) + 1 by omega]

theorem length_tweakTail (ms : List Bool) (t : List Byte) (h : 4 * ms.count true + 1 ≤ t.length) :
    (tweakTail ms t).length = t.length - 4 * ms.count true := by
  unfold tweakTail
  split
  · rename_i h0; rw [h0]; omega
  · rw [List.length_cons, List.length_drop]; omega

/-- The tweak `aux_fpe_cn` uses for the text `cps`, the sample `items` and the uninitialised memory `junk`. -/
def shortTweak (junk : Nat → Byte) (items : List (Option (Byte × Byte × Byte))) (cps : List Nat) : List Byte :=
  (duoText (pick true (items.map Option.isSome) (cps.take items.length)) ++
    tweakTail (items.map Option.isSome) (vla junk ((cps.length - items.count none) * 4 + 1))).set
      ((cps.length - items.count none) * 4) 0

/-- `cnSplitMask_short` with the tweak array in full: behind the visible characters it holds the last digit that
`duodec_encode` has written, if there was a visible character, and then what it held before. -/
theorem cnSplitMask_tail (cn more : List Byte) : ∀ (ms : List Bool) (cps : List Nat) (pI tI pT tT : List Byte) (ch : Nat),
    ms.length = cps.length → (∀ cp ∈ cps, InCnRange cp) → tI.length = 4 * ms.count false + 1 →
    4 * ms.count true + 1 ≤ tT.length → cn.drop ch = utf8Text cps ++ more →
    ∃ x ip tp ch', cnSplitMask cn ms ⟨pI ++ tI, pT ++ tT, pI.length, pT.length, ch⟩ =
      some ⟨pI ++ duoText (pick false ms cps) ++ [x],
        pT ++ duoText (pick true ms cps) ++ tweakTail ms tT, ip, tp, ch'⟩ := by
  intro ms
  induction ms with
  | nil =>
    intro cps pI tI pT tT ch hl _ hI hT _
    match tI, hI, tT, hT with
    | [x], _, y :: tT, _ => exact ⟨x, _, _, _, by simp [cnSplitMask, pick, duoText, tweakTail]; exact ⟨rfl, rfl, rfl⟩⟩
  | cons m ms ih =>
    intro cps pI tI pT tT ch hl hr hI hT hd
    cases cps with
    | nil => simp at hl
    | cons cp cps =>
      have hrc := hr cp List.mem_cons_self
      have hr' : ∀ c ∈ cps, InCnRange c := fun c hc => hr c (List.mem_cons_of_mem _ hc)
      have hl' : ms.length = cps.length := by simpa using hl
      have e : utf8Text (cp :: cps) = utf8Three cp ++ utf8Text cps := rfl
      rw [e, List.append_assoc] at hd
      have hd' : cn.drop (ch + 3) = utf8Text cps ++ more := by
        rw [← List.drop_drop, hd]
        rfl
      have hv : cp - 0x4E00 ≤ 20735 := by unfold InCnRange at hrc; omega
      have h5 : (duo4 (cp - 0x4E00) ++ [0x30]).length = 5 := by rw [List.length_append, length_duo4]; rfl
      rw [cnSplitMask]
      simp only
      rw [cnInt_text cn ch cp _ hrc hd]
      simp only [Option.bind_some]
      cases m with
      | false =>
        rw [if_neg (by decide)]
        have hc : (false :: ms).count false = ms.count false + 1 := List.count_cons_self
        have hc' : (false :: ms).count true = ms.count true := List.count_cons_of_ne (by decide)
        rw [hc] at hI
        rw [hc'] at hT
        unfold cnHide
        simp only
        rw [duoEncode_eq _ hv, wrBytes_prefix _ _ _ (by rw [h5]; omega)]
        simp only [Option.bind_some]
        rw [h5]
        have e1 : pI ++ (duo4 (cp - 0x4E00) ++ [0x30] ++ tI.drop 5) =
            (pI ++ duo4 (cp - 0x4E00)) ++ (0x30 :: tI.drop 5) := by simp
        have e2 : pI.length + 4 = (pI ++ duo4 (cp - 0x4E00)).length := by rw [List.length_append, length_duo4]
        rw [e1, e2]
        obtain ⟨x, ip, tp, ch', h⟩ := ih cps (pI ++ duo4 (cp - 0x4E00)) (0x30 :: tI.drop 5) pT tT (ch + 3) hl' hr'
          (by rw [List.length_cons, List.length_drop]; omega) hT hd'
        refine ⟨x, ip, tp, ch', h.trans ?_⟩
        rw [tweakTail_false]
        simp [pick, duoText]
      | true =>
        rw [if_pos rfl]
        have hc : (true :: ms).count true = ms.count true + 1 := List.count_cons_self
        have hc' : (true :: ms).count false = ms.count false := List.count_cons_of_ne (by decide)
        rw [hc] at hT
        rw [hc'] at hI
        unfold cnShow
        simp only
        rw [duoEncode_eq _ hv, wrBytes_prefix _ _ _ (by rw [h5]; omega)]
        simp only [Option.bind_some]
        rw [h5]
        have e1 : pT ++ (duo4 (cp - 0x4E00) ++ [0x30] ++ tT.drop 5) =
            (pT ++ duo4 (cp - 0x4E00)) ++ (0x30 :: tT.drop 5) := by simp
        have e2 : pT.length + 4 = (pT ++ duo4 (cp - 0x4E00)).length := by rw [List.length_append, length_duo4]
        rw [e1, e2]
        obtain ⟨x, ip, tp, ch', h⟩ := ih cps pI tI (pT ++ duo4 (cp - 0x4E00)) (0x30 :: tT.drop 5) (ch + 3) hl' hr'
          hI (by rw [List.length_cons, List.length_drop]; omega) hd'
        refine ⟨x, ip, tp, ch', h.trans ?_⟩
        rw [tweakTail_true]
        simp [pick, duoText]

/-- `auxCn_short` with the tweak in full. -/
theorem auxCn_tail (app : FpeApp) (mem : AppMem) (cps : List Nat) (items : List (Option (Byte × Byte × Byte)))
    (rest more after : List Byte) (hr : ∀ cp ∈ cps, InCnRange cp) (hok : SampleOk items) (hne : items ≠ [])
    (hlt : items.length ≤ cps.length) (block : FpeFn) :
    auxCn app mem (utf8Text cps ++ 0 :: rest) (sampleOf items ++ 0 :: more) after block =
      (block ⟨app.E, 12, shortTweak mem.tweak items cps⟩
        (duoText (pick false (items.map Option.isSome) (cps.take items.length)) ++ [0])
        (vla mem.ans (4 * items.count none + mem.slack))).bind fun ans =>
      (cnMergeMask (utf8Text cps ++ 0 :: rest) ans (items.map Option.isSome) ⟨after, 0, 0⟩).bind fun o => some o.out := by
  have hcn : (items.map Option.isSome).count false = items.count none := by
    clear hok hne hlt
    induction items with
    | nil => rfl
    | cons x l ih => cases x <;> simp [ih]
  have hcount := count_flags (items.map Option.isSome)
  rw [List.length_map] at hcount
  generalize hmask : items.map Option.isSome = mask at *
  have hl : mask.length = (cps.take items.length).length := by
    rw [← hmask, List.length_map, List.length_take, Nat.min_eq_left hlt]
  have hlt' := length_pick true mask _ hl
  have hlf := length_pick false mask _ hl
  unfold auxCn
  rw [cstr_append _ rest (utf8Text_ne_zero cps hr), cstr_append _ more (sampleOf_ne_zero items hok).1]
  simp only [Option.bind_some]
  rw [length_utf8Text, Nat.mul_div_cancel_left _ (by decide : 0 < 3), if_neg (sampleOf_ne_nil items hne),
    (sampleOf_ne_zero items hok).2, hmask, hcn, if_pos (by omega)]
  simp only [Option.bind_some]
  rw [if_neg (sampleOf_ne_nil items hne), cnSplitLoop_eq _ items hok, hmask,
    show cps.length - (cps.length - items.count none) = items.count none by omega]
  obtain ⟨x, ip, tp, ch', e⟩ := cnSplitMask_tail (utf8Text cps ++ 0 :: rest) (utf8Text (cps.drop items.length) ++ 0 :: rest)
    mask (cps.take items.length) []
    (vla mem.input (items.count none * 4 + 1)) [] (vla mem.tweak ((cps.length - items.count none) * 4 + 1)) 0 hl
    (fun c hc => hr c (List.mem_of_mem_take hc))
    (by rw [length_vla]; omega) (by rw [length_vla]; omega)
    (by rw [List.drop_zero, utf8Text_take_drop cps items.length, List.append_assoc])
  simp only [List.nil_append, List.length_nil] at e
  rw [e]
  simp only [Option.bind_some]
  unfold wrByte
  rw [if_pos (by rw [List.length_append, length_duoText, hlf]; simp; omega),
    if_pos (by rw [List.length_append, length_duoText, hlt', length_tweakTail _ _ (by rw [length_vla]; omega), length_vla]; omega)]
  simp only [Option.bind_some]
  rw [set_last _ _ _ _ (by rw [length_duoText, hlf]; omega), fpeInit_twelve, Nat.mul_comm (items.count none) 4]
  simp only [Option.bind_some]
  unfold shortTweak
  rw [hmask]
  refine bind_congr' fun ans _ => ?_
  rw [if_neg (sampleOf_ne_nil items hne), cnMergeLoop_eq _ _ items hok, hmask]

theorem length_shortTweak (junk : Nat → Byte) (items : List (Option (Byte × Byte × Byte))) (cps : List Nat)
    (h : items.length ≤ cps.length) : (shortTweak junk items cps).length = 4 * (cps.length - items.count none) + 1 := by
  have hcn : (items.map Option.isSome).count false = items.count none := by
    clear h
    induction items with
    | nil => rfl
    | cons x l ih => cases x <;> simp [ih]
  have hcount := count_flags (items.map Option.isSome)
  rw [List.length_map] at hcount
  have hl : (items.map Option.isSome).length = (cps.take items.length).length := by
    rw [List.length_map, List.length_take, Nat.min_eq_left h]
  unfold shortTweak
  rw [List.length_set, List.length_append, length_duoText, length_pick true _ _ hl,
    length_tweakTail _ _ (by rw [length_vla]; omega), length_vla]
  omega

/-- Encryption and decryption with a sample for fewer characters than the text has, for memory with the same bytes in
the tweak array: only the first `items.length` characters take part. -/
theorem cn_short_core (app : FpeApp) (lg : Nat → Nat → Nat) (hlg : LgOk lg) (junk : Nat → Byte) (cps : List Nat)
    (items : List (Option (Byte × Byte × Byte))) (hr : ∀ cp ∈ cps, InCnRange cp)
    (hok : SampleOk items) (hne : items ≠ []) (hlt : items.length ≤ cps.length) (h1 : none ∈ items)
    (h2 : app.ffx = .ff3 → items.count none + 2 ≤ cps.length) :
    ∃ o : List Nat, o.length = items.length ∧ (∀ cp ∈ o, InCnRange cp) ∧
      (∀ (i : Nat) (t : Byte × Byte × Byte), items[i]? = some (some t) → o[i]? = cps[i]?) ∧
      (∀ (mem : AppMem) (more' : List Nat) (rest more after : List Byte), mem.tweak = junk → 1 ≤ mem.slack →
        (∀ cp ∈ more', InCnRange cp) → items.length + more'.length = cps.length → 3 * items.length ≤ after.length →
        encryptCn app lg mem (utf8Text (cps.take items.length ++ more') ++ 0 :: rest) (sampleOf items ++ 0 :: more) after =
          some (utf8Text o ++ after.drop (3 * items.length))) ∧
      (∀ (mem : AppMem) (more' : List Nat) (rest more after : List Byte), mem.tweak = junk → 1 ≤ mem.slack →
        (∀ cp ∈ more', InCnRange cp) → items.length + more'.length = cps.length → 3 * items.length ≤ after.length →
        decryptCn app lg mem (utf8Text (o ++ more') ++ 0 :: rest) (sampleOf items ++ 0 :: more) after =
          some (utf8Text (cps.take items.length) ++ after.drop (3 * items.length))) := by
  have hcn : (items.map Option.isSome).count false = items.count none := by
    clear hok hne hlt h1 h2
    induction items with
    | nil => rfl
    | cons x l ih => cases x <;> simp [ih]
  have hpos : 0 < items.count none := List.count_pos_iff.2 h1
  have hcount := count_flags (items.map Option.isSome)
  rw [List.length_map] at hcount
  have hl : (items.map Option.isSome).length = (cps.take items.length).length := by
    rw [List.length_map, List.length_take, Nat.min_eq_left hlt]
  have hlf := length_pick false _ _ hl
  obtain ⟨ct, hct, hnum, hf, hg⟩ := engine_fwd app lg hlg 12 (by decide) (by decide) app.E
    (shortTweak junk items cps)
    (duoText (pick false (items.map Option.isSome) (cps.take items.length))) (by
      unfold EngineOk
      rw [length_shortTweak junk items cps hlt, length_duoText, hlf]
      revert h2
      cases app.ffx
      · intro _; simp only; omega
      · intro h2
        have := h2 rfl
        simp only; omega) (duoText_numeral _)
  rw [length_duoText, hlf] at hct
  obtain ⟨r, hrl, hrr, rfl⟩ := duoText_surj _ ct hct hnum
  have hr' : ∀ c ∈ cps.take items.length, InCnRange c := fun c hc => hr c (List.mem_of_mem_take hc)
  have hlo : (fill (items.map Option.isSome) (cps.take items.length) r).length = items.length := by
    rw [length_fill _ _ _ hl (by omega), ← hl, List.length_map]
  have hro := fill_range _ _ r hl (by omega) hr' hrr
  refine ⟨fill (items.map Option.isSome) (cps.take items.length) r, hlo, hro, ?_, ?_, ?_⟩
  · intro i t hi
    have hi1 : i < items.length := by
      by_contra h
      rw [List.getElem?_eq_none (by omega)] at hi
      cases hi
    have hi2 : i < (items.map Option.isSome).length := by rw [List.length_map]; exact hi1
    have hm : (items.map Option.isSome)[i] = true := by
      rw [List.getElem?_eq_getElem hi1] at hi
      rw [List.getElem_map, Option.some.inj hi]; rfl
    rw [List.getElem?_eq_getElem (by omega), (fill_getElem _ _ r i hi2 (by omega) (by omega)).1 hm,
      List.getElem_take, List.getElem?_eq_getElem]
  · intro mem more' rest more after hj hs hm' hlen ha
    have htk : (cps.take items.length ++ more').take items.length = cps.take items.length := by
      rw [List.take_append_of_le_length (by rw [← hl, List.length_map]), List.take_take, Nat.min_self]
    have hll : (cps.take items.length ++ more').length = cps.length := by
      rw [List.length_append, ← hl, List.length_map, hlen]
    have e := auxCn_tail app mem (cps.take items.length ++ more') items rest more after
      (fun c hc => (List.mem_append.1 hc).elim (hr' c) (hm' c)) hok hne (by rw [hll]; exact hlt) (encFn app lg)
    have ht : shortTweak mem.tweak items (cps.take items.length ++ more') = shortTweak junk items cps := by
      unfold shortTweak
      rw [htk, hll, hj]
    rw [ht, htk] at e
    have hb := hf [] (vla mem.ans (4 * items.count none + mem.slack)) (by rw [length_vla, length_duoText, hlf]; omega)
    unfold encryptCn
    rw [e, hb]
    simp only [Option.bind_some]
    obtain ⟨ap, op, h⟩ := cnMergeMask_run (utf8Text (cps.take items.length ++ more') ++ 0 :: rest) (utf8Text more' ++ 0 :: rest)
      _ (items.map Option.isSome) (cps.take items.length) r [] after 0 _ hl hrl hrr (by rw [List.length_map]; exact ha)
      (by rw [List.length_nil, List.drop_zero, utf8Text, utf8Text, utf8Text, List.flatMap_append, List.append_assoc])
      (List.drop_zero) List.mem_cons_self
    simp only [List.nil_append, List.length_nil] at h
    rw [h]
    simp only [Option.bind_some, List.length_map]
  · intro mem more' rest more after hj hs hm' hlen ha
    generalize ho : fill (items.map Option.isSome) (cps.take items.length) r = o at *
    have htk : (o ++ more').take items.length = o := by
      rw [List.take_append_of_le_length (by omega), List.take_of_length_le (by omega)]
    have hll : (o ++ more').length = cps.length := by
      rw [List.length_append, hlo, hlen]
    have e := auxCn_tail app mem (o ++ more') items rest more after
      (fun c hc => (List.mem_append.1 hc).elim (hro c) (hm' c)) hok hne (by rw [hll]; exact hlt) (decFn app lg)
    have hpt : pick true (items.map Option.isSome) o = pick true (items.map Option.isSome) (cps.take items.length) := by
      rw [← ho, pick_true_fill _ _ _ hl (by omega)]
    have ht : shortTweak mem.tweak items (o ++ more') = shortTweak junk items cps := by
      unfold shortTweak
      rw [htk, hll, hj, hpt]
    have hpf : pick false (items.map Option.isSome) o = r := by
      rw [← ho, pick_false_fill _ _ _ hl hrl.symm]
    rw [ht, htk, hpf] at e
    have hb := hg [] (vla mem.ans (4 * items.count none + mem.slack)) (by rw [length_vla, length_duoText, hlf]; omega)
    have hlo' : (items.map Option.isSome).length = o.length := by rw [List.length_map, hlo]
    unfold decryptCn
    rw [e, hb]
    simp only [Option.bind_some]
    obtain ⟨ap, op, h⟩ := cnMergeMask_run (utf8Text (o ++ more') ++ 0 :: rest) (utf8Text more' ++ 0 :: rest)
      _ (items.map Option.isSome) o (pick false (items.map Option.isSome) (cps.take items.length)) [] after 0 _ hlo'
      hlf (fun c hc => hr' c (mem_pick _ _ _ c hc)) (by rw [List.length_map]; exact ha)
      (by rw [List.length_nil, List.drop_zero, utf8Text, utf8Text, utf8Text, List.flatMap_append, List.append_assoc])
      (List.drop_zero) List.mem_cons_self
    simp only [List.nil_append, List.length_nil] at h
    rw [h]
    simp only [Option.bind_some, List.length_map]
    rw [← ho, fill_fill _ _ _ hl (by omega)]

end Verif.Props
