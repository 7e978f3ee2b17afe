import Verif.Model.Wbsm4Disk
import Verif.Props.Wbsm4File

/-! C110: damaged, foreign and half-written white-box SM4 key files. -/
set_option autoImplicit false

namespace Verif.Props
open Verif Spec Model

/-! ### the words of a file -/

theorem allBytes_length : allBytes.length = 256 := by simp [allBytes]

theorem allBytes_nodup : allBytes.Nodup := by decide +kernel

theorem sum_const {α : Type} (l : List α) (f : α → Nat) (n : Nat) (h : ∀ a ∈ l, f a = n) : (l.map f).sum = l.length * n := by
  rw [List.map_congr_left h, List.map_const', List.sum_replicate_nat]

theorem slots_mm_length (N : Nat) : ((List.range N).flatMap fun i => (List.finRange 3).flatMap fun j =>
    (List.finRange 4).flatMap fun k => allBytes.map fun l => Slot.mm i j k l).length = 3072 * N := by
  rw [List.length_flatMap, sum_const _ _ 3072, List.length_range, Nat.mul_comm]
  intro i _
  rw [List.length_flatMap, sum_const _ _ 1024]
  · simp
  · intro j _
    rw [List.length_flatMap, sum_const _ _ 256]
    · simp
    · intro k _; rw [List.length_map, allBytes_length]

theorem sum_ext (f : Nat → Nat) (N : Nat) (h : ∀ i, f i = 3072 + if i < 4 then 2048 else 0) :
    ((List.range N).map f).sum = 3072 * N + 2048 * min N 4 := by
  induction N with
  | zero => rfl
  | succ N ih => rw [List.range_succ, List.map_append, List.sum_append, ih, List.map_singleton, List.sum_singleton, h]; split <;> omega

theorem slots_length (N : Nat) : (slots N).length = 6144 * N + 2048 * min N 4 := by
  unfold slots
  rw [List.length_append, slots_mm_length, List.length_flatMap, sum_ext]
  · omega
  · intro i
    rw [List.length_flatMap, sum_const _ _ (256 * (3 + if i < 4 then 2 else 0))]
    · rw [List.length_finRange]; split <;> omega
    · intro j _
      rw [List.length_flatMap, sum_const _ _ (3 + if i < 4 then 2 else 0), allBytes_length]
      intro k _
      split <;> simp [*]

theorem nodup_fm {α β : Type} (l : List α) (f : α → List β) (g : β → α) (hl : l.Nodup) (hf : ∀ a ∈ l, (f a).Nodup)
    (key : ∀ a x, x ∈ f a → g x = a) : (l.flatMap f).Nodup := by
  induction l with
  | nil => simp
  | cons a l ih =>
    rw [List.flatMap_cons, List.nodup_append]
    rw [List.nodup_cons] at hl
    refine ⟨hf a (by simp), ih hl.2 (fun b hb => hf b (by simp [hb])), ?_⟩
    intro x hx y hy hxy
    subst hxy
    obtain ⟨b, hb, hxb⟩ := List.mem_flatMap.mp hy
    exact hl.1 (by rw [← key a x hx, key b x hxb]; exact hb)

/-- The loop indices at which a word is visited. -/
def slotRound : Slot → Nat
  | .mm i .. | .cc i .. | .dd i .. | .table i .. => i
  | .se i .. | .fe i .. => i.1
def slotCol3 : Slot → Fin 3
  | .mm _ j .. => j
  | _ => 0
def slotCol4 : Slot → Fin 4
  | .mm _ _ k _ => k
  | .cc _ j _ | .dd _ j _ | .table _ j _ | .se _ j _ | .fe _ j _ => j
def slotByte : Slot → Byte
  | .mm _ _ _ l => l
  | .cc _ _ k | .dd _ _ k | .table _ _ k | .se _ _ k | .fe _ _ k => k

/-- The words of the second loop at one position. -/
def blk (i : Nat) (j : Fin 4) (k : Byte) : List Slot :=
  (if h : i < 4 then [Slot.se ⟨i, h⟩ j k, Slot.fe ⟨i, h⟩ j k] else []) ++ [Slot.cc i j k, Slot.dd i j k, Slot.table i j k]

theorem blk_mem (i : Nat) (j : Fin 4) (k : Byte) (x : Slot) (h : x ∈ blk i j k) : slotRound x = i ∧ slotCol4 x = j ∧ slotByte x = k := by
  unfold blk at h
  by_cases h4 : i < 4
  · simp only [h4, dif_pos, List.cons_append, List.nil_append, List.mem_cons, List.not_mem_nil, or_false] at h
    rcases h with rfl | rfl | rfl | rfl | rfl <;> exact ⟨rfl, rfl, rfl⟩
  · simp only [h4, dif_neg, not_false_eq_true, List.nil_append, List.mem_cons, List.not_mem_nil, or_false] at h
    rcases h with rfl | rfl | rfl <;> exact ⟨rfl, rfl, rfl⟩

theorem blk_nodup (i : Nat) (j : Fin 4) (k : Byte) : (blk i j k).Nodup := by
  unfold blk
  by_cases h4 : i < 4 <;> simp [h4]

theorem slots_nodup (N : Nat) : (slots N).Nodup := by
  unfold slots
  rw [List.nodup_append]
  refine ⟨?_, ?_, ?_⟩
  · refine nodup_fm _ _ slotRound List.nodup_range (fun i _ => nodup_fm _ _ slotCol3 (List.nodup_finRange 3) (fun j _ =>
      nodup_fm _ _ slotCol4 (List.nodup_finRange 4) (fun k _ => ?_) ?_) ?_) ?_
    · have e : (allBytes.map fun l => Slot.mm i j k l) = allBytes.flatMap fun l => [Slot.mm i j k l] := by
        rw [List.map_eq_flatMap]
      rw [e]
      exact nodup_fm _ _ slotByte allBytes_nodup (fun l _ => by simp) (fun l x h => by rw [List.mem_singleton.mp h]; rfl)
    · intro k x h
      obtain ⟨_, _, rfl⟩ := List.mem_map.mp h
      rfl
    · intro j x h
      simp only [List.mem_map, List.mem_flatMap] at h
      obtain ⟨_, _, _, _, rfl⟩ := h
      rfl
    · intro i x h
      simp only [List.mem_map, List.mem_flatMap] at h
      obtain ⟨_, _, _, _, _, _, rfl⟩ := h
      rfl
  · refine nodup_fm _ _ slotRound List.nodup_range (fun i _ => nodup_fm _ _ slotCol4 (List.nodup_finRange 4) (fun j _ =>
      nodup_fm _ _ slotByte allBytes_nodup (fun k _ => blk_nodup i j k) ?_) ?_) ?_
    · intro k x h; exact (blk_mem i j k x h).2.2
    · intro j x h
      obtain ⟨k, _, h⟩ := List.mem_flatMap.mp h
      exact (blk_mem i j k x h).2.1
    · intro i x h
      obtain ⟨j, _, h⟩ := List.mem_flatMap.mp h
      obtain ⟨k, _, h⟩ := List.mem_flatMap.mp h
      exact (blk_mem i j k x h).1
  · intro x hx y hy h
    subst h
    simp only [List.mem_flatMap, List.mem_map] at hx hy
    obtain ⟨_, _, _, _, _, _, _, _, rfl⟩ := hx
    obtain ⟨i, _, _, _, _, _, hy⟩ := hy
    by_cases h : i < 4 <;> simp [h] at hy

/-- The 32-bit number stored at a position of a file, lowest byte first. -/
def fileWord (file : List Byte) (p : Nat) : Nat :=
  (file.getD p 0).toNat + 256 * (file.getD (p + 1) 0).toNat + 65536 * (file.getD (p + 2) 0).toNat +
    16777216 * (file.getD (p + 3) 0).toNat

theorem word_toNat (a b c d : Byte) : ((d ++ c) ++ (b ++ a) : BitVec 32).toNat =
    a.toNat + 256 * b.toNat + 65536 * c.toNat + 16777216 * d.toNat := by
  have h : ∀ (m n : Nat) (x : BitVec m) (y : BitVec n), (x ++ y).toNat = x.toNat * 2 ^ n + y.toNat := by
    intro m n x y
    rw [BitVec.toNat_append, ← Nat.shiftLeft_add_eq_or_of_lt y.isLt, Nat.shiftLeft_eq]
  rw [h 16 16, h 8 8, h 8 8]
  omega

theorem fread_some (file : List Byte) (h : 4 ≤ file.length) :
    ∃ w, freadWord file = some (w, file.drop 4) ∧ w.toNat = fileWord file 0 := by
  match file, h with
  | a :: b :: c :: d :: r, _ => exact ⟨_, rfl, by rw [word_toNat]; rfl⟩

theorem fileWord_drop (file : List Byte) (n p : Nat) : fileWord (file.drop n) p = fileWord file (n + p) := by
  simp only [fileWord, List.getD_eq_getElem?_getD, List.getElem?_drop, Nat.add_assoc]

theorem readSlots_spec (alloc : Nat) (ss : List Slot) (hin : ∀ s ∈ ss, s.inside alloc = true) (hnd : ss.Nodup) :
    ∀ (m : Slot → BitVec 32) (body : List Byte),
    ∃ m', readSlots alloc ss m body = some (decide (4 * ss.length ≤ body.length), m') ∧
      (∀ k (hk : k < ss.length), (4 * k + 4 ≤ body.length → (m' ss[k]).toNat = fileWord body (4 * k)) ∧
        (body.length < 4 * k + 4 → m' ss[k] = m ss[k])) ∧ ∀ t, t ∉ ss → m' t = m t := by
  induction ss with
  | nil => intro m body; exact ⟨m, by simp [readSlots], by simp, fun t _ => rfl⟩
  | cons s ss ih =>
    intro m body
    rw [List.nodup_cons] at hnd
    unfold readSlots
    rw [if_pos (hin s (by simp))]
    by_cases h4 : body.length < 4
    · rw [fread_short body h4]
      refine ⟨m, ?_, ?_, fun t _ => rfl⟩
      · simp only [List.length_cons]
        rw [decide_eq_false (by omega)]
      · intro k hk
        exact ⟨fun h => by omega, fun _ => rfl⟩
    · obtain ⟨w, hw, hwn⟩ := fread_some body (by omega)
      rw [hw]
      obtain ⟨m', h1, h2, h3⟩ := ih (fun t ht => hin t (by simp [ht])) hnd.2 (fun t => if t = s then w else m t) (body.drop 4)
      refine ⟨m', ?_, ?_, ?_⟩
      · simp only
        rw [h1, List.length_drop, List.length_cons]
        congr 2
        rw [decide_eq_decide]
        omega
      · intro k hk
        cases k with
        | zero =>
          rw [List.getElem_cons_zero, h3 s hnd.1, if_pos rfl]
          exact ⟨fun _ => hwn, fun h => by omega⟩
        | succ k =>
          rw [List.getElem_cons_succ]
          rw [List.length_cons] at hk
          obtain ⟨g1, g2⟩ := h2 k (by omega)
          rw [List.length_drop] at g1 g2
          constructor
          · intro h
            rw [g1 (by omega), fileWord_drop]
            congr 1; omega
          · intro h
            rw [g2 (by omega), if_neg]
            intro e
            exact hnd.1 (e ▸ List.getElem_mem _)
      · intro t ht
        rw [List.mem_cons, not_or] at ht
        rw [h3 t ht.2, if_neg ht.1]

theorem readSlots_none (alloc : Nat) (ss : List Slot) : ∀ (m : Slot → BitVec 32) (body : List Byte),
    readSlots alloc ss m body = none ↔ ∃ k, ∃ hk : k < ss.length, ss[k].inside alloc = false ∧ 4 * k ≤ body.length := by
  induction ss with
  | nil => intro m body; simp [readSlots]
  | cons s ss ih =>
    intro m body
    unfold readSlots
    cases hs : s.inside alloc with
    | false =>
      simp only [Bool.false_eq_true, if_false, true_iff]
      exact ⟨0, by simp, hs, by omega⟩
    | true =>
      simp only [if_true]
      by_cases h4 : body.length < 4
      · rw [fread_short body h4]
        simp only [reduceCtorEq, false_iff, not_exists, not_and]
        intro k hk hf hb
        have : k = 0 := by omega
        subst this
        rw [List.getElem_cons_zero, hs] at hf
        cases hf
      · obtain ⟨w, hw, -⟩ := fread_some body (by omega)
        rw [hw]
        simp only
        rw [ih]
        constructor
        · rintro ⟨k, hk, hf, hb⟩
          rw [List.length_drop] at hb
          exact ⟨k + 1, by simpa using hk, by simpa using hf, by omega⟩
        · rintro ⟨k, hk, hf, hb⟩
          cases k with
          | zero => rw [List.getElem_cons_zero, hs] at hf; cases hf
          | succ k =>
            refine ⟨k, by simpa using hk, by simpa using hf, ?_⟩
            rw [List.length_drop]; omega

theorem slots_outside (alloc N : Nat) (h : alloc < N) (n : Nat) :
    (∃ k, ∃ hk : k < (slots N).length, (slots N)[k].inside alloc = false ∧ 4 * k ≤ n) ↔ 12288 * alloc ≤ n := by
  have hsplit : ∃ rest, slots N = ((List.range alloc).flatMap fun i => (List.finRange 3).flatMap fun j =>
      (List.finRange 4).flatMap fun k => allBytes.map fun l => Slot.mm i j k l) ++ (Slot.mm alloc 0 0 0 :: rest) := by
    obtain ⟨d, rfl⟩ : ∃ d, N = alloc + (d + 1) := ⟨N - alloc - 1, by omega⟩
    have hr : List.range (alloc + (d + 1)) = List.range alloc ++ (alloc :: (List.range d).map (fun i => alloc + (i + 1))) := by
      rw [List.range_add, List.range_succ_eq_map, List.map_cons, List.map_map]
      rfl
    unfold slots
    generalize (List.range (alloc + (d + 1))).flatMap (fun i => (List.finRange 4).flatMap fun j => allBytes.flatMap fun k =>
      (if h : i < 4 then [Slot.se ⟨i, h⟩ j k, Slot.fe ⟨i, h⟩ j k] else []) ++ [Slot.cc i j k, Slot.dd i j k, Slot.table i j k]) = tl
    rw [hr, List.flatMap_append, List.flatMap_cons, List.append_assoc]
    exact ⟨_, rfl⟩
  obtain ⟨rest, hrest⟩ := hsplit
  have hlen := slots_mm_length alloc
  constructor
  · rintro ⟨k, hk, hf, hb⟩
    by_cases hlt : k < 3072 * alloc
    · exfalso
      have hg : (slots N)[k]? = some (slots N)[k] := List.getElem?_eq_getElem hk
      rw [show (slots N)[k]? = _ from congrArg (·[k]?) hrest, List.getElem?_append_left (by rw [hlen]; exact hlt)] at hg
      have hm := List.mem_of_getElem? hg
      simp only [List.mem_flatMap, List.mem_map, List.mem_range] at hm
      obtain ⟨i, hi, j, _, k', _, l, _, he⟩ := hm
      rw [← he] at hf
      simp [Slot.inside] at hf
      omega
    · omega
  · intro hn
    have hl : 3072 * alloc < (slots N).length := by rw [slots_length]; omega
    refine ⟨3072 * alloc, hl, ?_, by omega⟩
    have hg : (slots N)[3072 * alloc]? = some (slots N)[3072 * alloc] := List.getElem?_eq_getElem hl
    rw [show (slots N)[3072 * alloc]? = _ from congrArg (·[3072 * alloc]?) hrest, List.getElem?_append_right (Nat.le_of_eq hlen),
      hlen, Nat.sub_self] at hg
    simp only [List.getElem?_cons_zero, Option.some.injEq] at hg
    rw [← hg]
    simp [Slot.inside]

theorem readSlots_true (alloc : Nat) (ss : List Slot) : ∀ (m : Slot → BitVec 32) (body : List Byte) (m' : Slot → BitVec 32),
    readSlots alloc ss m body = some (true, m') → ∀ s ∈ ss, s.inside alloc = true := by
  induction ss with
  | nil => intro m body m' _ s hs; simp at hs
  | cons s ss ih =>
    intro m body m' h
    unfold readSlots at h
    cases hs : s.inside alloc with
    | false => simp [hs] at h
    | true =>
      rw [if_pos hs] at h
      cases hw : freadWord body with
      | none => simp [hw] at h
      | some w =>
        rw [hw] at h
        intro t ht
        rcases List.mem_cons.mp ht with rfl | ht
        · exact hs
        · exact ih _ _ m' h t ht

/-! ### reading -/

/-- The number of rounds a file announces. -/
def roundsOf (file : List Byte) : Nat := loopBound (BitVec.ofNat 32 (fileWord file 16))

theorem fileWord_lt (file : List Byte) (p : Nat) : fileWord file p < 2 ^ 32 := by
  unfold fileWord
  have h := fun i => (file.getD i 0).isLt
  have h0 := h p; have h1 := h (p + 1); have h2 := h (p + 2); have h3 := h (p + 3)
  omega

theorem ofNat_fileWord (file : List Byte) (p : Nat) (w : BitVec 32) (h : w.toNat = fileWord file p) :
    w = BitVec.ofNat 32 (fileWord file p) := by
  rw [← h, BitVec.ofNat_toNat, BitVec.setWidth_eq]

/-- What the reader does with a file that starts with the name and has a whole header. -/
theorem file2key_header (alloc : Nat) (m0 : Wbsm4Mem) (file : List Byte) (hname : file.take 16 = wbsm4Name)
    (h24 : 24 ≤ file.length) :
    file2key alloc m0 file = (readSlots alloc (slots (roundsOf file)) m0.mem (file.drop 24)).map fun x =>
      (x.1, ⟨BitVec.ofNat 32 (fileWord file 16), BitVec.ofNat 32 (fileWord file 20), x.2⟩) := by
  have hf : file = wbsm4Name ++ file.drop 16 := by rw [← hname, List.take_append_drop]
  obtain ⟨r, hr, hrn⟩ := fread_some (file.drop 16) (by rw [List.length_drop]; omega)
  obtain ⟨e, he, hen⟩ := fread_some ((file.drop 16).drop 4) (by rw [List.length_drop, List.length_drop]; omega)
  rw [fileWord_drop] at hrn
  rw [fileWord_drop, fileWord_drop] at hen
  have hrw := ofNat_fileWord file 16 r hrn
  have hew := ofNat_fileWord file 20 e hen
  have e0 : file2key alloc m0 file = file2key alloc m0 (wbsm4Name ++ file.drop 16) := congrArg (file2key alloc m0) hf
  rw [e0, file2key_named, hr]
  simp only
  rw [he]
  simp only
  rw [List.drop_drop, List.drop_drop, roundsOf, ← hrw, ← hew]

/-- C110, what a file gives: a file with the name, a whole header and a number of rounds the context has room for is never
undefined.  It is accepted exactly if it is long enough, no matter what it holds.  Every whole word of it replaces a word of
the context, the first in the order of the loops; this holds for rejected files as well, which leave a mixture of two keys. -/
theorem C110_read (alloc : Nat) (m0 : Wbsm4Mem) (file : List Byte) (hname : file.take 16 = wbsm4Name)
    (h24 : 24 ≤ file.length) (hN : roundsOf file ≤ alloc) :
    ∃ m, file2key alloc m0 file =
        some (decide (24 + 24576 * roundsOf file + 8192 * min (roundsOf file) 4 ≤ file.length), m) ∧
      m.rounds.toNat = fileWord file 16 ∧ m.encmode.toNat = fileWord file 20 ∧
      (∀ k (hk : k < (slots (roundsOf file)).length),
        (28 + 4 * k ≤ file.length → (m.mem (slots (roundsOf file))[k]).toNat = fileWord file (24 + 4 * k)) ∧
        (file.length < 28 + 4 * k → m.mem (slots (roundsOf file))[k] = m0.mem (slots (roundsOf file))[k])) ∧
      ∀ t, t ∉ slots (roundsOf file) → m.mem t = m0.mem t := by
  obtain ⟨m', h1, h2, h3⟩ := readSlots_spec alloc (slots (roundsOf file)) (slots_inside _ alloc hN) (slots_nodup _) m0.mem
    (file.drop 24)
  refine ⟨⟨BitVec.ofNat 32 (fileWord file 16), BitVec.ofNat 32 (fileWord file 20), m'⟩, ?_, ?_, ?_, ?_, h3⟩
  · rw [file2key_header alloc m0 file hname h24, h1, slots_length, List.length_drop]
    simp only [Option.map_some]
    congr 2
    rw [decide_eq_decide]
    omega
  · exact Nat.mod_eq_of_lt (fileWord_lt file 16)
  · exact Nat.mod_eq_of_lt (fileWord_lt file 20)
  · intro k hk
    obtain ⟨g1, g2⟩ := h2 k hk
    rw [List.length_drop] at g1 g2
    rw [fileWord_drop] at g1
    exact ⟨fun h => g1 (by omega), fun h => g2 (by omega)⟩

theorem file2key_short (alloc : Nat) (m0 : Wbsm4Mem) (file : List Byte) (h24 : file.length < 24) :
    ∃ m, file2key alloc m0 file = some (false, m) ∧ m.mem = m0.mem := by
  by_cases hname : file.take 16 = wbsm4Name
  · have hf : file = wbsm4Name ++ file.drop 16 := by rw [← hname, List.take_append_drop]
    rw [hf, file2key_named]
    by_cases h4 : (file.drop 16).length < 4
    · rw [fread_short _ h4]; exact ⟨m0, rfl, rfl⟩
    · obtain ⟨r, hr, -⟩ := fread_some (file.drop 16) (by omega)
      rw [hr]
      simp only
      rw [fread_short _ (by rw [List.length_drop, List.length_drop]; omega)]
      exact ⟨_, rfl, rfl⟩
  · exact ⟨m0, C39_bad_name alloc m0 file hname, rfl⟩

/-- C110, when reading is undefined: exactly if the announced rounds exceed the context and the file reaches past the first
table; the bytes that follow are then written behind it.  Nothing else in a file, however malformed, is undefined. -/
theorem C110_undefined (alloc : Nat) (m0 : Wbsm4Mem) (file : List Byte) :
    file2key alloc m0 file = none ↔
      file.take 16 = wbsm4Name ∧ 24 + 12288 * alloc ≤ file.length ∧ alloc < roundsOf file := by
  by_cases h24 : file.length < 24
  · obtain ⟨m, h, -⟩ := file2key_short alloc m0 file h24
    rw [h]
    simp only [reduceCtorEq, false_iff]
    omega
  · by_cases hname : file.take 16 = wbsm4Name
    · rw [file2key_header alloc m0 file hname (by omega), Option.map_eq_none_iff, readSlots_none]
      by_cases hN : roundsOf file ≤ alloc
      · constructor
        · rintro ⟨k, hk, hf, -⟩
          rw [slots_inside _ alloc hN _ (List.getElem_mem hk)] at hf
          cases hf
        · omega
      · rw [slots_outside alloc _ (by omega), List.length_drop]
        constructor
        · intro h; exact ⟨hname, by omega, by omega⟩
        · intro h; omega
    · rw [C39_bad_name alloc m0 file hname]
      simp [hname]

/-- C110, which files are accepted. -/
theorem C110_accepted (alloc : Nat) (m0 : Wbsm4Mem) (file : List Byte) :
    (∃ m, file2key alloc m0 file = some (true, m)) ↔ file.take 16 = wbsm4Name ∧ roundsOf file ≤ alloc ∧
      24 + 24576 * roundsOf file + 8192 * min (roundsOf file) 4 ≤ file.length := by
  by_cases h24 : file.length < 24
  · obtain ⟨m, h, -⟩ := file2key_short alloc m0 file h24
    rw [h]
    constructor
    · rintro ⟨m', h'⟩; simp at h'
    · omega
  · by_cases hname : file.take 16 = wbsm4Name
    · by_cases hN : roundsOf file ≤ alloc
      · obtain ⟨m, h, -⟩ := C110_read alloc m0 file hname (by omega) hN
        rw [h]
        simp [hname, hN]
      · constructor
        · rintro ⟨m, h⟩
          exfalso
          rw [file2key_header alloc m0 file hname (by omega)] at h
          obtain ⟨x, hx, hx'⟩ := Option.map_eq_some_iff.mp h
          have hx1 : x.1 = true := congrArg Prod.fst hx'
          have hall := readSlots_true alloc _ _ _ x.2 (by rw [hx, ← hx1])
          have := hall (.mm alloc 0 0 0) ((mem_slots _ _).mpr (by simp only; omega))
          simp [Slot.inside] at this
        · omega
    · rw [C39_bad_name alloc m0 file hname]
      simp [hname]

/-- C110, no integrity check: of two files of one length that agree in the header, both are accepted or none; if they differ in
a byte that is read, the contexts differ.  A damaged key file is loaded as another key. -/
theorem C110_damaged (alloc : Nat) (m0 : Wbsm4Mem) (file file' : List Byte) (hl : file.length = file'.length)
    (hh : file.take 24 = file'.take 24) (m : Wbsm4Mem) (h : file2key alloc m0 file = some (true, m)) :
    ∃ m', file2key alloc m0 file' = some (true, m') ∧
      ∀ p, 24 ≤ p → p < 24 + 24576 * roundsOf file + 8192 * min (roundsOf file) 4 → file[p]? ≠ file'[p]? → m'.mem ≠ m.mem := by
  have hget : ∀ i, i < 24 → file[i]? = file'[i]? := by
    intro i hi
    have := congrArg (·[i]?) hh
    simpa [List.getElem?_take, hi] using this
  have hw : fileWord file 16 = fileWord file' 16 := by
    simp only [fileWord, List.getD_eq_getElem?_getD]
    rw [hget 16 (by omega), hget (16 + 1) (by omega), hget (16 + 2) (by omega), hget (16 + 3) (by omega)]
  have hr : roundsOf file = roundsOf file' := by unfold roundsOf; rw [hw]
  obtain ⟨hname, hN, hlen⟩ := (C110_accepted alloc m0 file).mp ⟨m, h⟩
  have hname' : file'.take 16 = wbsm4Name := by
    rw [← hname]
    have := congrArg (·.take 16) hh
    simpa [List.take_take] using this.symm
  obtain ⟨n, h1, -, -, h4, -⟩ := C110_read alloc m0 file hname (by omega) hN
  obtain ⟨n', h1', -, -, h4', -⟩ := C110_read alloc m0 file' hname' (by omega) (by omega)
  rw [h] at h1
  simp only [Option.some.injEq, Prod.mk.injEq] at h1
  rw [decide_eq_true (by omega)] at h1'
  refine ⟨n', h1', ?_⟩
  intro p hp hp' hne e
  rw [← h1.2] at h4
  have hk : (p - 24) / 4 < (slots (roundsOf file)).length := by rw [slots_length]; omega
  have g := (h4 _ hk).1 (by omega)
  have g' : (n'.mem (slots (roundsOf file))[(p - 24) / 4]).toNat = fileWord file' (24 + 4 * ((p - 24) / 4)) := by
    have hk' : (p - 24) / 4 < (slots (roundsOf file')).length := by rw [← hr]; exact hk
    have := (h4' _ hk').1 (by omega)
    simpa only [hr] using this
  rw [e, g] at g'
  apply hne
  have hb := fun (f : List Byte) (i : Nat) => (f.getD i 0).isLt
  have key : ∀ i, i < 4 → file.getD (24 + 4 * ((p - 24) / 4) + i) 0 = file'.getD (24 + 4 * ((p - 24) / 4) + i) 0 := by
    intro i hi
    apply BitVec.eq_of_toNat_eq
    unfold fileWord at g'
    have a0 := hb file (24 + 4 * ((p - 24) / 4)); have a1 := hb file (24 + 4 * ((p - 24) / 4) + 1)
    have a2 := hb file (24 + 4 * ((p - 24) / 4) + 2); have a3 := hb file (24 + 4 * ((p - 24) / 4) + 3)
    have b0 := hb file' (24 + 4 * ((p - 24) / 4)); have b1 := hb file' (24 + 4 * ((p - 24) / 4) + 1)
    have b2 := hb file' (24 + 4 * ((p - 24) / 4) + 2); have b3 := hb file' (24 + 4 * ((p - 24) / 4) + 3)
    match i, hi with
    | 0, _ => show (file.getD (24 + 4 * ((p - 24) / 4)) 0).toNat = (file'.getD (24 + 4 * ((p - 24) / 4)) 0).toNat; omega
    | 1, _ | 2, _ | 3, _ => omega
  have hk4 := key ((p - 24) % 4) (by omega)
  rw [show 24 + 4 * ((p - 24) / 4) + (p - 24) % 4 = p by omega, List.getD_eq_getElem?_getD, List.getD_eq_getElem?_getD] at hk4
  rw [List.getElem?_eq_getElem (show p < file.length by omega), List.getElem?_eq_getElem (show p < file'.length by omega)] at hk4 ⊢
  simpa using hk4

/-! ### writing -/

/-- After a series of calls that were given `w`: all of it is on the device or in the buffer, or the device is full. -/
def OutInv (room : Nat) (st : OutStream) (w : List Byte) : Prop :=
  (st.disk ++ st.pending = w ∧ st.disk.length ≤ room) ∨ (st.disk = w.take room ∧ room < w.length)

theorem outPut_calls (room : Nat) (flush : Nat → Bool) (st : OutStream) (bs : List Byte) :
    (outPut room flush st bs).2.calls = st.calls + 1 := by
  unfold outPut; simp only; split <;> rfl

theorem outPut_inv (room : Nat) (flush : Nat → Bool) (st : OutStream) (w bs : List Byte) (h : OutInv room st w) (hb : bs ≠ []) :
    OutInv room (outPut room flush st bs).2 (w ++ bs) ∧
    ((outPut room flush st bs).1 = false ↔ flush st.calls = true ∧ room < (w ++ bs).length) := by
  have hbl : 0 < bs.length := List.length_pos_iff.mpr hb
  unfold outPut
  simp only
  cases hf : flush st.calls with
  | false =>
    simp only [Bool.false_eq_true, if_false, false_and, Bool.true_eq_false, and_true]
    rcases h with ⟨h1, h2⟩ | ⟨h1, h2⟩
    · left; exact ⟨by rw [← h1, List.append_assoc], h2⟩
    · right
      refine ⟨?_, by rw [List.length_append]; omega⟩
      rw [List.take_append_of_le_length (by omega)]
      exact h1
  | true =>
    simp only [if_true, true_and]
    rcases h with ⟨h1, h2⟩ | ⟨h1, h2⟩
    · have hl : (w ++ bs).length = st.disk.length + (st.pending ++ bs).length := by
        rw [← h1]; simp only [List.length_append]; omega
      constructor
      · by_cases hr : (w ++ bs).length ≤ room
        · left
          refine ⟨?_, ?_⟩
          · simp only [List.append_nil]
            rw [List.take_of_length_le (by omega), ← h1, List.append_assoc]
          · rw [List.length_append, List.length_take]; omega
        · right
          refine ⟨?_, by omega⟩
          simp only
          have := List.take_append (i := room) (l₁ := st.disk) (l₂ := st.pending ++ bs)
          rw [← h1, List.append_assoc, this, List.take_of_length_le h2]
      · rw [decide_eq_false_iff_not]; omega
    · have hd : st.disk.length = room := by rw [h1, List.length_take]; omega
      constructor
      · right
        refine ⟨?_, by rw [List.length_append]; omega⟩
        simp only
        rw [hd, Nat.sub_self, List.take_zero, List.append_nil, List.take_append_of_le_length (by omega)]
        exact h1
      · rw [decide_eq_false_iff_not]; simp only [List.length_append]; omega

theorem outClose_inv (room : Nat) (st : OutStream) (w : List Byte) (h : OutInv room st w) : outClose room st = w.take room := by
  unfold outClose
  rcases h with ⟨h1, h2⟩ | ⟨h1, h2⟩
  · rw [← h1, List.take_append, List.take_of_length_le h2]
  · have hd : st.disk.length = room := by rw [h1, List.length_take]; omega
    rw [hd, Nat.sub_self, List.take_zero, List.append_nil, h1]

theorem outPutAll_spec (room : Nat) (flush : Nat → Bool) (ws : List (List Byte)) (hw : ∀ x ∈ ws, x.length = 4) :
    ∀ (st : OutStream) (w : List Byte), OutInv room st w →
      outClose room (outPutAll room flush st ws).2 = (w ++ ws.flatten).take room ∧
      ((outPutAll room flush st ws).1 = false ↔
        ∃ k, k < ws.length ∧ flush (st.calls + k) = true ∧ room < w.length + 4 * (k + 1)) := by
  induction ws with
  | nil =>
    intro st w h
    simp only [outPutAll, List.flatten_nil, List.append_nil]
    exact ⟨outClose_inv room st w h, by simp⟩
  | cons x ws ih =>
    intro st w h
    have hx : x.length = 4 := hw x (by simp)
    have hx0 : x ≠ [] := by intro e; rw [e] at hx; cases hx
    obtain ⟨i1, i2⟩ := outPut_inv room flush st w x h hx0
    rw [List.length_append, hx] at i2
    simp only [outPutAll]
    cases hr : (outPut room flush st x).1 with
    | false =>
      simp only [Bool.false_eq_true, if_false, true_iff]
      obtain ⟨f1, f2⟩ := i2.mp hr
      refine ⟨?_, 0, by simp, by simpa using f1, by omega⟩
      have := List.take_append_of_le_length (i := room) (l₁ := w ++ x) (l₂ := ws.flatten) (by rw [List.length_append, hx]; omega)
      rw [outClose_inv room _ _ i1, List.flatten_cons, ← List.append_assoc, this]
    | true =>
      simp only [if_true]
      obtain ⟨j1, j2⟩ := ih (fun y hy => hw y (by simp [hy])) _ _ i1
      refine ⟨by rw [j1, List.flatten_cons, List.append_assoc], ?_⟩
      rw [j2, outPut_calls, List.length_append, hx]
      constructor
      · rintro ⟨k, a, b, c⟩
        exact ⟨k + 1, by simp only [List.length_cons]; omega, by rw [← b]; congr 1; omega, by omega⟩
      · rintro ⟨k, a, b, c⟩
        cases k with
        | zero =>
          exfalso
          have := i2.mpr ⟨by simpa using b, by omega⟩
          rw [hr] at this; cases this
        | succ k =>
          rw [List.length_cons] at a
          exact ⟨k, by omega, by rw [← b]; congr 1; omega, by omega⟩

theorem key2file_length (c : Wbsm4Mem) : (key2file c).length =
    24 + 24576 * loopBound c.rounds + 8192 * min (loopBound c.rounds) 4 := by
  unfold key2file
  rw [List.length_append, List.length_append, List.length_append, List.length_flatMap, sum_const _ (fun s => (wordLE (c.mem s)).length) 4 (fun s _ => rfl),
    slots_length, wordLE_length, wordLE_length, show wbsm4Name.length = 16 from rfl]
  omega

/-- C110, writing on a device with room for `room` bytes, for any policy of the buffer: the file holds the first `room` bytes.
Failure is reported exactly if the buffer happens to be emptied, in a call after the first, when there is no room left. -/
theorem C110_write (room : Nat) (flush : Nat → Bool) (c : Wbsm4Mem) :
    ∃ ok, key2fileIo true room flush c = some (ok, (key2file c).take room) ∧
      (ok = false ↔ ∃ k, 1 ≤ k ∧ 16 + 4 * k ≤ (key2file c).length ∧ flush k = true ∧ room < 16 + 4 * k) := by
  have i0 : OutInv room ⟨[], [], 0⟩ [] := Or.inl ⟨rfl, by simp⟩
  obtain ⟨i1, -⟩ := outPut_inv room flush ⟨[], [], 0⟩ [] wbsm4Name i0 (by decide)
  have hc := outPut_calls room flush ⟨[], [], 0⟩ wbsm4Name
  obtain ⟨j1, j2⟩ := outPutAll_spec room flush
    (wordLE c.rounds :: wordLE c.encmode :: (slots (loopBound c.rounds)).map fun s => wordLE (c.mem s)) (by
      intro x hx
      simp only [List.mem_cons, List.mem_map] at hx
      rcases hx with rfl | rfl | ⟨s, _, rfl⟩ <;> rfl) _ _ i1
  refine ⟨(outPutAll room flush (outPut room flush ⟨[], [], 0⟩ wbsm4Name).2
    (wordLE c.rounds :: wordLE c.encmode :: (slots (loopBound c.rounds)).map fun s => wordLE (c.mem s))).1, ?_, ?_⟩
  rotate_left
  · rw [j2, hc]
    have hl : (key2file c).length = 24 + 4 * (slots (loopBound c.rounds)).length := by rw [key2file_length, slots_length]; omega
    have h16 : ([] ++ wbsm4Name : List Byte).length = 16 := rfl
    rw [h16, hl]
    simp only [List.length_cons, List.length_map]
    constructor
    · rintro ⟨k, a, b, d⟩
      exact ⟨k + 1, by omega, by omega, by rw [← b]; congr 1; omega, by omega⟩
    · rintro ⟨k, a, b, d, e⟩
      exact ⟨k - 1, by omega, by rw [← d]; congr 1; omega, by omega⟩
  · unfold key2fileIo
    simp only [if_true]
    rw [j1]
    unfold key2file
    rw [List.nil_append, List.flatten_cons, List.flatten_cons, List.flatMap_def, List.append_assoc, List.append_assoc]

/-- C110, success that is none: on a device too small for the key file, with a buffer that is emptied only while there is
room, the writer reports success; the file it leaves is rejected by the reader. -/
theorem C110_false_success (room : Nat) (flush : Nat → Bool) (c m0 : Wbsm4Mem) (alloc : Nat) (ha : loopBound c.rounds ≤ alloc)
    (hr : room < (key2file c).length)
    (hf : ∀ k, 16 + 4 * k ≤ (key2file c).length → flush k = true → 16 + 4 * k ≤ room) :
    ∃ file m, key2fileIo true room flush c = some (true, file) ∧ file.length = room ∧
      file2key alloc m0 file = some (false, m) := by
  obtain ⟨ok, h1, h2⟩ := C110_write room flush c
  obtain ⟨m, hm⟩ := C39_truncated alloc c m0 ha room hr
  refine ⟨_, m, ?_, by rw [List.length_take]; omega, hm⟩
  rw [h1]
  cases ok with
  | true => rfl
  | false =>
    obtain ⟨k, _, h5, h3, h4⟩ := h2.mp rfl
    have := hf k h5 h3
    omega

/-- C110, what saves the user: whatever the device and the buffer do, a file left by the writer is either the whole file or
rejected; no other key is loaded. -/
theorem C110_write_read (room : Nat) (flush : Nat → Bool) (c m0 m : Wbsm4Mem) (alloc : Nat) (ha : loopBound c.rounds ≤ alloc)
    (ok : Bool) (file : List Byte) (hw : key2fileIo true room flush c = some (ok, file))
    (hm : file2key alloc m0 file = some (true, m)) :
    file = key2file c ∧ m.rounds = c.rounds ∧ m.encmode = c.encmode ∧ ∀ s ∈ slots (loopBound c.rounds), m.mem s = c.mem s := by
  obtain ⟨ok', h1, -⟩ := C110_write room flush c
  rw [hw] at h1
  simp only [Option.some.injEq, Prod.mk.injEq] at h1
  by_cases hr : room < (key2file c).length
  · obtain ⟨m', hm'⟩ := C39_truncated alloc c m0 ha room hr
    rw [h1.2, hm'] at hm
    simp at hm
  · have e : file = key2file c := by rw [h1.2, List.take_of_length_le (by omega)]
    obtain ⟨m', a, b, d, f, -⟩ := C39_round_trip alloc c m0 ha
    rw [e, a] at hm
    simp only [Option.some.injEq, Prod.mk.injEq, true_and] at hm
    subst hm
    exact ⟨e, b, d, fun s hs => by rw [f, if_pos hs]⟩

/-- C110, files that cannot be opened: both functions close a stream they do not have. -/
theorem C110_missing (room alloc : Nat) (flush : Nat → Bool) (c : Wbsm4Mem) (opened : Bool) (path : Option (List Byte)) :
    (key2fileIo opened room flush c = none ↔ opened = false) ∧
    (file2keyPath alloc c path = none ↔ path = none ∨ ∃ file, path = some file ∧ file.take 16 = wbsm4Name ∧
      24 + 12288 * alloc ≤ file.length ∧ alloc < roundsOf file) := by
  constructor
  · unfold key2fileIo; cases opened <;> simp
  · unfold file2keyPath
    cases path with
    | none => simp
    | some file => simp only [reduceCtorEq, false_or, Option.some.injEq, exists_eq_left']; exact C110_undefined alloc c file

/-- A header alone, announcing no rounds or a negative number of them, is a key file; a context of 32 rounds takes it. -/
example (m0 : Wbsm4Mem) : ∃ m, file2key 32 m0 (wbsm4Name ++ [0xff, 0xff, 0xff, 0xff, 1, 0, 0, 0]) = some (true, m) :=
  (C110_accepted 32 m0 _).mpr ⟨by decide, by decide, by decide⟩

/-- A file that writes behind the tables of a context of 32 rounds. -/
example (m0 : Wbsm4Mem) : file2key 32 m0 (wbsm4Name ++ [33, 0, 0, 0, 1, 0, 0, 0] ++ List.replicate 393216 0) = none := by
  rw [C110_undefined]
  refine ⟨by rw [List.append_assoc, List.take_append_of_le_length (by decide)]; decide, ?_, ?_⟩
  · rw [List.length_append, List.length_replicate]; decide
  · have hg : ∀ i, i < 24 → (wbsm4Name ++ [33, 0, 0, 0, 1, 0, 0, 0] ++ List.replicate 393216 0).getD i 0 =
        (wbsm4Name ++ [33, 0, 0, 0, 1, 0, 0, 0]).getD i (0 : Byte) := by
      intro i hi
      rw [List.getD_eq_getElem?_getD, List.getD_eq_getElem?_getD, List.getElem?_append_left hi]
    unfold roundsOf fileWord
    rw [hg 16 (by omega), hg (16 + 1) (by omega), hg (16 + 2) (by omega), hg (16 + 3) (by omega)]
    decide

/-- A key of 32 rounds, a buffer of 4096 bytes, and a device with room for 819200 of the 819224 bytes. -/
example (c m0 : Wbsm4Mem) (h : c.rounds = 32) : ∃ file m,
    key2fileIo true 819200 (fun k => decide ((16 + 4 * k) % 4096 = 0)) c = some (true, file) ∧
      file.length = 819200 ∧ file2key 32 m0 file = some (false, m) := by
  have hl : (key2file c).length = 819224 := by rw [key2file_length, h]; decide
  exact C110_false_success 819200 _ c m0 32 (by rw [h]; decide) (by omega) (fun k h1 h2 => by
    have := of_decide_eq_true h2; omega)

end Verif.Props
