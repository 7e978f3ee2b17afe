import Verif.Model.Wbsm4File
import Verif.Props.Sm4

/-! C39: the white-box SM4 key file. -/
set_option autoImplicit false

namespace Verif.Props
open Verif Spec Model

theorem fread_wordLE (w : BitVec 32) (r : List Byte) : freadWord (wordLE w ++ r) = some (w, r) := by
  have h : wordLE w ++ r = w.truncate 8 :: (w >>> 8).truncate 8 :: (w >>> 16).truncate 8 :: (w >>> 24).truncate 8 :: r := rfl
  rw [h, freadWord, trunc_shift, trunc_shift, trunc_shift, trunc_zero, append4_extract]

theorem fread_short (l : List Byte) (h : l.length < 4) : freadWord l = none := by
  match l, h with
  | [], _ | [_], _ | [_, _], _ | [_, _, _], _ => rfl
  | _ :: _ :: _ :: _ :: _, h => simp only [List.length_cons] at h; omega

theorem takeWhile_le (p : Byte → Bool) (l : List Byte) : (l.takeWhile p).length ≤ l.length :=
  (List.takeWhile_prefix p).length_le

theorem wordLE_length (w : BitVec 32) : (wordLE w).length = 4 := rfl

theorem readSlots_ok (alloc : Nat) (ss : List Slot) (hin : ∀ s ∈ ss, s.inside alloc = true) (src m : Slot → BitVec 32)
    (rest : List Byte) :
    readSlots alloc ss m (ss.flatMap (fun s => wordLE (src s)) ++ rest) =
      some (true, fun t => if t ∈ ss then src t else m t) := by
  induction ss generalizing m with
  | nil => simp [readSlots]
  | cons s ss ih =>
    rw [readSlots, if_pos (hin s (by simp)), List.flatMap_cons, List.append_assoc, fread_wordLE]
    simp only
    rw [ih (fun t ht => hin t (by simp [ht]))]
    congr 2
    funext t
    by_cases h1 : t ∈ ss
    · simp [h1]
    · by_cases h2 : t = s <;> simp [h1, h2]

theorem readSlots_short (alloc : Nat) (ss : List Slot) (hin : ∀ s ∈ ss, s.inside alloc = true) (src m : Slot → BitVec 32)
    (n : Nat) (hn : n < (ss.flatMap (fun s => wordLE (src s))).length) :
    ∃ m', readSlots alloc ss m ((ss.flatMap (fun s => wordLE (src s))).take n) = some (false, m') := by
  induction ss generalizing m n with
  | nil => simp at hn
  | cons s ss ih =>
    rw [readSlots, if_pos (hin s (by simp)), List.flatMap_cons]
    rw [List.flatMap_cons, List.length_append, wordLE_length] at hn
    by_cases h4 : n < 4
    · rw [fread_short _ (by rw [List.length_take]; omega)]
      exact ⟨m, rfl⟩
    · rw [List.take_append, wordLE_length, List.take_of_length_le (by rw [wordLE_length]; omega), fread_wordLE]
      exact ih (fun t ht => hin t (by simp [ht])) _ _ (by omega)

/-- Words visited that lie outside the allocation are reached. -/
theorem readSlots_oob (alloc : Nat) (ss : List Slot) (hout : ∃ s ∈ ss, s.inside alloc = false) (src m : Slot → BitVec 32)
    (rest : List Byte) :
    readSlots alloc ss m (ss.flatMap (fun s => wordLE (src s)) ++ rest) = none := by
  induction ss generalizing m with
  | nil => obtain ⟨s, h, _⟩ := hout; simp at h
  | cons s ss ih =>
    rw [readSlots]
    by_cases h : s.inside alloc = true
    · rw [if_pos h, List.flatMap_cons, List.append_assoc, fread_wordLE]
      apply ih
      obtain ⟨t, ht, hf⟩ := hout
      rcases List.mem_cons.mp ht with rfl | ht
      · rw [h] at hf; simp at hf
      · exact ⟨t, ht, hf⟩
    · rw [if_neg h]

theorem mem_allBytes (b : Byte) : b ∈ allBytes := by
  rw [allBytes, List.mem_map]
  exact ⟨b.toNat, List.mem_range.mpr b.isLt, by simp⟩

/-- The files cover exactly the words of the rounds, and the external encodings of four of them. -/
theorem mem_slots (rounds : Nat) (s : Slot) : s ∈ slots rounds ↔
    match s with
    | .mm i .. | .cc i .. | .dd i .. | .table i .. => i < rounds
    | .se i .. | .fe i .. => i.1 < rounds := by
  unfold slots
  cases s <;> simp [List.mem_append, List.mem_flatMap, List.mem_map, mem_allBytes, List.mem_finRange] <;> grind

theorem slots_inside (rounds alloc : Nat) (h : rounds ≤ alloc) : ∀ s ∈ slots rounds, s.inside alloc = true := by
  intro s hs
  rw [mem_slots] at hs
  cases s <;> simp [Slot.inside] at hs ⊢ <;> omega

theorem name_no_stop : wbsm4Name.takeWhile (· ≠ 0x0a) = wbsm4Name ∧ wbsm4Name.takeWhile (· ≠ 0) = wbsm4Name := by decide

theorem fgets_name (rest : List Byte) : fgets16 (wbsm4Name ++ rest) = wbsm4Name := by
  have h : (wbsm4Name ++ rest).take 16 = wbsm4Name := by
    rw [List.take_append_of_le_length (by decide)]; rfl
  unfold fgets16
  rw [h]
  decide

theorem file2key_named (alloc : Nat) (c : Wbsm4Mem) (rest : List Byte) :
    file2key alloc c (wbsm4Name ++ rest) =
      match freadWord rest with
      | none => some (false, c)
      | some (rounds, rest) =>
        match freadWord rest with
        | none => some (false, { c with rounds := rounds })
        | some (encmode, rest) =>
          (readSlots alloc (slots (loopBound rounds)) c.mem rest).map fun x => (x.1, ⟨rounds, encmode, x.2⟩) := by
  unfold file2key
  simp only [fgets_name, name_no_stop.2, ne_eq, not_true, if_false]
  rw [show List.drop wbsm4Name.length (wbsm4Name ++ rest) = rest from List.drop_left]
  rfl

/-- C39, round trip: reading back into a context allocated for at least as many rounds succeeds, restores `rounds`,
`encmode` and every word of the tables, leaves other words alone, and the restored context encrypts alike. -/
theorem C39_round_trip (alloc : Nat) (c m0 : Wbsm4Mem) (h : loopBound c.rounds ≤ alloc) :
    ∃ m, file2key alloc m0 (key2file c) = some (true, m) ∧ m.rounds = c.rounds ∧ m.encmode = c.encmode ∧
      (∀ s, m.mem s = if s ∈ slots (loopBound c.rounds) then c.mem s else m0.mem s) ∧
      (4 ≤ loopBound c.rounds → m.toCtx = c.toCtx ∧ ∀ x, wbsm4Encrypt m.toCtx x = wbsm4Encrypt c.toCtx x) := by
  have hr := readSlots_ok alloc (slots (loopBound c.rounds)) (slots_inside _ alloc h) c.mem m0.mem []
  rw [List.append_nil] at hr
  refine ⟨⟨c.rounds, c.encmode, fun s => if s ∈ slots (loopBound c.rounds) then c.mem s else m0.mem s⟩, ?_, rfl, rfl, fun s => rfl, ?_⟩
  · rw [key2file, List.append_assoc, List.append_assoc, file2key_named, fread_wordLE]
    simp only
    rw [fread_wordLE]
    simp only
    rw [hr]
    rfl
  · intro h4
    have hctx : (Wbsm4Mem.toCtx ⟨c.rounds, c.encmode, fun s => if s ∈ slots (loopBound c.rounds) then c.mem s else m0.mem s⟩) =
        c.toCtx := by
      unfold Wbsm4Mem.toCtx
      have hsef : ∀ (i j : Fin 4) (k : Byte), Slot.se i j k ∈ slots (loopBound c.rounds) ∧
          Slot.fe i j k ∈ slots (loopBound c.rounds) := by
        intro i j k
        rw [mem_slots, mem_slots]
        simp only
        omega
      simp only [(hsef _ _ _).1, (hsef _ _ _).2, if_true, Wbsm4Ctx.mk.injEq, and_true]
      apply List.map_congr_left
      intro i hi
      have hi := List.mem_range.mp hi
      have hm : ∀ j k l, Slot.mm i j k l ∈ slots (loopBound c.rounds) := fun j k l => (mem_slots _ _).mpr hi
      have hc : ∀ j k, Slot.cc i j k ∈ slots (loopBound c.rounds) := fun j k => (mem_slots _ _).mpr hi
      have hd : ∀ j k, Slot.dd i j k ∈ slots (loopBound c.rounds) := fun j k => (mem_slots _ _).mpr hi
      have ht : ∀ j k, Slot.table i j k ∈ slots (loopBound c.rounds) := fun j k => (mem_slots _ _).mpr hi
      simp only [hm, hc, hd, ht, if_true]
    exact ⟨hctx, fun x => by rw [hctx]⟩

/-- C39, truncation: a proper prefix of a key file is rejected. -/
theorem C39_truncated (alloc : Nat) (c m0 : Wbsm4Mem) (h : loopBound c.rounds ≤ alloc) (n : Nat)
    (hn : n < (key2file c).length) : ∃ m, file2key alloc m0 ((key2file c).take n) = some (false, m) := by
  rw [key2file, List.append_assoc, List.append_assoc] at hn ⊢
  by_cases h16 : n < 16
  · refine ⟨m0, ?_⟩
    unfold file2key
    rw [if_pos]
    intro hc
    have hl := congrArg List.length hc
    have h1 := takeWhile_le (fun b : Byte => decide (b ≠ 0)) (fgets16 ((wbsm4Name ++ (wordLE c.rounds ++
      (wordLE c.encmode ++ (slots (loopBound c.rounds)).flatMap fun s => wordLE (c.mem s)))).take n))
    rw [hl] at h1
    have h2 : (fgets16 ((wbsm4Name ++ (wordLE c.rounds ++
      (wordLE c.encmode ++ (slots (loopBound c.rounds)).flatMap fun s => wordLE (c.mem s)))).take n)).length ≤ n := by
      unfold fgets16
      simp only [List.length_take]
      omega
    have h3 : wbsm4Name.length = 16 := rfl
    omega
  · rw [List.take_append, List.take_of_length_le (show wbsm4Name.length ≤ n by have : wbsm4Name.length = 16 := rfl; omega),
      file2key_named]
    have h3 : wbsm4Name.length = 16 := rfl
    rw [h3]
    rw [List.length_append, h3] at hn
    generalize hk : n - 16 = k
    have hn : k < (wordLE c.rounds ++ (wordLE c.encmode ++ (slots (loopBound c.rounds)).flatMap fun s => wordLE (c.mem s))).length := by
      omega
    by_cases hk4 : k < 4
    · rw [fread_short _ (by rw [List.length_take]; omega)]
      exact ⟨m0, rfl⟩
    · rw [List.take_append, wordLE_length, List.take_of_length_le (by rw [wordLE_length]; omega), fread_wordLE]
      rw [List.length_append, wordLE_length] at hn
      simp only
      by_cases hk8 : k - 4 < 4
      · rw [fread_short _ (by rw [List.length_take]; omega)]
        exact ⟨_, rfl⟩
      · rw [List.take_append, wordLE_length, List.take_of_length_le (by rw [wordLE_length]; omega), fread_wordLE]
        rw [List.length_append, wordLE_length] at hn
        simp only
        obtain ⟨m', hm'⟩ := readSlots_short alloc _ (slots_inside _ alloc h) c.mem m0.mem (k - 4 - 4) (by omega)
        rw [hm']
        exact ⟨_, rfl⟩

/-- C39, header: a file that does not start with the algorithm name is rejected and the context is not touched. -/
theorem C39_bad_name (alloc : Nat) (m0 : Wbsm4Mem) (file : List Byte) (h : file.take 16 ≠ wbsm4Name) :
    file2key alloc m0 file = some (false, m0) := by
  unfold file2key
  rw [if_pos]
  intro hc
  apply h
  have h1 : (fgets16 file).length ≤ 16 := by
    unfold fgets16
    simp only [List.length_take]
    omega
  have hl := congrArg List.length hc
  have hp : (fgets16 file).takeWhile (· ≠ 0) <+: fgets16 file := List.takeWhile_prefix _
  rw [hc] at hp
  have h16 : wbsm4Name.length = 16 := rfl
  have hle := hp.length_le
  have he := hp.eq_of_length (by omega)
  have hp2 : fgets16 file <+: file.take 16 := List.take_prefix _ _
  rw [← he] at hp2
  exact (hp2.eq_of_length (by have := hp2.length_le; rw [List.length_take] at *; omega)).symm

/-- C39, size: the number of rounds is taken from the file and not compared with the context, so a file with more rounds
than the context was allocated for is written past the end of the tables. -/
theorem C39_more_rounds (alloc : Nat) (c m0 : Wbsm4Mem) (h : alloc < loopBound c.rounds) :
    file2key alloc m0 (key2file c) = none := by
  have hr := readSlots_oob alloc (slots (loopBound c.rounds))
    ⟨.mm alloc 0 0 0, (mem_slots _ _).mpr h, by simp [Slot.inside]⟩ c.mem m0.mem []
  rw [List.append_nil] at hr
  rw [key2file, List.append_assoc, List.append_assoc, file2key_named, fread_wordLE]
  simp only
  rw [fread_wordLE]
  simp only
  rw [hr]
  rfl

example : loopBound 36 = 36 ∧ (4 : Nat) ≤ loopBound 36 ∧ (32 : Nat) < loopBound 36 := by decide
example : (([1, 2, 3] : List Byte).take 16 ≠ wbsm4Name) := by decide

end Verif.Props
