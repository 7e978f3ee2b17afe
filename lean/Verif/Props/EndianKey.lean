import Verif.Model.EndianFile
import Verif.Spec.Endian
import Verif.Lemmas.Endian
import Verif.Props.Wbsm4Disk
import Verif.Props.FpeNist

/-! C120: white-box SM4 key files that move between machines of other byte order, and FF1 on both kinds of machines. -/
set_option autoImplicit false

namespace Verif.Props
open Verif Spec Model

/-! ### words in files -/

/-- What a machine of order `o2` makes of a word that a machine of order `o1` has written. -/
def wordRead (o1 o2 : ByteOrder) (w : BitVec 32) : BitVec 32 := if o1 = o2 then w else mirror w

theorem app4_assoc (a b c d : Byte) : (d ++ c ++ b ++ a : BitVec 32) = (d ++ c) ++ (b ++ a) := by
  ext i hi
  simp only [BitVec.getElem_append]
  grind

theorem word_onBytes (o1 o2 : ByteOrder) (w : BitVec 32) (r : List Byte) :
    freadWordOn o2 (o1.bytes w ++ r) = some (wordRead o1 o2 w, r) := by
  have h1 : (((w >>> 24).truncate 8 ++ (w >>> 16).truncate 8 ++ (w >>> 8).truncate 8 ++ w.truncate 8 : BitVec 32)) = w := by
    rw [app4_assoc, trunc_shift, trunc_shift, trunc_shift, trunc_zero, append4_extract]
  have h2 : ((w.truncate 8 ++ (w >>> 8).truncate 8 ++ (w >>> 16).truncate 8 ++ (w >>> 24).truncate 8 : BitVec 32)) = mirror w := by
    rw [app4_assoc, trunc_shift, trunc_shift, trunc_shift, trunc_zero]
    rfl
  cases o1 <;> cases o2
  · exact congrArg (fun x => some (x, r)) h1
  · exact congrArg (fun x => some (x, r)) h2
  · exact congrArg (fun x => some (x, r)) h2
  · exact congrArg (fun x => some (x, r)) h1

theorem freadOn_short (o : ByteOrder) (l : List Byte) (h : l.length < 4) : freadWordOn o l = none := by
  match l, h with
  | [], _ | [_], _ | [_, _], _ | [_, _, _], _ => rfl
  | _ :: _ :: _ :: _ :: _, h => simp only [List.length_cons] at h; omega

theorem freadOn_some (o : ByteOrder) (file : List Byte) (h : 4 ≤ file.length) : ∃ w, freadWordOn o file = some (w, file.drop 4) := by
  match file, h with
  | a :: b :: c :: d :: r, _ => exact ⟨_, rfl⟩

theorem bytesOn_length (o : ByteOrder) (w : BitVec 32) : (o.bytes w).length = 4 := by
  cases o <;> rfl

theorem bytes_flat (o : ByteOrder) (ss : List Slot) (src : Slot → BitVec 32) :
    (ss.flatMap fun s => o.bytes (src s)).length = 4 * ss.length := by
  rw [List.length_flatMap, sum_const _ _ 4 (fun s _ => bytesOn_length _ _), Nat.mul_comm]

theorem readSlotsOn_ok (o1 o2 : ByteOrder) (alloc : Nat) (ss : List Slot) (hin : ∀ s ∈ ss, s.inside alloc = true)
    (src m : Slot → BitVec 32) (rest : List Byte) :
    readSlotsOn o2 alloc ss m (ss.flatMap (fun s => o1.bytes (src s)) ++ rest) =
      some (true, fun t => if t ∈ ss then wordRead o1 o2 (src t) else m t) := by
  induction ss generalizing m with
  | nil => simp [readSlotsOn]
  | cons s ss ih =>
    rw [readSlotsOn, if_pos (hin s (by simp)), List.flatMap_cons, List.append_assoc, word_onBytes]
    simp only
    rw [ih (fun t ht => hin t (by simp [ht]))]
    congr 2
    funext t
    by_cases h1 : t ∈ ss
    · simp [h1]
    · by_cases h2 : t = s <;> simp [h1, h2]

/-- Whether the loops run to their end. -/
theorem readSlotsOn_flag (o : ByteOrder) (alloc : Nat) (ss : List Slot) (hin : ∀ s ∈ ss, s.inside alloc = true) :
    ∀ (m : Slot → BitVec 32) (body : List Byte),
    ∃ m', readSlotsOn o alloc ss m body = some (decide (4 * ss.length ≤ body.length), m') := by
  induction ss with
  | nil => intro m body; exact ⟨m, by simp [readSlotsOn]⟩
  | cons s ss ih =>
    intro m body
    unfold readSlotsOn
    rw [if_pos (hin s (by simp))]
    by_cases h4 : body.length < 4
    · rw [freadOn_short o body h4]
      refine ⟨m, ?_⟩
      simp only [List.length_cons]
      rw [decide_eq_false (by omega)]
    · obtain ⟨w, hw⟩ := freadOn_some o body (by omega)
      rw [hw]
      obtain ⟨m', h1⟩ := ih (fun t ht => hin t (by simp [ht])) (fun t => if t = s then w else m t) (body.drop 4)
      refine ⟨m', ?_⟩
      simp only
      rw [h1, List.length_drop, List.length_cons]
      congr 2
      rw [decide_eq_decide]
      omega

theorem readSlotsOn_none (o : ByteOrder) (alloc : Nat) (ss : List Slot) : ∀ (m : Slot → BitVec 32) (body : List Byte),
    readSlotsOn o alloc ss m body = none ↔ ∃ k, ∃ hk : k < ss.length, ss[k].inside alloc = false ∧ 4 * k ≤ body.length := by
  induction ss with
  | nil => intro m body; simp [readSlotsOn]
  | cons s ss ih =>
    intro m body
    unfold readSlotsOn
    cases hs : s.inside alloc with
    | false =>
      simp only [Bool.false_eq_true, if_false, true_iff]
      exact ⟨0, by simp, hs, by omega⟩
    | true =>
      simp only [if_true]
      by_cases h4 : body.length < 4
      · rw [freadOn_short o body h4]
        simp only [reduceCtorEq, false_iff, not_exists, not_and]
        intro k hk hf hb
        have : k = 0 := by omega
        subst this
        rw [List.getElem_cons_zero, hs] at hf
        cases hf
      · obtain ⟨w, hw⟩ := freadOn_some o body (by omega)
        rw [hw]
        simp only
        rw [ih]
        constructor
        · rintro ⟨k, hk, hf, hb⟩
          rw [List.length_drop] at hb
          exact ⟨k + 1, by simpa using hk, by simpa using hf, by omega⟩
        · rintro ⟨k, hk, hf, hb⟩
          cases k with
          | zero => rw [List.getElem_cons_zero, hs] at hf; cases hf
          | succ k =>
            refine ⟨k, by simpa using hk, by simpa using hf, ?_⟩
            rw [List.length_drop]; omega

/-- What a reader does with the file of a writer. -/
theorem file2keyOn_key (o1 o2 : ByteOrder) (alloc : Nat) (c m0 : Wbsm4Mem) :
    file2keyOn o2 alloc m0 (key2fileOn o1 c) =
      (readSlotsOn o2 alloc (slots (loopBound (wordRead o1 o2 c.rounds))) m0.mem
        ((slots (loopBound c.rounds)).flatMap fun s => o1.bytes (c.mem s))).map fun x =>
          (x.1, ⟨wordRead o1 o2 c.rounds, wordRead o1 o2 c.encmode, x.2⟩) := by
  unfold file2keyOn key2fileOn
  rw [List.append_assoc, List.append_assoc]
  simp only [fgets_name, name_no_stop.2, ne_eq, not_true, if_false]
  rw [show ∀ l, List.drop wbsm4Name.length (wbsm4Name ++ l) = l from fun l => List.drop_left, word_onBytes]
  simp only
  rw [word_onBytes]

/-! ### key files -/

/-- C120: on a little-endian machine the functions are those of the other models. -/
theorem C120_key_little (alloc : Nat) (c m0 : Wbsm4Mem) (file : List Byte) :
    key2fileOn .little c = key2file c ∧ file2keyOn .little alloc m0 file = file2key alloc m0 file := by
  have hw : ∀ l, freadWordOn .little l = freadWord l := by
    intro l
    match l with
    | [] | [_] | [_, _] | [_, _, _] => rfl
    | a :: b :: c :: d :: r =>
      refine congrArg (fun x => some (x, r)) ?_
      exact app4_assoc a b c d
  have hr : ∀ (ss : List Slot) (m : Slot → BitVec 32) (l : List Byte), readSlotsOn .little alloc ss m l = readSlots alloc ss m l := by
    intro ss
    induction ss with
    | nil => intro m l; rfl
    | cons s ss ih =>
      intro m l
      simp only [readSlotsOn, readSlots, hw, ih]
      rfl
  refine ⟨rfl, ?_⟩
  unfold file2keyOn file2key
  simp only [hw, hr]
  rfl

/-- C120: a key file written and read on machines of one byte order, whichever, comes back. -/
theorem C120_key_same (o : ByteOrder) (alloc : Nat) (c m0 : Wbsm4Mem) (h : loopBound c.rounds ≤ alloc) :
    file2keyOn o alloc m0 (key2fileOn o c) = some (true, ⟨c.rounds, c.encmode,
      fun s => if s ∈ slots (loopBound c.rounds) then c.mem s else m0.mem s⟩) := by
  have hw : ∀ w, wordRead o o w = w := fun w => if_pos rfl
  rw [file2keyOn_key, hw, hw]
  have hr := readSlotsOn_ok o o alloc (slots (loopBound c.rounds)) (slots_inside _ alloc h) c.mem m0.mem []
  rw [List.append_nil] at hr
  rw [hr]
  simp only [hw]
  rfl

/-- C120: a key file between machines of different byte order. The reader takes the number of rounds with its bytes turned round.
The call is undefined if that is more than the context has room for and the file is long enough to get there; otherwise it
succeeds if the file is long enough for that number of rounds. -/
theorem C120_key_other (o1 o2 : ByteOrder) (ho : o1 ≠ o2) (alloc : Nat) (c m0 : Wbsm4Mem) :
    (file2keyOn o2 alloc m0 (key2fileOn o1 c) = none ↔
      alloc < loopBound (mirror c.rounds) ∧ 12288 * alloc ≤ 24576 * loopBound c.rounds + 8192 * min (loopBound c.rounds) 4) ∧
    (loopBound (mirror c.rounds) ≤ alloc → ∃ m, file2keyOn o2 alloc m0 (key2fileOn o1 c) =
        some (decide (loopBound (mirror c.rounds) ≤ loopBound c.rounds), m) ∧
      m.rounds = mirror c.rounds ∧ m.encmode = mirror c.encmode) ∧
    (loopBound (mirror c.rounds) = loopBound c.rounds → loopBound c.rounds ≤ alloc →
      file2keyOn o2 alloc m0 (key2fileOn o1 c) = some (true, ⟨mirror c.rounds, mirror c.encmode,
        fun s => if s ∈ slots (loopBound c.rounds) then mirror (c.mem s) else m0.mem s⟩)) := by
  have hw : ∀ w, wordRead o1 o2 w = mirror w := fun w => if_neg ho
  have hlen : ((slots (loopBound c.rounds)).flatMap fun s => o1.bytes (c.mem s)).length =
      24576 * loopBound c.rounds + 8192 * min (loopBound c.rounds) 4 := by
    rw [bytes_flat, slots_length]; omega
  rw [file2keyOn_key, hw, hw]
  refine ⟨?_, ?_, ?_⟩
  · rw [Option.map_eq_none_iff, readSlotsOn_none, hlen]
    by_cases h : alloc < loopBound (mirror c.rounds)
    · rw [slots_outside alloc _ h]
      simp [h]
    · constructor
      · rintro ⟨k, hk, hf, -⟩
        rw [slots_inside _ alloc (by omega) _ (List.getElem_mem hk)] at hf
        cases hf
      · rintro ⟨k, -⟩
        exact absurd k h
  · intro h
    obtain ⟨m', hm⟩ := readSlotsOn_flag o2 alloc (slots (loopBound (mirror c.rounds))) (slots_inside _ alloc h) m0.mem
      ((slots (loopBound c.rounds)).flatMap fun s => o1.bytes (c.mem s))
    rw [hm, hlen, slots_length]
    refine ⟨⟨mirror c.rounds, mirror c.encmode, m'⟩, ?_, rfl, rfl⟩
    refine congrArg (fun b => some (b, (⟨mirror c.rounds, mirror c.encmode, m'⟩ : Wbsm4Mem))) ?_
    rw [decide_eq_decide]
    omega
  · intro h1 h2
    have hr := readSlotsOn_ok o1 o2 alloc (slots (loopBound c.rounds)) (slots_inside _ alloc h2) c.mem m0.mem []
    rw [List.append_nil] at hr
    rw [h1, hr]
    simp only [hw]
    rfl

theorem mirror_small (n : Nat) (h : n < 256) : mirror (BitVec.ofNat 32 n) = BitVec.ofNat 32 (n * 2 ^ 24) := by
  have key : ∀ b : Byte, mirror (BitVec.ofNat 32 b.toNat) = BitVec.ofNat 32 (b.toNat * 2 ^ 24) := by decide +kernel
  have := key (BitVec.ofNat 8 n)
  rwa [BitVec.toNat_ofNat, Nat.mod_eq_of_lt (by omega)] at this

theorem loopBound_num (n : Nat) (h : n < 2 ^ 32) : loopBound (BitVec.ofNat 32 n) = if n < 2 ^ 31 then n else 0 := by
  unfold loopBound
  rw [BitVec.toInt_eq_toNat_cond, BitVec.toNat_ofNat, Nat.mod_eq_of_lt h]
  split <;> split <;> omega

/-- C120: so between machines of different byte order a file with 1 to 127 rounds (32 and the dummy rounds of the writer) makes a reader
with room for as many rounds write behind its tables; a file with 128 to 255 rounds is accepted, though none of its tables is
read, and the context has no rounds left. -/
theorem C120_key_rounds (o1 o2 : ByteOrder) (ho : o1 ≠ o2) (n alloc : Nat) (c m0 : Wbsm4Mem) (hc : c.rounds = BitVec.ofNat 32 n) :
    (1 ≤ n → n < 128 → alloc ≤ 2 * n → file2keyOn o2 alloc m0 (key2fileOn o1 c) = none) ∧
    (128 ≤ n → n < 256 → file2keyOn o2 alloc m0 (key2fileOn o1 c) =
        some (true, ⟨BitVec.ofNat 32 (n * 2 ^ 24), mirror c.encmode, m0.mem⟩) ∧
      (Wbsm4Mem.toCtx ⟨BitVec.ofNat 32 (n * 2 ^ 24), mirror c.encmode, m0.mem⟩).rnds = []) := by
  constructor
  · intro h1 h2 h3
    rw [(C120_key_other o1 o2 ho alloc c m0).1, hc, mirror_small n (by omega), loopBound_num _ (by omega),
      loopBound_num _ (by omega), if_pos (by omega), if_pos (by omega)]
    omega
  · intro h1 h2
    have h0 : loopBound (BitVec.ofNat 32 (n * 2 ^ 24)) = 0 := by
      rw [loopBound_num _ (by omega), if_neg (by omega)]
    constructor
    · have hw : ∀ w, wordRead o1 o2 w = mirror w := fun w => if_neg ho
      rw [file2keyOn_key, hw, hw, hc, mirror_small n h2, h0]
      rfl
    · unfold Wbsm4Mem.toCtx
      simp only [h0]
      rfl

example : ∃ c : Wbsm4Mem, c.rounds = BitVec.ofNat 32 40 ∧ ByteOrder.little ≠ ByteOrder.big ∧ loopBound c.rounds ≤ 40 :=
  ⟨⟨40, 1, fun _ => 0⟩, rfl, by decide, by decide⟩
example : loopBound (mirror 0x00010100) = loopBound 0x00010100 := by decide

/-! ### FF1 -/

theorem storeWord_eq (o : ByteOrder) (x : Nat) : storeWord o x =
    #v[BitVec.ofNat 8 (x >>> 24), BitVec.ofNat 8 (x >>> 16), BitVec.ofNat 8 (x >>> 8), BitVec.ofNat 8 x] := by
  cases o
  · unfold storeWord
    rw [if_pos (by decide)]
  · unfold storeWord
    rw [if_neg (by decide)]
    have key : ∀ i, i = 8 ∨ i = 16 ∨ i = 24 → ((BitVec.ofNat 32 x >>> i).truncate 8 : BitVec 8) = BitVec.ofNat 8 (x >>> i) := by
      intro i hi
      apply BitVec.eq_of_toNat_eq
      simp only [BitVec.toNat_setWidth, BitVec.toNat_ushiftRight, BitVec.toNat_ofNat, Nat.shiftRight_eq_div_pow]
      rcases hi with rfl | rfl | rfl <;> omega
    have k0 : (BitVec.ofNat 32 x).truncate 8 = BitVec.ofNat 8 x := by simp
    apply Vector.ext
    intro i hi
    rw [Vector.getElem_ofFn]
    have hb : ByteOrder.big.bytes (BitVec.ofNat 32 x) = [BitVec.ofNat 8 (x >>> 24), BitVec.ofNat 8 (x >>> 16),
        BitVec.ofNat 8 (x >>> 8), BitVec.ofNat 8 x] := by
      rw [← key 24 (by omega), ← key 16 (by omega), ← key 8 (by omega), ← k0]
      rfl
    rw [hb]
    rcases i with _ | _ | _ | _ | i
    all_goals first | rfl | omega

theorem pBlockOn_eq (o : ByteOrder) (radix u n t : Nat) : ff1PBlockOn o radix u n t = ff1PBlock radix u n t := by
  unfold ff1PBlockOn
  simp only [storeWord_eq]
  rfl

theorem ctrOn_eq (o : ByteOrder) (j : Nat) : ff1CtrOn o j = ff1Ctr j := by
  unfold ff1CtrOn
  simp only [storeWord_eq]
  rfl

theorem yOfOn_eq (o : ByteOrder) (E : Block → Block) (R : Block) (d : Nat) : ff1YOfOn o E R d = ff1YOf E R d := by
  unfold ff1YOfOn ff1YOf ff1SBytesOn ff1SBytes
  simp only [ctrOn_eq]

/-- C120: FF1 and FF1 with CMAC give the same results on both kinds of machines: the branches that `is_endian` selects write the same
bytes into `P` and into the counter blocks, and so the P of the standard. -/
theorem C120_ff1 (o : ByteOrder) (ctx : FpeCtx) (lg : Nat → Nat → Nat) (junk : Nat → Block) (input output : List Byte) :
    (isLittle o = true ↔ o = .little) ∧
    (∀ radix n t, (ff1PBlockOn o radix (n / 2) n t).toList = ff1P radix n t) ∧
    (∀ j, j < 2 ^ 32 → ff1CtrOn o j = blockOf (bytesOf 16 j)) ∧
    ff1EncryptOn o ctx lg input output = ff1Encrypt ctx lg input output ∧
    ff1DecryptOn o ctx lg input output = ff1Decrypt ctx lg input output ∧
    cmacEncryptOn o ctx lg junk input output = cmacEncrypt ctx lg junk input output ∧
    cmacDecryptOn o ctx lg junk input output = cmacDecrypt ctx lg junk input output := by
  have hy : ff1RoundYOn o ctx lg = ff1RoundY ctx lg := by
    funext n i num
    unfold ff1RoundYOn ff1RoundY
    simp only [pBlockOn_eq, yOfOn_eq]
  have hc : cmacRoundYOn o ctx lg = cmacRoundY ctx lg := by
    funext jk n i num
    unfold cmacRoundYOn cmacRoundY
    simp only [pBlockOn_eq, yOfOn_eq]
  have e1 : ff1EncryptRoundOn o ctx lg = ff1EncryptRound ctx lg := by
    funext n s i
    unfold ff1EncryptRoundOn ff1EncryptRound
    simp only [hy]
  have e2 : ff1DecryptRoundOn o ctx lg = ff1DecryptRound ctx lg := by
    funext n s i
    unfold ff1DecryptRoundOn ff1DecryptRound
    simp only [hy]
  have e3 : cmacEncryptRoundOn o ctx lg = cmacEncryptRound ctx lg := by
    funext jk n s i
    unfold cmacEncryptRoundOn cmacEncryptRound
    simp only [hc]
  have e4 : cmacDecryptRoundOn o ctx lg = cmacDecryptRound ctx lg := by
    funext jk n s i
    unfold cmacDecryptRoundOn cmacDecryptRound
    simp only [hc]
  refine ⟨?_, ?_, ?_, ?_, ?_, ?_, ?_⟩
  · cases o <;> decide
  · intro radix n t
    rw [pBlockOn_eq, pBlock_toList]
  · intro j hj
    rw [ctrOn_eq, ff1Ctr_eq j hj]
  · unfold ff1EncryptOn ff1Encrypt
    rw [e1]
  · unfold ff1DecryptOn ff1Decrypt
    rw [e2]
  · unfold cmacEncryptOn cmacEncrypt
    rw [e3]
  · unfold cmacDecryptOn cmacDecrypt
    rw [e4]

/- P for ten decimal digits and no tweak, on a big-endian machine. -/
example : (ff1PBlockOn .big 10 5 10 0).toList = [1, 2, 1, 0, 0, 10, 10, 5, 0, 0, 0, 10, 0, 0, 0, 0] := by decide

end Verif.Props
