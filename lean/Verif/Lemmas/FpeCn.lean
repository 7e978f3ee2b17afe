import Verif.Lemmas.FpeApp

/-! UTF-8 and duodecimal codecs and the loops of the Chinese text application. -/
set_option autoImplicit false

namespace Verif
open Spec Model Props

/-! ### UTF-8 -/

theorem or_224 (x : Nat) (h : x < 32) : x ||| 224 = 224 + x := by
  rw [Nat.or_comm]; exact (Nat.two_pow_add_eq_or_of_lt (i := 5) h 7).symm

theorem or_128 (x : Nat) (h : x < 128) : x ||| 128 = 128 + x := by
  rw [Nat.or_comm]; exact (Nat.two_pow_add_eq_or_of_lt (i := 7) h 1).symm

theorem and_63 (x : Nat) : x &&& 63 = x % 64 := Nat.and_two_pow_sub_one_eq_mod x 6

theorem and_15 (x : Nat) : x &&& 15 = x % 16 := Nat.and_two_pow_sub_one_eq_mod x 4

theorem n224 : (0xe0 : BitVec 32).toNat = 224 := rfl
theorem n128 : (0x80 : BitVec 32).toNat = 128 := rfl
theorem n63 : (0x3f : BitVec 32).toNat = 63 := rfl
theorem n15 : (0x0f : BitVec 32).toNat = 15 := rfl

theorem utf8OfU32_eq (cp : Nat) (h : cp ≤ 0xFFFF) : utf8OfU32 (BitVec.ofNat 32 cp) = utf8Three cp := by
  unfold utf8OfU32 utf8Three
  have e1 : cp % 4294967296 = cp := Nat.mod_eq_of_lt (by omega)
  refine congr (congrArg List.cons ?_) (congr (congrArg List.cons ?_) (congrArg (· :: []) ?_)) <;>
    apply BitVec.eq_of_toNat_eq <;>
    simp only [BitVec.truncate_eq_setWidth, BitVec.toNat_setWidth, BitVec.toNat_or, BitVec.toNat_and,
      BitVec.toNat_ushiftRight, BitVec.toNat_ofNat, Nat.shiftRight_eq_div_pow, Nat.reducePow, e1, n224, n128, n63]
  · rw [or_224 _ (by omega)]
  · rw [and_63, or_128 _ (by omega)]
  · rw [and_63, or_128 _ (by omega)]

theorem utf8ToU32_toNat (a b c : Byte) :
    (utf8ToU32 a b c).toNat = a.toNat % 16 * 4096 + b.toNat % 64 * 64 + c.toNat % 64 := by
  have ha := a.isLt
  have hb := b.isLt
  have hc := c.isLt
  unfold utf8ToU32
  simp only [BitVec.truncate_eq_setWidth, BitVec.toNat_setWidth, BitVec.toNat_or, BitVec.toNat_and,
      BitVec.toNat_shiftLeft, Nat.reducePow, Nat.shiftLeft_eq, n15, n63]
  rw [show a.toNat % 4294967296 = a.toNat by omega, show b.toNat % 4294967296 = b.toNat by omega,
    show c.toNat % 4294967296 = c.toNat by omega, and_15, and_63, and_63,
    show a.toNat % 16 * 4096 % 4294967296 = 2 ^ 12 * (a.toNat % 16) by omega,
    show b.toNat % 64 * 64 % 4294967296 = 64 * (b.toNat % 64) by omega,
    ← Nat.two_pow_add_eq_or_of_lt (i := 12) (show 64 * (b.toNat % 64) < 2 ^ 12 by omega),
    show 2 ^ 12 * (a.toNat % 16) + 64 * (b.toNat % 64) = 2 ^ 6 * (64 * (a.toNat % 16) + b.toNat % 64) by omega,
    ← Nat.two_pow_add_eq_or_of_lt (i := 6) (show c.toNat % 64 < 2 ^ 6 by omega)]
  omega

theorem utf8ToU32_three (cp : Nat) (h : cp ≤ 0xFFFF) :
    utf8ToU32 (BitVec.ofNat 8 (0xE0 + cp / 4096)) (BitVec.ofNat 8 (0x80 + cp / 64 % 64))
      (BitVec.ofNat 8 (0x80 + cp % 64)) = BitVec.ofNat 32 cp := by
  apply BitVec.eq_of_toNat_eq
  rw [utf8ToU32_toNat]
  simp only [BitVec.toNat_ofNat]
  omega

theorem utf8U32ToInt_eq (cp : Nat) (h : cp ≤ 0xFFFF) : utf8U32ToInt (BitVec.ofNat 32 cp) = (cp : Int) - 0x4E00 := by
  unfold utf8U32ToInt
  rw [BitVec.toInt_eq_toNat_cond]
  simp only [BitVec.toNat_sub, BitVec.toNat_ofNat, show (0x4E00 : BitVec 32).toNat = 19968 from rfl]
  split <;> omega

theorem utf8IntToU32_eq (v : Nat) (h : v ≤ 20735) : utf8IntToU32 (v : Int) = BitVec.ofNat 32 (v + 0x4E00) := by
  unfold utf8IntToU32
  apply BitVec.eq_of_toNat_eq
  simp only [BitVec.toNat_ofInt, BitVec.toNat_ofNat]
  omega

/-! ### Duodecimal digits -/

theorem duoChar_eq (d : Nat) (_h : d < 12) : duoChar d = numeralChar d := by
  unfold duoChar numeralChar
  split
  · rfl
  · congr 1
    omega

theorem duoDigits_zero : duoDigits 0 = [] := by unfold duoDigits; simp

theorem duoDigits_pos (n : Nat) (h : n ≠ 0) : duoDigits n = duoChar (n % 12) :: duoDigits (n / 12) := by
  rw [duoDigits]; simp [h]

theorem num2strRev_zero (k : Nat) : num2strRev 0 12 k = List.replicate k 0 := by
  induction k with
  | zero => rfl
  | succ k ih => rw [num2strRev, Nat.zero_div, ih]; rfl

theorem duoDigits_pad (k : Nat) : ∀ n, n < 12 ^ k →
    (duoDigits n).length ≤ k ∧
    duoDigits n ++ List.replicate (k - (duoDigits n).length) 0x30 = (num2strRev n 12 k).map numeralChar := by
  induction k with
  | zero =>
    intro n h
    have : n = 0 := by simpa using h
    subst this
    rw [duoDigits_zero]
    exact ⟨Nat.le_refl _, rfl⟩
  | succ k ih =>
    intro n h
    by_cases hn : n = 0
    · subst hn
      rw [duoDigits_zero, num2strRev_zero]
      refine ⟨Nat.zero_le _, ?_⟩
      rw [List.map_replicate]
      rfl
    · obtain ⟨h1, h2⟩ := ih (n / 12) (by
        rw [Nat.pow_succ] at h
        omega)
      rw [duoDigits_pos n hn]
      refine ⟨by rw [List.length_cons]; omega, ?_⟩
      rw [List.length_cons, Nat.add_sub_add_right, List.cons_append, h2, num2strRev, List.map_cons,
        duoChar_eq _ (Nat.mod_lt _ (by decide))]

/-- The four duodecimal digits of an offset. -/
def duo4 (v : Nat) : List Byte := (num2strRev v 12 4).map numeralChar

theorem length_duo4 (v : Nat) : (duo4 v).length = 4 := by rw [duo4, List.length_map, length_num2strRev]

theorem duoEncode_eq (v : Nat) (h : v ≤ 20735) : duoEncode (v : Int) = duo4 v ++ [0x30] := by
  unfold duoEncode
  rw [if_neg (by omega), Int.toNat_natCast]
  obtain ⟨h1, h2⟩ := duoDigits_pad 4 v (by omega)
  rw [duo4, ← h2, show 5 - (duoDigits v).length = (4 - (duoDigits v).length) + 1 by omega, List.replicate_succ',
    List.append_assoc]

theorem charToInt_numeral (c : Byte) (h : IsNumeral 12 c) : charToInt c = (numeralVal c : Int) ∧ numeralVal c < 12 := by
  unfold IsNumeral at h
  unfold charToInt numeralVal
  rcases h with h | h
  · rw [if_pos (by omega), if_pos (by omega)]; omega
  · rw [if_neg (by omega), if_neg (by omega), if_pos (by omega), if_neg (by omega)]; omega

theorem duoLoop_numerals : ∀ (cs : List Byte), (∀ c ∈ cs, IsNumeral 12 c) → ∀ r : Nat,
    duoLoop cs (r : Int) = ((cs.map numeralVal).foldl (fun y x => y * 12 + x) r : Nat) := by
  intro cs
  induction cs with
  | nil => intro _ r; rfl
  | cons c cs ih =>
    intro h r
    obtain ⟨h1, h2⟩ := charToInt_numeral c (h c List.mem_cons_self)
    rw [duoLoop, h1, if_neg (by omega)]
    have := ih (fun d hd => h d (List.mem_cons_of_mem _ hd)) (r * 12 + numeralVal c)
    rw [List.map_cons, List.foldl_cons, ← this]
    congr 1

theorem duoLoop_range : ∀ (cs : List Byte) (r : Int) (k : Nat), 0 ≤ r → r < 12 ^ k →
    0 ≤ duoLoop cs r ∧ duoLoop cs r < 12 ^ (k + cs.length) := by
  intro cs
  induction cs with
  | nil => intro r k h1 h2; exact ⟨h1, h2⟩
  | cons c cs ih =>
    intro r k h1 h2
    rw [duoLoop]
    split
    · exact ⟨Int.le_refl _, Int.pow_pos (by decide)⟩
    · rename_i hc
      have h3 : 0 ≤ charToInt c ∧ charToInt c < 12 := by
        constructor
        · unfold charToInt at hc ⊢
          split
          · omega
          · split
            · omega
            · split
              · omega
              · rename_i a b d
                rw [if_neg a, if_neg b, if_neg d] at hc
                simp at hc
        · omega
      have := ih (r * 12 + charToInt c) (k + 1) (by omega) (by rw [Int.pow_succ]; omega)
      rw [List.length_cons, show k + (cs.length + 1) = k + 1 + cs.length by omega]
      exact this

/-- Whatever the string is, the decoded offset is in range. -/
theorem duoDecode_range (s : List Byte) (v : Int) (h : duoDecode s = some v) : 0 ≤ v ∧ v ≤ 20735 := by
  unfold duoDecode at h
  cases e : cstr s with
  | none => rw [e] at h; cases h
  | some t =>
    rw [e] at h
    simp only [Option.bind_some] at h
    split at h
    · injection h with h; subst h; decide
    · simp only [Option.bind_eq_some_iff, Option.some.injEq] at h
      obtain ⟨a, _, b, _, c, _, d, _, rfl⟩ := h
      have := duoLoop_range [a, b, c, d] 0 0 (Int.le_refl _) (by decide)
      simp only [List.length_cons, List.length_nil] at this
      norm_num at this
      omega

theorem numeral_cstr_pos (s rest : List Byte) (h0 : (0 : Byte) ∈ rest) (hs : ∀ c ∈ s, c ≠ 0) :
    ∃ t, cstr (s ++ rest) = some (s ++ t) := by
  unfold cstr
  rw [if_pos (List.mem_append_right _ h0)]
  refine ⟨rest.takeWhile (fun c => c != 0), congrArg some ?_⟩
  induction s with
  | nil => rfl
  | cons c s ih =>
    rw [List.cons_append, List.takeWhile_cons, if_pos (bne_iff_ne.mpr (hs c List.mem_cons_self)), List.cons_append,
      ih (fun d hd => hs d (List.mem_cons_of_mem _ hd))]

theorem duoDecode_eq (s rest : List Byte) (h4 : s.length = 4) (hs : ∀ c ∈ s, IsNumeral 12 c) (h0 : (0 : Byte) ∈ rest) :
    duoDecode (s ++ rest) = some ((str2numRev (vals s) 12 : Nat) : Int) := by
  obtain ⟨t, ht⟩ := numeral_cstr_pos s rest h0 (fun c hc => numeral_ne_zero c (hs c hc))
  unfold duoDecode
  rw [ht]
  simp only [Option.bind_some]
  rw [if_neg (by rw [List.length_append]; omega), rdByte_append s rest 3 (by omega), rdByte_append s rest 2 (by omega),
    rdByte_append s rest 1 (by omega), rdByte_append s rest 0 (by omega)]
  simp only [Option.bind_some]
  refine congrArg some ?_
  have e : [s[3], s[2], s[1], s[0]] = s.reverse := by
    match s, h4 with
    | [a, b, c, d], _ => rfl
  rw [e]
  have := duoLoop_numerals s.reverse (fun c hc => hs c (List.mem_reverse.mp hc)) 0
  rw [show ((0 : Nat) : Int) = 0 from rfl] at this
  rw [this, str2numRev_eq, str2num, vals, ← List.map_reverse]

theorem duo4_numeral (v : Nat) : ∀ c ∈ duo4 v, IsNumeral 12 c :=
  chars_numeral (by decide) _ (fun d hd => by
    rw [num2strRev_eq, List.mem_reverse] at hd
    exact num2str_lt 12 (by decide) 4 v d hd)

theorem duoDecode_duo4 (v : Nat) (h : v ≤ 20735) (rest : List Byte) (h0 : (0 : Byte) ∈ rest) :
    duoDecode (duo4 v ++ rest) = some (v : Int) := by
  rw [duoDecode_eq _ _ (length_duo4 v) (duo4_numeral v) h0]
  have hlt : ∀ d ∈ num2strRev v 12 4, d < 12 := fun d hd => by
    rw [num2strRev_eq, List.mem_reverse] at hd
    exact num2str_lt 12 (by decide) 4 v d hd
  rw [duo4, vals_chars _ (fun d hd => by have := hlt d hd; omega), str2numRev_eq, num2strRev_eq, List.reverse_reverse,
    str2num_num2str, Nat.mod_eq_of_lt (by omega)]

/-- Every four-digit string is the encoding of an offset in range. -/
theorem duo4_surj (s : List Byte) (h4 : s.length = 4) (hs : ∀ c ∈ s, IsNumeral 12 c) :
    ∃ v, v ≤ 20735 ∧ duo4 v = s := by
  have hl := length_vals s
  have hv := vals_lt s hs
  have h := C50_str_num_str 12 (vals s) hv
  rw [hl, h4] at h
  refine ⟨str2numRev (vals s) 12, by have := h.2.2.2; omega, ?_⟩
  rw [duo4, h.2.1, chars_vals s hs]

/-! ### The loops over characters -/

/-- The first loop for a list of flags. -/
def cnSplitMask (cn : List Byte) : List Bool → CnSplit → Option CnSplit
  | [], s => some s
  | m :: ms, s => (cnInt cn s.ch).bind fun uc => (if m then cnShow s uc else cnHide s uc).bind (cnSplitMask cn ms)

/-- The second loop for a list of flags. -/
def cnMergeMask (cn ans : List Byte) : List Bool → CnMerge → Option CnMerge
  | [], s => some s
  | m :: ms, s => (if m then cnCopy cn s else cnPut ans s).bind (cnMergeMask cn ans ms)

/-- The string of a sample: `none` is a star, `some` a three-byte character. -/
def sampleOf : List (Option (Byte × Byte × Byte)) → List Byte
  | [] => []
  | none :: l => 0x2a :: sampleOf l
  | some (a, b, c) :: l => a :: b :: c :: sampleOf l

/-- The bytes of a sample character are neither stars nor terminators. -/
def SampleOk (items : List (Option (Byte × Byte × Byte))) : Prop :=
  ∀ a b c, some (a, b, c) ∈ items → a ≠ 0 ∧ b ≠ 0 ∧ c ≠ 0 ∧ a ≠ 0x2a ∧ b ≠ 0x2a ∧ c ≠ 0x2a

theorem SampleOk.tail {x : Option (Byte × Byte × Byte)} {l : List (Option (Byte × Byte × Byte))}
    (h : SampleOk (x :: l)) : SampleOk l := fun a b c hm => h a b c (List.mem_cons_of_mem _ hm)

theorem cnSplitLoop_eq (cn : List Byte) (items : List (Option (Byte × Byte × Byte))) (h : SampleOk items) :
    ∀ s, cnSplitLoop cn (sampleOf items) s = cnSplitMask cn (items.map Option.isSome) s := by
  induction items with
  | nil => intro s; rw [sampleOf, cnSplitLoop]; rfl
  | cons x l ih =>
    intro s
    have ih' := ih h.tail
    cases x with
    | none =>
      rw [sampleOf, cnSplitLoop]
      simp only [List.map_cons, cnSplitMask, if_true]
      congr 1
      funext uc
      congr 1
      funext t
      exact ih' t
    | some abc =>
      obtain ⟨a, b, c⟩ := abc
      have := h a b c List.mem_cons_self
      rw [sampleOf, cnSplitLoop]
      simp only [List.map_cons, cnSplitMask, Option.isSome_some, if_true, if_neg this.2.2.2.1]
      congr 1
      funext uc
      congr 1
      funext t
      exact ih' t

theorem cnMergeLoop_eq (cn ans : List Byte) (items : List (Option (Byte × Byte × Byte))) (h : SampleOk items) :
    ∀ s, cnMergeLoop cn ans (sampleOf items) s = cnMergeMask cn ans (items.map Option.isSome) s := by
  induction items with
  | nil => intro s; rw [sampleOf, cnMergeLoop]; rfl
  | cons x l ih =>
    intro s
    have ih' := ih h.tail
    cases x with
    | none =>
      rw [sampleOf, cnMergeLoop, if_pos rfl]
      simp only [List.map_cons, cnMergeMask]
      congr 1
      funext t
      exact ih' t
    | some abc =>
      obtain ⟨a, b, c⟩ := abc
      have := h a b c List.mem_cons_self
      rw [sampleOf, cnMergeLoop, if_neg this.2.2.2.1]
      simp only [List.map_cons, cnMergeMask, Option.isSome_some, if_true]
      congr 1
      funext t
      exact ih' t

theorem foldlM_const {S : Type} (g : S → Option S) : ∀ (l l' : List Nat) (s : S), l.length = l'.length →
    l.foldlM (fun s _ => g s) s = l'.foldlM (fun s _ => g s) s := by
  intro l
  induction l with
  | nil => intro l' s h; cases l' with
    | nil => rfl
    | cons => simp at h
  | cons a l ih =>
    intro l' s h
    cases l' with
    | nil => simp at h
    | cons a' l' =>
      rw [List.foldlM_cons, List.foldlM_cons]
      congr 1
      funext t
      exact ih l' t (by simpa using h)

theorem foldlM_range_const {S : Type} (g : S → Option S) (n : Nat) (s : S) :
    (List.range (n + 1)).foldlM (fun s _ => g s) s = (g s).bind fun s => (List.range n).foldlM (fun s _ => g s) s := by
  rw [foldlM_const g (List.range (n + 1)) (0 :: List.range n) s (by simp), List.foldlM_cons]
  rfl

theorem cnSplitAll_eq (cn : List Byte) (n : Nat) : ∀ s, cnSplitAll cn n s = cnSplitMask cn (List.replicate n false) s := by
  induction n with
  | zero => intro s; rfl
  | succ n ih =>
    intro s
    unfold cnSplitAll at ih ⊢
    rw [foldlM_range_const, List.replicate_succ, cnSplitMask]
    cases cnInt cn s.ch with
    | none => rfl
    | some uc =>
      simp only [Option.bind_some]
      congr 1
      funext t
      exact ih t

theorem cnMergeAll_eq (cn ans : List Byte) (n : Nat) :
    ∀ s, cnMergeAll ans n s = cnMergeMask cn ans (List.replicate n false) s := by
  induction n with
  | zero => intro s; rfl
  | succ n ih =>
    intro s
    unfold cnMergeAll at ih ⊢
    rw [foldlM_range_const, List.replicate_succ, cnMergeMask]
    congr 1
    funext t
    exact ih t

/-! ### Running the loops on text -/

/-- The digits of a text. -/
def duoText (cps : List Nat) : List Byte := cps.flatMap fun cp => duo4 (cp - 0x4E00)

theorem length_duoText (cps : List Nat) : (duoText cps).length = 4 * cps.length := by
  induction cps with
  | nil => rfl
  | cons c l ih =>
    have e : duoText (c :: l) = duo4 (c - 0x4E00) ++ duoText l := rfl
    rw [e, List.length_append, ih, length_duo4, List.length_cons]
    omega

theorem length_utf8Text (cps : List Nat) : (utf8Text cps).length = 3 * cps.length := by
  induction cps with
  | nil => rfl
  | cons c l ih =>
    have e : utf8Text (c :: l) = utf8Three c ++ utf8Text l := rfl
    rw [e, List.length_append, ih, List.length_cons]
    simp only [utf8Three, List.length_cons, List.length_nil]
    omega

theorem utf8Text_ne_zero (cps : List Nat) (h : ∀ cp ∈ cps, InCnRange cp) : ∀ c ∈ utf8Text cps, c ≠ 0 := by
  intro c hc
  unfold utf8Text at hc
  obtain ⟨cp, hcp, hm⟩ := List.mem_flatMap.mp hc
  have hr := h cp hcp
  unfold InCnRange at hr
  intro e
  subst e
  simp only [utf8Three, List.mem_cons, List.not_mem_nil, or_false] at hm
  rcases hm with hm | hm | hm <;>
  · have := congrArg BitVec.toNat hm
    simp only [BitVec.toNat_ofNat, show (0 : Byte).toNat = 0 from rfl] at this
    omega

theorem rd3_drop (buf : List Byte) (off : Nat) (a b c : Byte) (t : List Byte) (h : buf.drop off = a :: b :: c :: t) :
    rd3 buf off = some (a, b, c) := by
  have e : ∀ k, buf[off + k]? = (buf.drop off)[k]? := fun k => by rw [List.getElem?_drop]
  unfold rd3 rdByte
  have e0 := e 0
  rw [Nat.add_zero] at e0
  rw [e0, e 1, e 2, h]
  rfl

theorem cnInt_text (cn : List Byte) (off cp : Nat) (t : List Byte) (hr : InCnRange cp)
    (h : cn.drop off = utf8Three cp ++ t) : cnInt cn off = some (((cp - 0x4E00 : Nat)) : Int) := by
  unfold InCnRange at hr
  unfold cnInt
  rw [rd3_drop cn off _ _ _ t h]
  simp only [Option.bind_some]
  rw [utf8ToU32_three cp (by omega), utf8U32ToInt_eq cp (by omega)]
  congr 1
  omega

theorem wrBytes_append (pre old post bs : List Byte) (h : old.length = bs.length) :
    wrBytes (pre ++ (old ++ post)) pre.length bs = some (pre ++ (bs ++ post)) := by
  unfold wrBytes
  rw [if_pos (by simp; omega)]
  have : (pre ++ (old ++ post)).drop (pre.length + bs.length) = post := by
    rw [← h, ← List.append_assoc, List.drop_append_of_le_length (by simp)]
    simp
  simp [this]

theorem wrBytes_prefix (pre tl bs : List Byte) (h : bs.length ≤ tl.length) :
    wrBytes (pre ++ tl) pre.length bs = some (pre ++ (bs ++ tl.drop bs.length)) := by
  have := wrBytes_append pre (tl.take bs.length) (tl.drop bs.length) bs (by simp; omega)
  rwa [List.take_append_drop] at this

theorem cnSplitMask_run (cn more : List Byte) : ∀ (ms : List Bool) (cps : List Nat) (pI tI pT tT : List Byte) (ch : Nat),
    ms.length = cps.length → (∀ cp ∈ cps, InCnRange cp) → tI.length = 4 * ms.count false + 1 →
    tT.length = 4 * ms.count true + 1 → cn.drop ch = utf8Text cps ++ more →
    ∃ x y ip tp ch', cnSplitMask cn ms ⟨pI ++ tI, pT ++ tT, pI.length, pT.length, ch⟩ =
      some ⟨pI ++ duoText (pick false ms cps) ++ [x], pT ++ duoText (pick true ms cps) ++ [y], ip, tp, ch'⟩ := by
  intro ms
  induction ms with
  | nil =>
    intro cps pI tI pT tT ch hl _ hI hT _
    match tI, hI, tT, hT with
    | [x], _, [y], _ => exact ⟨x, y, _, _, _, by simp [cnSplitMask, pick, duoText]; exact ⟨rfl, rfl, rfl⟩⟩
  | cons m ms ih =>
    intro cps pI tI pT tT ch hl hr hI hT hd
    cases cps with
    | nil => simp at hl
    | cons cp cps =>
      have hrc := hr cp List.mem_cons_self
      have hr' : ∀ c ∈ cps, InCnRange c := fun c hc => hr c (List.mem_cons_of_mem _ hc)
      have hl' : ms.length = cps.length := by simpa using hl
      have e : utf8Text (cp :: cps) = utf8Three cp ++ utf8Text cps := rfl
      rw [e, List.append_assoc] at hd
      have hd' : cn.drop (ch + 3) = utf8Text cps ++ more := by
        rw [← List.drop_drop, hd]
        rfl
      have hv : cp - 0x4E00 ≤ 20735 := by unfold InCnRange at hrc; omega
      have h5 : (duo4 (cp - 0x4E00) ++ [0x30]).length = 5 := by rw [List.length_append, length_duo4]; rfl
      rw [cnSplitMask]
      simp only
      rw [cnInt_text cn ch cp _ hrc hd]
      simp only [Option.bind_some]
      cases m with
      | false =>
        rw [if_neg (by decide)]
        have hc : (false :: ms).count false = ms.count false + 1 := List.count_cons_self
        have hc' : (false :: ms).count true = ms.count true := List.count_cons_of_ne (by decide)
        rw [hc] at hI
        rw [hc'] at hT
        unfold cnHide
        simp only
        rw [duoEncode_eq _ hv, wrBytes_prefix _ _ _ (by rw [h5]; omega)]
        simp only [Option.bind_some]
        rw [h5]
        have e1 : pI ++ (duo4 (cp - 0x4E00) ++ [0x30] ++ tI.drop 5) =
            (pI ++ duo4 (cp - 0x4E00)) ++ (0x30 :: tI.drop 5) := by simp
        have e2 : pI.length + 4 = (pI ++ duo4 (cp - 0x4E00)).length := by rw [List.length_append, length_duo4]
        rw [e1, e2]
        obtain ⟨x, y, ip, tp, ch', h⟩ := ih cps (pI ++ duo4 (cp - 0x4E00)) (0x30 :: tI.drop 5) pT tT (ch + 3) hl' hr'
          (by rw [List.length_cons, List.length_drop]; omega) hT hd'
        refine ⟨x, y, ip, tp, ch', h.trans ?_⟩
        simp [pick, duoText]
      | true =>
        rw [if_pos rfl]
        have hc : (true :: ms).count true = ms.count true + 1 := List.count_cons_self
        have hc' : (true :: ms).count false = ms.count false := List.count_cons_of_ne (by decide)
        rw [hc] at hT
        rw [hc'] at hI
        unfold cnShow
        simp only
        rw [duoEncode_eq _ hv, wrBytes_prefix _ _ _ (by rw [h5]; omega)]
        simp only [Option.bind_some]
        rw [h5]
        have e1 : pT ++ (duo4 (cp - 0x4E00) ++ [0x30] ++ tT.drop 5) =
            (pT ++ duo4 (cp - 0x4E00)) ++ (0x30 :: tT.drop 5) := by simp
        have e2 : pT.length + 4 = (pT ++ duo4 (cp - 0x4E00)).length := by rw [List.length_append, length_duo4]
        rw [e1, e2]
        obtain ⟨x, y, ip, tp, ch', h⟩ := ih cps pI tI (pT ++ duo4 (cp - 0x4E00)) (0x30 :: tT.drop 5) (ch + 3) hl' hr'
          hI (by rw [List.length_cons, List.length_drop]; omega) hd'
        refine ⟨x, y, ip, tp, ch', h.trans ?_⟩
        simp [pick, duoText]

theorem cnMergeMask_run (cn more : List Byte) (ans : List Byte) : ∀ (ms : List Bool) (cps r : List Nat)
    (pO tO : List Byte) (ap : Nat) (more' : List Byte),
    ms.length = cps.length → r.length = ms.count false → (∀ cp ∈ r, InCnRange cp) → 3 * ms.length ≤ tO.length →
    cn.drop pO.length = utf8Text cps ++ more → ans.drop ap = duoText r ++ more' → (0 : Byte) ∈ more' →
    ∃ ap' op', cnMergeMask cn ans ms ⟨pO ++ tO, ap, pO.length⟩ =
      some ⟨pO ++ (utf8Text (fill ms cps r) ++ tO.drop (3 * ms.length)), ap', op'⟩ := by
  intro ms
  induction ms with
  | nil =>
    intro cps r pO tO ap more' _ _ _ _ _ _ _
    refine ⟨ap, pO.length, ?_⟩
    simp [cnMergeMask, fill, utf8Text]
  | cons m ms ih =>
    intro cps r pO tO ap more' hl hrl hr hO hd ha h0
    cases cps with
    | nil => simp at hl
    | cons cp cps =>
      have hl' : ms.length = cps.length := by simpa using hl
      have e : utf8Text (cp :: cps) = utf8Three cp ++ utf8Text cps := rfl
      rw [e, List.append_assoc] at hd
      have h3 : ∀ k, (utf8Three k).length = 3 := fun k => rfl
      have hO' : 3 * ms.length + 3 ≤ tO.length := by rw [List.length_cons] at hO; omega
      have hd' : ∀ k, cn.drop (pO ++ utf8Three k).length = utf8Text cps ++ more := by
        intro k
        rw [List.length_append, h3, ← List.drop_drop, hd]
        rfl
      have e1 : ∀ k, pO ++ (utf8Three k ++ tO.drop (utf8Three k).length) = (pO ++ utf8Three k) ++ tO.drop 3 := by
        intro k; rw [h3, List.append_assoc]
      have e2 : ∀ k, pO.length + 3 = (pO ++ utf8Three k).length := by
        intro k; rw [List.length_append, h3]
      rw [cnMergeMask]
      cases m with
      | true =>
        rw [if_pos rfl]
        unfold cnCopy
        simp only
        rw [rd3_drop cn pO.length _ _ _ _ hd]
        simp only [Option.bind_some]
        have hw := wrBytes_prefix pO tO (utf8Three cp) (by rw [h3]; omega)
        rw [e1 cp] at hw
        rw [show wrBytes (pO ++ tO) pO.length [BitVec.ofNat 8 (224 + cp / 4096), BitVec.ofNat 8 (128 + cp / 64 % 64),
          BitVec.ofNat 8 (128 + cp % 64)] = _ from hw]
        simp only [Option.bind_some]
        rw [e2 cp]
        obtain ⟨ap', op', h⟩ := ih cps r (pO ++ utf8Three cp) (tO.drop 3) ap more' hl'
          (by rw [hrl, List.count_cons_of_ne (by decide)]) hr (by rw [List.length_drop]; omega) (hd' cp) ha h0
        refine ⟨ap', op', h.trans ?_⟩
        rw [List.drop_drop, List.length_cons, show 3 + 3 * ms.length = 3 * (ms.length + 1) by omega]
        simp [fill, utf8Text]
      | false =>
        rw [if_neg (by decide)]
        cases r with
        | nil => rw [List.count_cons_self] at hrl; simp at hrl
        | cons q r =>
          have hq := hr q List.mem_cons_self
          have hv : q - 0x4E00 ≤ 20735 := by unfold InCnRange at hq; omega
          have hq2 : q - 0x4E00 + 0x4E00 = q := by unfold InCnRange at hq; omega
          have ed : duoText (q :: r) = duo4 (q - 0x4E00) ++ duoText r := rfl
          rw [ed, List.append_assoc] at ha
          have ha' : ans.drop (ap + 4) = duoText r ++ more' := by
            rw [← List.drop_drop, ha, List.drop_append_of_le_length (by rw [length_duo4]),
              List.drop_of_length_le (by rw [length_duo4]), List.nil_append]
          unfold cnPut
          simp only
          rw [ha, duoDecode_duo4 _ hv _ (List.mem_append_right _ h0)]
          simp only [Option.bind_some]
          rw [utf8IntToU32_eq _ hv, hq2, utf8OfU32_eq q (by unfold InCnRange at hq; omega),
            wrBytes_prefix pO tO (utf8Three q) (by rw [h3]; omega), e1 q]
          simp only [Option.bind_some]
          rw [e2 q]
          obtain ⟨ap', op', h⟩ := ih cps r (pO ++ utf8Three q) (tO.drop 3) (ap + 4) more' hl'
            (by rw [List.count_cons_self, List.length_cons] at hrl; omega) (fun c hc => hr c (List.mem_cons_of_mem _ hc))
            (by rw [List.length_drop]; omega) (hd' q) ha' h0
          refine ⟨ap', op', h.trans ?_⟩
          rw [List.drop_drop, List.length_cons, show 3 + 3 * ms.length = 3 * (ms.length + 1) by omega]
          simp [fill, utf8Text]

theorem duoText_numeral (cps : List Nat) : ∀ c ∈ duoText cps, IsNumeral 12 c := by
  intro c hc
  obtain ⟨cp, _, h⟩ := List.mem_flatMap.mp hc
  exact duo4_numeral _ c h

/-- Every numeral string of `4k` characters is the digit string of `k` characters in range. -/
theorem duoText_surj (k : Nat) : ∀ s : List Byte, s.length = 4 * k → (∀ c ∈ s, IsNumeral 12 c) →
    ∃ cps : List Nat, cps.length = k ∧ (∀ cp ∈ cps, InCnRange cp) ∧ duoText cps = s := by
  induction k with
  | zero =>
    intro s h _
    have : s = [] := List.length_eq_zero_iff.mp (by omega)
    subst this
    exact ⟨[], rfl, by simp, rfl⟩
  | succ k ih =>
    intro s h hs
    obtain ⟨v, hv, e⟩ := duo4_surj (s.take 4) (by rw [List.length_take]; omega) (fun c hc => hs c (List.mem_of_mem_take hc))
    obtain ⟨cps, h1, h2, h3⟩ := ih (s.drop 4) (by rw [List.length_drop]; omega) (fun c hc => hs c (List.mem_of_mem_drop hc))
    refine ⟨(v + 0x4E00) :: cps, by rw [List.length_cons, h1], ?_, ?_⟩
    · intro cp hc
      rcases List.mem_cons.mp hc with rfl | hc
      · unfold InCnRange; omega
      · exact h2 cp hc
    · have ed : duoText ((v + 0x4E00) :: cps) = duo4 (v + 0x4E00 - 0x4E00) ++ duoText cps := rfl
      rw [ed, Nat.add_sub_cancel, e, h3, List.take_append_drop]

theorem sampleOf_ne_zero (items : List (Option (Byte × Byte × Byte))) (h : SampleOk items) :
    (∀ c ∈ sampleOf items, c ≠ 0) ∧ (sampleOf items).count 0x2a = (items.map Option.isSome).count false := by
  induction items with
  | nil => exact ⟨by simp [sampleOf], rfl⟩
  | cons x l ih =>
    obtain ⟨i1, i2⟩ := ih h.tail
    cases x with
    | none =>
      rw [sampleOf]
      refine ⟨?_, ?_⟩
      · intro c hc
        rcases List.mem_cons.mp hc with rfl | hc
        · decide
        · exact i1 c hc
      · rw [List.count_cons_self, List.map_cons, Option.isSome_none, List.count_cons_self, i2]
    | some abc =>
      obtain ⟨a, b, c⟩ := abc
      obtain ⟨ha, hb, hc, ha', hb', hc'⟩ := h a b c List.mem_cons_self
      rw [sampleOf]
      refine ⟨?_, ?_⟩
      · intro d hd
        rcases List.mem_cons.mp hd with rfl | hd
        · exact ha
        · rcases List.mem_cons.mp hd with rfl | hd
          · exact hb
          · rcases List.mem_cons.mp hd with rfl | hd
            · exact hc
            · exact i1 d hd
      · rw [List.count_cons_of_ne ha', List.count_cons_of_ne hb', List.count_cons_of_ne hc', i2, List.map_cons,
          Option.isSome_some, List.count_cons_of_ne (by decide)]

end Verif
