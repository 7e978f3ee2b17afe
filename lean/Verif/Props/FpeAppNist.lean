import Verif.Spec.FpeAppNist
import Verif.Props.FpeNist
import Verif.Props.Udf

/-! Property C92: what the FPE applications compute, in terms of NIST SP 800-38G. -/
set_option autoImplicit false

namespace Verif.Props
open Verif Spec Model

/-- libm gives the exact value of `⌈k·log₂ r⌉`. -/
def exactLg : Nat → Nat → Nat := fun r k => Nat.clog 2 (r ^ k)

/-! ### lengths and digits of FF1 and FF3 -/

theorem length_strRadix (radix m x : Nat) : (strRadix radix m x).length = m := by simp [strRadix]

theorem strRadix_lt (radix m x : Nat) (hr : 0 < radix) : ∀ d ∈ strRadix radix m x, d < radix := by
  intro d hd
  obtain ⟨i, -, rfl⟩ := List.mem_map.1 hd
  exact Nat.mod_lt _ hr

/-- A numeral string of `n` digits. -/
def DigitsOf (radix n : Nat) (l : List Nat) : Prop := l.length = n ∧ ∀ d ∈ l, d < radix

theorem digitsOf_append {radix a b n : Nat} {k l : List Nat} (hk : DigitsOf radix a k) (hl : DigitsOf radix b l) (h : a + b = n) :
    DigitsOf radix n (k ++ l) := by
  refine ⟨by rw [List.length_append, hk.1, hl.1, h], fun d hd => ?_⟩
  rcases List.mem_append.1 hd with hd | hd
  · exact hk.2 d hd
  · exact hl.2 d hd

theorem digitsOf_str (radix m x : Nat) (hr : 0 < radix) : DigitsOf radix m (strRadix radix m x) :=
  ⟨length_strRadix _ _ _, strRadix_lt _ _ _ hr⟩

theorem digitsOf_rev {radix n : Nat} {l : List Nat} (h : DigitsOf radix n l) : DigitsOf radix n l.reverse :=
  ⟨by rw [List.length_reverse, h.1], fun d hd => h.2 d (List.mem_reverse.1 hd)⟩

theorem digits_ff1Enc (E : Block → Block) (radix : Nat) (T : List Byte) (X : List Nat) (hr : 0 < radix) :
    DigitsOf radix X.length (ff1Enc E radix T X) := by
  have e : List.range 10 = List.range 8 ++ [8, 9] := by decide
  unfold ff1Enc
  simp only [e, List.foldl_append]
  generalize (List.range 8).foldl (ff1EncRound E radix X.length T) _ = AB
  exact digitsOf_append (digitsOf_str _ _ _ hr) (digitsOf_str _ _ _ hr) (by simp; omega)

theorem digits_ff1Dec (E : Block → Block) (radix : Nat) (T : List Byte) (X : List Nat) (hr : 0 < radix) :
    DigitsOf radix X.length (ff1Dec E radix T X) := by
  have e : (List.range 10).reverse = [9, 8, 7, 6, 5, 4, 3, 2] ++ [1, 0] := by decide
  unfold ff1Dec
  simp only [e, List.foldl_append]
  generalize [9, 8, 7, 6, 5, 4, 3, 2].foldl (ff1DecRound E radix X.length T) _ = AB
  exact digitsOf_append (digitsOf_str _ _ _ hr) (digitsOf_str _ _ _ hr) (by simp; omega)

theorem digits_ff3Enc (E : Block → Block) (radix : Nat) (T : List Byte) (X : List Nat) (hr : 0 < radix) :
    DigitsOf radix X.length (ff3Enc E radix T X) := by
  have e : List.range 8 = List.range 6 ++ [6, 7] := by decide
  unfold ff3Enc
  simp only [e, List.foldl_append]
  generalize (List.range 6).foldl (ff3EncRound E radix X.length T) _ = AB
  exact digitsOf_append (digitsOf_rev (digitsOf_str _ _ _ hr)) (digitsOf_rev (digitsOf_str _ _ _ hr)) (by simp; omega)

theorem digits_ff3Dec (E : Block → Block) (radix : Nat) (T : List Byte) (X : List Nat) (hr : 0 < radix) :
    DigitsOf radix X.length (ff3Dec E radix T X) := by
  have e : (List.range 8).reverse = [7, 6, 5, 4, 3, 2] ++ [1, 0] := by decide
  unfold ff3Dec
  simp only [e, List.foldl_append]
  generalize [7, 6, 5, 4, 3, 2].foldl (ff3DecRound E radix X.length T) _ = AB
  exact digitsOf_append (digitsOf_rev (digitsOf_str _ _ _ hr)) (digitsOf_rev (digitsOf_str _ _ _ hr)) (by simp; omega)

theorem digits_named (ffx : String) (E : Block → Block) (radix : Nat) (T : List Byte) (X : List Nat) (hr : 0 < radix) :
    DigitsOf radix X.length (namedFpe ffx E radix T X) ∧ DigitsOf radix X.length (namedFpeInv ffx E radix T X) := by
  unfold namedFpe namedFpeInv
  split
  · exact ⟨digits_ff1Enc _ _ _ _ hr, digits_ff1Dec _ _ _ _ hr⟩
  · exact ⟨digits_ff3Enc _ _ _ _ hr, digits_ff3Dec _ _ _ _ hr⟩

/-! ### the engines -/

theorem named_engine (app : FpeApp) (ffx : String) (hf : app.ffx = ffxOf ffx) (radix : Nat) (shown s out : List Byte)
    (hi : ∀ t : List Byte, fpeInit t radix app.E = some ⟨app.E, radix, t⟩) (hs : ∀ c ∈ s, IsNumeral radix c)
    (hk : FpeLens ffx radix shown.length s.length) (ho : s.length < out.length) :
    encFn app exactLg ⟨app.E, radix, shown ++ [0]⟩ (s ++ [0]) out =
      some ((namedFpe ffx app.E radix (shown ++ [0]) (s.map numeralVal)).map numeralChar ++ 0 :: out.drop (s.length + 1)) ∧
    decFn app exactLg ⟨app.E, radix, shown ++ [0]⟩ (s ++ [0]) out =
      some ((namedFpeInv ffx app.E radix (shown ++ [0]) (s.map numeralVal)).map numeralChar ++ 0 :: out.drop (s.length + 1)) := by
  unfold encFn decFn namedFpe namedFpeInv
  unfold FpeLens at hk
  by_cases h1 : ffx = "ff1"
  · rw [if_pos h1] at hk
    have h2 : app.ffx = .ff1 := by rw [hf, ffxOf, if_pos h1]
    rw [h2, if_pos h1, if_pos h1]
    exact C65_ff1_nist _ (shown ++ [0]) radix app.E (hi _) s [] out hs hk.1 hk.2 (Or.inl (by simp)) ho
  · rw [if_neg h1] at hk
    have h2 : app.ffx = .ff3 := by rw [hf, ffxOf, if_neg h1, ite_self]
    rw [h2, if_neg h1, if_neg h1]
    exact C66_ff3_nist _ (shown ++ [0]) radix app.E (hi _) (by simp; omega) _ lgOk_clog s [] out hs hk.2.1 hk.2.2 ho

/-- Every context made with at least 16 key bytes and a cipher other than `wbsm4`. -/
theorem named_app (imem : AppInitMem) (key : List Byte) (keylen : Nat) (k : Block) (cipher ffx : String) (hk : 16 ≤ keylen)
    (ht : k.toList = key.take 16) (hw : cipher ≠ "wbsm4") :
    fpeAppInit imem key keylen cipher ffx = some ⟨namedCipher cipher k, ffxOf ffx⟩ := by
  obtain ⟨-, h2, h3, h4⟩ := C67_app_cipher imem key keylen ffx k hk ht
  unfold namedCipher
  split
  · rename_i h; subst h; exact h3
  · rename_i h
    by_cases h5 : cipher = "wbaes"
    · subst h5; exact h2
    · exact h4 _ h hw h5

/-- C92: phone numbers. For every key of at least 16 bytes, every cipher name other than `wbsm4`, every mode name, every number
and sample: the result is the number with the hidden digits replaced by FF1 (`ff1`) or FF3 (every other name) of them, under
the named cipher and with the shown characters and a zero byte as tweak. Decryption is the same with the inverse. The
memory contents and the white-box random choices have no influence. -/
theorem C92_phone (imem : AppInitMem) (key : List Byte) (keylen : Nat) (k : Block) (cipher ffx : String) (hk : 16 ≤ keylen)
    (ht : k.toList = key.take 16) (hw : cipher ≠ "wbsm4") :
    ∃ app, fpeAppInit imem key keylen cipher ffx = some app ∧
      ∀ (phone smp : List Byte), (∀ c ∈ phone, c ≠ 0) → (∀ c ∈ smp, c ≠ 0) → (smp = [] ∨ phone.length ≤ smp.length) →
        (∀ i (hi : i < phone.length), Hidden smp i → IsNumeral 10 phone[i]) →
        FpeLens ffx 10 (phone.length - hiddenCount smp phone.length) (hiddenCount smp phone.length) →
        ∀ (mem : AppMem) (rest more after : List Byte), 1 ≤ mem.slack → phone.length ≤ after.length →
          let mask := maskOf smp phone.length
          encryptPhone app exactLg mem (phone ++ 0 :: rest) (smp ++ 0 :: more) after =
            some (fill mask phone ((namedFpe ffx (namedCipher cipher k) 10 (pick true mask phone ++ [0])
              ((pick false mask phone).map numeralVal)).map numeralChar) ++ after.drop phone.length) ∧
          decryptPhone app exactLg mem (phone ++ 0 :: rest) (smp ++ 0 :: more) after =
            some (fill mask phone ((namedFpeInv ffx (namedCipher cipher k) 10 (pick true mask phone ++ [0])
              ((pick false mask phone).map numeralVal)).map numeralChar) ++ after.drop phone.length) := by
  refine ⟨_, named_app imem key keylen k cipher ffx hk ht hw, ?_⟩
  intro phone smp hp h0 hs hd hl mem rest more after hsl ha mask
  have hml : mask.length = phone.length := maskOf_length smp phone.length hs
  have hcf := length_pick false mask phone hml
  have hct := length_pick true mask phone hml
  have hcount := count_flags mask
  have hh : mask.count false = hiddenCount smp phone.length := maskOf_count smp phone.length
  have he := named_engine ⟨namedCipher cipher k, ffxOf ffx⟩ ffx rfl 10 (pick true mask phone) (pick false mask phone)
    (vla mem.ans (mask.count false + mem.slack)) (fun _ => rfl) (pick_hidden smp phone hs _ hd)
    (by rw [hcf, hct, hh]; have : mask.count true = phone.length - hiddenCount smp phone.length := by omega
        rw [this]; exact hl) (by rw [hcf, length_vla]; omega)
  obtain ⟨d1, d2⟩ := digits_named ffx (namedCipher cipher k) 10 (pick true mask phone ++ [0]) ((pick false mask phone).map numeralVal)
    (by decide)
  rw [List.length_map, hcf] at d1 d2
  exact ⟨auxPhone_some _ mem phone rest smp more after hp h0 hs ha _ _ _ (by rw [List.length_map, d1.1]) he.1,
    auxPhone_some _ mem phone rest smp more after hp h0 hs ha _ _ _ (by rw [List.length_map, d2.1]) he.2⟩

/-- C92: identity card numbers; a final `X` is carried over and is neither encrypted nor part of the tweak. -/
theorem C92_idcard (imem : AppInitMem) (key : List Byte) (keylen : Nat) (k : Block) (cipher ffx : String) (hk : 16 ≤ keylen)
    (ht : k.toList = key.take 16) (hw : cipher ≠ "wbsm4") :
    ∃ app, fpeAppInit imem key keylen cipher ffx = some app ∧
      ∀ (body tail smp : List Byte), CardForm body tail → (∀ c ∈ body, c ≠ 0) → (∀ c ∈ smp, c ≠ 0) →
        (smp = [] ∨ body.length ≤ smp.length) → (∀ i (hi : i < body.length), Hidden smp i → IsNumeral 10 body[i]) →
        FpeLens ffx 10 (body.length - hiddenCount smp body.length) (hiddenCount smp body.length) →
        ∀ (mem : AppMem) (rest more after : List Byte), 1 ≤ mem.slack → (body ++ tail).length ≤ after.length →
          let mask := maskOf smp body.length
          encryptIdcard app exactLg mem (body ++ tail ++ 0 :: rest) (smp ++ 0 :: more) after =
            some (fill mask body ((namedFpe ffx (namedCipher cipher k) 10 (pick true mask body ++ [0])
              ((pick false mask body).map numeralVal)).map numeralChar) ++ tail ++ after.drop (body ++ tail).length) ∧
          decryptIdcard app exactLg mem (body ++ tail ++ 0 :: rest) (smp ++ 0 :: more) after =
            some (fill mask body ((namedFpeInv ffx (namedCipher cipher k) 10 (pick true mask body ++ [0])
              ((pick false mask body).map numeralVal)).map numeralChar) ++ tail ++ after.drop (body ++ tail).length) := by
  refine ⟨_, named_app imem key keylen k cipher ffx hk ht hw, ?_⟩
  intro body tail smp hform hp h0 hs hd hl mem rest more after hsl ha mask
  have hml : mask.length = body.length := maskOf_length smp body.length hs
  have hcf := length_pick false mask body hml
  have hct := length_pick true mask body hml
  have hcount := count_flags mask
  have hh : mask.count false = hiddenCount smp body.length := maskOf_count smp body.length
  have he := named_engine ⟨namedCipher cipher k, ffxOf ffx⟩ ffx rfl 10 (pick true mask body) (pick false mask body)
    (vla mem.ans (mask.count false + mem.slack)) (fun _ => rfl) (pick_hidden smp body hs _ hd)
    (by rw [hcf, hct, hh]; have : mask.count true = body.length - hiddenCount smp body.length := by omega
        rw [this]; exact hl) (by rw [hcf, length_vla]; omega)
  obtain ⟨d1, d2⟩ := digits_named ffx (namedCipher cipher k) 10 (pick true mask body ++ [0]) ((pick false mask body).map numeralVal)
    (by decide)
  rw [List.length_map, hcf] at d1 d2
  exact ⟨auxIdcard_some _ mem body tail rest smp more after hform hp h0 hs ha _ _ _ (by rw [List.length_map, d1.1]) he.1,
    auxIdcard_some _ mem body tail rest smp more after hform hp h0 hs ha _ _ _ (by rw [List.length_map, d2.1]) he.2⟩

/-! ### Chinese text -/

theorem duoText_digits (cps : List Nat) : duoText cps = (cnDigits cps).map numeralChar := by
  induction cps with
  | nil => rfl
  | cons c l ih =>
    have e1 : duoText (c :: l) = duo4 (c - 0x4E00) ++ duoText l := by rw [duoText, List.flatMap_cons, ← duoText]
    have e2 : cnDigits (c :: l) = [(c - 0x4E00) % 12, (c - 0x4E00) / 12 % 12, (c - 0x4E00) / 144 % 12, (c - 0x4E00) / 1728 % 12] ++
      cnDigits l := by rw [cnDigits, List.flatMap_cons, ← cnDigits]
    rw [e1, e2, List.map_append, ih, duo4]
    simp [num2strRev, Nat.div_div_eq_div_mul]

theorem cnDigits_lt (cps : List Nat) : ∀ d ∈ cnDigits cps, d < 12 := by
  intro d hd
  obtain ⟨cp, -, h⟩ := List.mem_flatMap.1 hd
  simp only [List.mem_cons, List.not_mem_nil, or_false] at h
  rcases h with h | h | h | h <;> rw [h] <;> exact Nat.mod_lt _ (by decide)

theorem vals_duoText (cps : List Nat) : (duoText cps).map numeralVal = cnDigits cps := by
  rw [duoText_digits]
  exact vals_chars _ fun d hd => by have := cnDigits_lt cps d hd; omega

/-- Every string of `4k` digits belongs to one text of `k` characters. -/
theorem cnDigits_surj (k : Nat) (X : List Nat) (h : DigitsOf 12 (4 * k) X) :
    ∃ r : List Nat, r.length = k ∧ (∀ cp ∈ r, InCnRange cp) ∧ cnDigits r = X := by
  obtain ⟨r, h1, h2, h3⟩ := duoText_surj k (X.map numeralChar) (by rw [List.length_map, h.1]) (by
    intro c hc
    obtain ⟨d, hd, rfl⟩ := List.mem_map.1 hc
    exact numeralChar_isNumeral 12 d (by decide) (h.2 d hd))
  refine ⟨r, h1, h2, ?_⟩
  rw [← vals_duoText, h3]
  exact vals_chars _ fun d hd => by have := h.2 d hd; omega

/-- C92: Chinese text. The hidden characters, written as four digits to base twelve each, are encrypted as one numeral string
with the digits of the shown characters and a zero byte as tweak; the result is the text with these digits. -/
theorem C92_cn (imem : AppInitMem) (key : List Byte) (keylen : Nat) (k : Block) (cipher ffx : String) (hk : 16 ≤ keylen)
    (ht : k.toList = key.take 16) (hw : cipher ≠ "wbsm4") :
    ∃ app, fpeAppInit imem key keylen cipher ffx = some app ∧
      ∀ (cps : List Nat) (smp : List Byte) (mask : List Bool), (∀ cp ∈ cps, InCnRange cp) → CnSample smp mask cps.length →
        FpeLens ffx 12 (4 * mask.count true) (4 * mask.count false) →
        ∃ r r' : List Nat, (∀ cp ∈ r, InCnRange cp) ∧ (∀ cp ∈ r', InCnRange cp) ∧
          cnDigits r = namedFpe ffx (namedCipher cipher k) 12 ((cnDigits (pick true mask cps)).map numeralChar ++ [0])
            (cnDigits (pick false mask cps)) ∧
          cnDigits r' = namedFpeInv ffx (namedCipher cipher k) 12 ((cnDigits (pick true mask cps)).map numeralChar ++ [0])
            (cnDigits (pick false mask cps)) ∧
          ∀ (mem : AppMem) (rest more after : List Byte), 1 ≤ mem.slack → 3 * cps.length ≤ after.length →
            encryptCn app exactLg mem (utf8Text cps ++ 0 :: rest) (smp ++ 0 :: more) after =
              some (utf8Text (fill mask cps r) ++ after.drop (3 * cps.length)) ∧
            decryptCn app exactLg mem (utf8Text cps ++ 0 :: rest) (smp ++ 0 :: more) after =
              some (utf8Text (fill mask cps r') ++ after.drop (3 * cps.length)) := by
  refine ⟨_, named_app imem key keylen k cipher ffx hk ht hw, ?_⟩
  intro cps smp mask hr hm hl
  have hml := hm.length
  have hcf := length_pick false mask cps hml
  have hct := length_pick true mask cps hml
  obtain ⟨d1, d2⟩ := digits_named ffx (namedCipher cipher k) 12 ((cnDigits (pick true mask cps)).map numeralChar ++ [0])
    (cnDigits (pick false mask cps)) (by decide)
  have hlen : (cnDigits (pick false mask cps)).length = 4 * mask.count false := by
    rw [← vals_duoText, List.length_map, length_duoText, hcf]
  rw [hlen] at d1 d2
  obtain ⟨r, a1, a2, a3⟩ := cnDigits_surj _ _ d1
  obtain ⟨r', b1, b2, b3⟩ := cnDigits_surj _ _ d2
  refine ⟨r, r', a2, b2, a3, b3, ?_⟩
  intro mem rest more after hsl ha
  have he := named_engine ⟨namedCipher cipher k, ffxOf ffx⟩ ffx rfl 12 (duoText (pick true mask cps)) (duoText (pick false mask cps))
    (vla mem.ans (4 * mask.count false + mem.slack)) (fun _ => rfl) (duoText_numeral _)
    (by rw [length_duoText, length_duoText, hcf, hct]; exact hl) (by rw [length_duoText, hcf, length_vla]; omega)
  rw [vals_duoText, duoText_digits (pick true mask cps), ← a3, ← b3, ← duoText_digits r, ← duoText_digits r',
    ← duoText_digits (pick true mask cps)] at he
  exact ⟨cn_some _ mem cps r smp rest more after mask hr hm ha _ _ a1 a2 he.1,
    cn_some _ mem cps r' smp rest more after mask hr hm ha _ _ b1 b2 he.2⟩

/-! ### consequences -/

/-- C92: without a sample nothing is shown, so the tweak is one zero byte for every number: under a key there is one fixed
permutation of the numbers of each length. -/
theorem C92_no_sample (imem : AppInitMem) (key : List Byte) (keylen : Nat) (k : Block) (cipher : String) (hk : 16 ≤ keylen)
    (ht : k.toList = key.take 16) (hw : cipher ≠ "wbsm4") :
    ∃ app, fpeAppInit imem key keylen cipher "ff1" = some app ∧
      ∀ (phone : List Byte), (∀ c ∈ phone, IsNumeral 10 c) → 2 ≤ phone.length → phone.length < 2 ^ 30 →
        ∀ (mem : AppMem) (rest more after : List Byte), 1 ≤ mem.slack → phone.length ≤ after.length →
          encryptPhone app exactLg mem (phone ++ 0 :: rest) (0 :: more) after =
            some ((ff1Enc (namedCipher cipher k) 10 [0] (phone.map numeralVal)).map numeralChar ++ after.drop phone.length) := by
  obtain ⟨app, ha, h⟩ := C92_phone imem key keylen k cipher "ff1" hk ht hw
  refine ⟨app, ha, ?_⟩
  intro phone hd h2 h30 mem rest more after hsl hl
  have hp : ∀ c ∈ phone, c ≠ 0 := by
    rintro c hc rfl
    exact absurd (hd 0 hc) (by unfold IsNumeral; decide)
  have := (h phone [] hp (by simp) (.inl rfl) (fun i hi _ => hd _ (List.getElem_mem hi))
    (by unfold FpeLens; rw [if_pos rfl]; exact ⟨h2, h30⟩) mem rest more after hsl hl).1
  rw [List.nil_append] at this
  rw [this]
  have hm : maskOf [] phone.length = List.replicate phone.length false := by simp [maskOf]
  have p1 : ∀ l : List Byte, pick true (List.replicate l.length false) l = [] := by
    intro l; induction l with
    | nil => rfl
    | cons a l ih => simpa [List.replicate_succ, pick] using ih
  have p2 : ∀ l : List Byte, pick false (List.replicate l.length false) l = l := by
    intro l; induction l with
    | nil => rfl
    | cons a l ih => simpa [List.replicate_succ, pick] using ih
  have p3 : ∀ l r : List Byte, r.length = l.length → fill (List.replicate l.length false) l r = r := by
    intro l; induction l with
    | nil => intro r hr; rw [List.length_eq_zero_iff.1 hr]; rfl
    | cons a l ih =>
      intro r hr
      cases r with
      | nil => simp at hr
      | cons b r => simp only [List.length_cons, List.replicate_succ, fill, ih r (by simpa using hr)]
  rw [hm, p1, p2, p3 _ _ (by
    rw [List.length_map, (digits_named "ff1" _ 10 _ _ (by decide)).1.1, List.length_map])]
  unfold namedFpe
  rw [if_pos rfl]
  rfl

/-- C92: with a mode name other than `ff1` only the first eight shown characters enter the tweak. Two numbers of the same length
with the same hidden digits that first differ in a later shown character have the same encrypted digits. -/
theorem C92_ff3_late_tweak (imem : AppInitMem) (key : List Byte) (keylen : Nat) (k : Block) (cipher ffx : String) (hk : 16 ≤ keylen)
    (ht : k.toList = key.take 16) (hw : cipher ≠ "wbsm4") (hx : ffx ≠ "ff1") :
    ∃ app, fpeAppInit imem key keylen cipher ffx = some app ∧
      ∀ (p q smp : List Byte), q.length = p.length → (∀ c ∈ p, c ≠ 0) → (∀ c ∈ q, c ≠ 0) → (∀ c ∈ smp, c ≠ 0) →
        (smp = [] ∨ p.length ≤ smp.length) → (∀ i (hi : i < p.length), Hidden smp i → IsNumeral 10 p[i]) →
        FpeLens ffx 10 (p.length - hiddenCount smp p.length) (hiddenCount smp p.length) →
        (∀ i, Hidden smp i → q[i]? = p[i]?) →
        (pick true (maskOf smp p.length) q).take 8 = (pick true (maskOf smp p.length) p).take 8 →
        8 ≤ p.length - hiddenCount smp p.length →
        ∃ a b : List Byte, (∀ i, Hidden smp i → a[i]? = b[i]?) ∧
          ∀ (mem : AppMem) (rest more after : List Byte), 1 ≤ mem.slack → p.length ≤ after.length →
            encryptPhone app exactLg mem (p ++ 0 :: rest) (smp ++ 0 :: more) after = some (a ++ after.drop p.length) ∧
            encryptPhone app exactLg mem (q ++ 0 :: rest) (smp ++ 0 :: more) after = some (b ++ after.drop p.length) := by
  obtain ⟨app, ha, h⟩ := C92_phone imem key keylen k cipher ffx hk ht hw
  refine ⟨app, ha, ?_⟩
  intro p q smp hqp hp hq h0 hs hd hl hsame hshown h8
  have hml := maskOf_length smp p.length hs
  have hcount := count_flags (maskOf smp p.length)
  have hh := maskOf_count smp p.length
  have hct := length_pick true _ p hml
  have hctq := length_pick true (maskOf smp p.length) q (by omega)
  have hflag : ∀ i (hi : i < (maskOf smp p.length).length), (maskOf smp p.length)[i] = false ↔ Hidden smp i := by
    intro i hi
    unfold Hidden
    simp only [maskOf]
    split
    · rename_i e; simp [e]
    · rename_i e
      have hi' : i < smp.length := by
        rcases hs with h | h
        · exact absurd h e
        · omega
      simp [e, hi']
  have hpick : pick false (maskOf smp p.length) q = pick false (maskOf smp p.length) p := by
    have key : ∀ (ms : List Bool) (xs ys : List Byte), ms.length = xs.length → ms.length = ys.length →
        (∀ i (h1 : i < ms.length) (h2 : i < xs.length) (h3 : i < ys.length), ms[i] = false → xs[i] = ys[i]) →
        pick false ms xs = pick false ms ys := by
      intro ms
      induction ms with
      | nil => intros; rfl
      | cons m ms ih =>
        intro xs ys h1 h2 h
        cases xs with
        | nil => simp at h1
        | cons x xs =>
        cases ys with
        | nil => simp at h2
        | cons y ys =>
          have := ih xs ys (by simpa using h1) (by simpa using h2) (fun i a b c e => by
            have := h (i + 1) (by simpa using a) (by simpa using b) (by simpa using c) (by simpa using e)
            simpa using this)
          cases m with
          | true => simpa [pick] using this
          | false =>
            have hxy := h 0 (by simp) (by simp) (by simp) rfl
            simp only [List.getElem_cons_zero] at hxy
            simp [pick, this, hxy]
    refine key _ _ _ (by omega) (by omega) ?_
    intro i h1 h2 h3 e
    have := hsame i ((hflag i h1).1 e)
    rw [List.getElem?_eq_getElem h2, List.getElem?_eq_getElem h3] at this
    exact Option.some.inj this
  have hdq : ∀ i (hi : i < q.length), Hidden smp i → IsNumeral 10 q[i] := by
    intro i hi hid
    have := hsame i hid
    rw [List.getElem?_eq_getElem hi, List.getElem?_eq_getElem (by omega)] at this
    rw [Option.some.inj this]
    exact hd i (by omega) hid
  have htw : (pick true (maskOf smp p.length) q ++ [0]).take 8 = (pick true (maskOf smp p.length) p ++ [0]).take 8 := by
    rw [List.take_append_of_le_length (by omega), List.take_append_of_le_length (by omega), hshown]
  have hE : namedFpe ffx (namedCipher cipher k) 10 (pick true (maskOf smp p.length) q ++ [0])
      ((pick false (maskOf smp p.length) q).map numeralVal) =
      namedFpe ffx (namedCipher cipher k) 10 (pick true (maskOf smp p.length) p ++ [0])
      ((pick false (maskOf smp p.length) p).map numeralVal) := by
    unfold namedFpe
    rw [if_neg hx, if_neg hx, htw, hpick]
  have hdl := (digits_named ffx (namedCipher cipher k) 10 (pick true (maskOf smp p.length) p ++ [0])
      ((pick false (maskOf smp p.length) p).map numeralVal) (by decide)).1.1
  rw [List.length_map, length_pick false _ p hml] at hdl
  refine ⟨_, fill (maskOf smp p.length) q ((namedFpe ffx (namedCipher cipher k) 10 (pick true (maskOf smp p.length) p ++ [0])
      ((pick false (maskOf smp p.length) p).map numeralVal)).map numeralChar), ?_, fun mem rest more after hsl hla => ⟨(h p smp hp h0 hs hd hl mem rest more after hsl hla).1, ?_⟩⟩
  rotate_left
  · have := (h q smp hq h0 (by rw [hqp]; exact hs) hdq (by rw [hqp]; exact hl) mem rest more after hsl (by omega)).1
    simp only [hqp] at this
    rw [hE] at this
    exact this
  · intro i hid
    generalize hr : (namedFpe ffx (namedCipher cipher k) 10 (pick true (maskOf smp p.length) p ++ [0])
      ((pick false (maskOf smp p.length) p).map numeralVal)).map numeralChar = r
    have hrl : r.length = (maskOf smp p.length).count false := by rw [← hr, List.length_map, hdl]
    have hf : ∀ (ms : List Bool) (xs ys r : List Byte), ms.length = xs.length → ms.length = ys.length → ms.count false ≤ r.length →
        ∀ i : Nat, ms[i]? ≠ some true → (fill ms xs r)[i]? = (fill ms ys r)[i]? := by
      intro ms
      induction ms with
      | nil => intros; rfl
      | cons m ms ih =>
        intro xs ys r h1 h2 h3 i hi
        cases xs with
        | nil => simp at h1
        | cons x xs =>
        cases ys with
        | nil => simp at h2
        | cons y ys =>
        cases m with
        | true =>
          cases i with
          | zero => simp at hi
          | succ i => simpa [fill] using ih xs ys r (by simpa using h1) (by simpa using h2) (by simpa using h3) i (by simpa using hi)
        | false =>
          cases r with
          | nil => simp at h3
          | cons z r =>
            cases i with
            | zero => simp [fill]
            | succ i =>
              simpa [fill] using ih xs ys r (by simpa using h1) (by simpa using h2) (by simpa using h3) i (by simpa using hi)
    refine hf _ _ _ _ (by omega) (by omega) (by omega) i ?_
    intro e
    obtain ⟨h1, h2⟩ := List.getElem?_eq_some_iff.1 e
    rw [(hflag i h1).2 hid] at h2
    cases h2

/-- C92: for a sample the encryption of phone numbers is injective: two numbers with the same result are equal. -/
theorem C92_injective (app : FpeApp) (lg : Nat → Nat → Nat) (hlg : LgOk lg) (p q smp : List Byte)
    (hp : ∀ c ∈ p, c ≠ 0) (hq : ∀ c ∈ q, c ≠ 0) (h0 : ∀ c ∈ smp, c ≠ 0) (hlen : q.length = p.length)
    (hs : smp = [] ∨ p.length ≤ smp.length) (hdp : ∀ i (hi : i < p.length), Hidden smp i → IsNumeral 10 p[i])
    (hdq : ∀ i (hi : i < q.length), Hidden smp i → IsNumeral 10 q[i]) (hk : HiddenOk app.ffx smp p.length)
    (mem mem' : AppMem) (rest rest' more more' after : List Byte) (h1 : 1 ≤ mem.slack) (h2 : 1 ≤ mem'.slack)
    (ha : p.length ≤ after.length)
    (h : encryptPhone app lg mem (p ++ 0 :: rest) (smp ++ 0 :: more) after =
      encryptPhone app lg mem' (q ++ 0 :: rest') (smp ++ 0 :: more') after) : p = q := by
  obtain ⟨o, -, e1, d1⟩ := C54_phone_roundtrip app lg hlg p smp hp h0 hs hdp hk
  obtain ⟨o', -, e2, d2⟩ := C54_phone_roundtrip app lg hlg q smp hq h0 (by rw [hlen]; exact hs) hdq (by rw [hlen]; exact hk)
  rw [e1 mem rest more after h1 ha, e2 mem' rest' more' after h2 (by omega), hlen] at h
  have ho : o = o' := List.append_cancel_right (Option.some.inj h)
  subst ho
  have a := d1 mem [] [] p h1 (Nat.le_refl _)
  have b := d2 mem [] [] p h1 (by omega)
  rw [a, hlen] at b
  exact List.append_cancel_right (Option.some.inj b)

/-! ### the MySQL functions -/

/-- C79: what a row gives is public knowledge: for phone numbers it is FF1 of the hidden digits with SM4 under the key
`2b7e1516 28aed2a6 abf71588 09cf4f3c` of the source, with the shown digits and a zero byte as tweak. -/
theorem C79_public_key (v8 : Bool) (imem : AppInitMem) (amem : AppMem) (resCap errCap ml : Nat)
    (ptr phone smp rest r : List Byte) (sample : Option UdfArg) (hsa : SampleArg sample smp 11) (hl : phone.length = 11)
    (hd : ∀ c ∈ phone, IsNumeral 10 c) (h0 : ∀ c ∈ smp, c ≠ 0) (hs : smp = [] ∨ smp.length = 11)
    (hk : 2 ≤ hiddenCount smp 11) (hsl : 1 ≤ amem.slack) (hptr : 12 ≤ ptr.length) (hres : 11 ≤ resCap) :
    udfCall v8 imem exactLg amem resCap errCap ptr ⟨some (phone ++ 0 :: rest), 11⟩ ⟨some (lit "phone" ++ r), ml⟩ sample =
      some (.value (fill (maskOf smp 11) phone
        ((ff1Enc (Spec.sm4Encrypt (ofBV 0x2b7e151628aed2a6abf7158809cf4f3c)) 10 (pick true (maskOf smp 11) phone ++ [0])
          ((pick false (maskOf smp 11) phone).map numeralVal)).map numeralChar))) := by
  have hkey : ofBV 0x2b7e151628aed2a6abf7158809cf4f3c = udfKey := by decide
  have hp : ∀ c ∈ phone, c ≠ 0 := by
    rintro c hc rfl
    exact absurd (hd 0 hc) (by unfold IsNumeral; decide)
  have hs' : smp = [] ∨ phone.length ≤ smp.length := by rcases hs with h | h <;> [exact .inl h; exact .inr (by omega)]
  obtain ⟨app, ha, h⟩ := C92_phone imem udfKey.toList 16 udfKey "sm4" "ff1" (by decide) (by simp) (by decide)
  rw [udf_app] at ha
  cases ha
  have hlen : hiddenCount smp 11 ≤ 11 := by
    have h1 := maskOf_count smp 11
    have h2 := maskOf_length smp 11 (by rw [← hl]; exact hs')
    have h3 := count_flags (maskOf smp 11)
    omega
  obtain ⟨more, hc⟩ := udfCall_sample v8 imem exactLg amem resCap errCap ptr (phone ++ 0 :: rest) (lit "phone" ++ r) 11 ml sample smp
    hsa (by simp; omega) (by omega)
  have hb := buf_length (phone ++ 0 :: rest) ptr 11 (by simp; omega) (by omega)
  have hm : strEq (lit "phone" ++ r) (lit "phone") = some true := by
    have := strEq_self (lit "phone").dropLast r (by decide)
    exact this
  have he := (h phone smp hp h0 hs' (fun i hi _ => hd _ (List.getElem_mem hi))
    (by unfold FpeLens; rw [if_pos rfl, hl]; omega) amem rest more ((phone ++ 0 :: rest).take 11 ++ 0 :: ptr.drop (11 + 1)) hsl
    (by rw [hb]; omega)).1
  simp only [hl] at he
  rw [hc]
  unfold udfModes
  rw [hm]
  simp only [Option.bind_some, if_true, ne_eq, not_true_eq_false, if_false]
  rw [he, Option.bind_some, udfReturn, if_pos hres, hkey, List.take_left' (by
    rw [length_fill _ _ _ (by rw [maskOf_length smp 11 (by rw [← hl]; exact hs'), hl]), hl]
    rw [List.length_map, (digits_named "ff1" _ 10 _ _ (by decide)).1.1, List.length_map, length_pick _ _ _
      (by rw [maskOf_length smp 11 (by rw [← hl]; exact hs'), hl])])]
  unfold namedFpe namedCipher
  rw [if_pos rfl, if_pos rfl]

/- A number of eleven digits and a sample that hides four digits and shows seven meet the length conditions of both modes. -/
example : ∃ phone smp : List Byte, (∀ c ∈ phone, IsNumeral 10 c) ∧ phone.length ≤ smp.length ∧
    FpeLens "ff1" 10 (phone.length - hiddenCount smp phone.length) (hiddenCount smp phone.length) ∧
    FpeLens "ff3" 10 (phone.length - hiddenCount smp phone.length) (hiddenCount smp phone.length) :=
  ⟨[0x31, 0x33, 0x38, 0x30, 0x31, 0x32, 0x33, 0x34, 0x35, 0x36, 0x37],
   [0x31, 0x33, 0x38, 0x2a, 0x2a, 0x2a, 0x2a, 0x34, 0x35, 0x36, 0x37], by unfold IsNumeral; decide, by decide,
   by unfold FpeLens; decide, by unfold FpeLens; decide⟩

/- Two numbers that differ in the last of nine shown digits, as in `C92_ff3_late_tweak`. -/
example : ∃ p q smp : List Byte, q.length = p.length ∧ p ≠ q ∧ p.length ≤ smp.length ∧
    FpeLens "ff3" 10 (p.length - hiddenCount smp p.length) (hiddenCount smp p.length) ∧ (∀ i, Hidden smp i → q[i]? = p[i]?) ∧
    (pick true (maskOf smp p.length) q).take 8 = (pick true (maskOf smp p.length) p).take 8 ∧
    8 ≤ p.length - hiddenCount smp p.length :=
  ⟨[0x31, 0x33, 0x38, 0x30, 0x31, 0x32, 0x33, 0x34, 0x35, 0x36, 0x37],
   [0x31, 0x33, 0x38, 0x30, 0x31, 0x32, 0x33, 0x34, 0x35, 0x36, 0x38],
   [0x31, 0x33, 0x38, 0x2a, 0x2a, 0x32, 0x33, 0x34, 0x35, 0x36, 0x37], rfl, by decide, by decide, by unfold FpeLens; decide,
   by
    intro i hi
    by_cases h : i < 10
    · revert hi; revert i; decide
    · unfold Hidden at hi
      rcases hi with hi | hi
      · cases hi
      · obtain ⟨h1, h2⟩ := List.getElem?_eq_some_iff.1 hi
        have h11 : i < 11 := h1
        have : i = 10 := by omega
        subst this
        simp at h2, by decide, by decide⟩

end Verif.Props
