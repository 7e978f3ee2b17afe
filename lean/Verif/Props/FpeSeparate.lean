import Verif.Props.FpeAppNist

/-! Property C116: which calls of FF1, FF3 and the applications the block cipher can tell apart. -/
set_option autoImplicit false

namespace Verif.Props
open Verif Spec Model

/-- The string that round `i` of FF1 authenticates: `P ‖ Q`. -/
def ff1Input (ctx : FpeCtx) (lg : Nat → Nat → Nat) (n i num : Nat) : Option (List Byte) :=
  (ff1QBytes ctx.tweak (ff1B lg ctx.radix (n - n / 2)) i num).map
    ((ff1PBlock ctx.radix (n / 2) n ctx.tweak.length).toList ++ ·)

theorem bytesBE_inj (m : Nat) : ∀ x y, x < 256 ^ m → y < 256 ^ m → bytesBE x m = bytesBE y m → x = y := by
  induction m with
  | zero => intro x y hx hy _; simp at hx hy; omega
  | succ m ih =>
    intro x y hx hy h
    rw [bytesBE, bytesBE] at h
    obtain ⟨h1, h2⟩ := List.append_inj' h rfl
    have e1 := ih _ _ (by rw [Nat.pow_succ] at hx; omega) (by rw [Nat.pow_succ] at hy; omega) h1
    have e2 := congrArg BitVec.toNat (List.cons.inj h2).1
    simp only [BitVec.toNat_ofNat] at e2
    omega

theorem bytesOf_inj (m x y : Nat) (hx : x < 256 ^ m) (hy : y < 256 ^ m) (h : bytesOf m x = bytesOf m y) : x = y :=
  bytesBE_inj m x y hx hy (by rw [bytesBE_eq, bytesBE_eq, h])

theorem four_bytes (x y : Nat) (hx : x < 2 ^ 32) (hy : y < 2 ^ 32)
    (h3 : BitVec.ofNat 8 (x >>> 24) = BitVec.ofNat 8 (y >>> 24)) (h2 : BitVec.ofNat 8 (x >>> 16) = BitVec.ofNat 8 (y >>> 16))
    (h1 : BitVec.ofNat 8 (x >>> 8) = BitVec.ofNat 8 (y >>> 8)) (h0 : BitVec.ofNat 8 x = BitVec.ofNat 8 y) : x = y := by
  have h3 := congrArg BitVec.toNat h3
  have h2 := congrArg BitVec.toNat h2
  have h1 := congrArg BitVec.toNat h1
  have h0 := congrArg BitVec.toNat h0
  simp only [BitVec.toNat_ofNat, Nat.shiftRight_eq_div_pow] at h0 h1 h2 h3
  omega

theorem ff1PBlock_inj (r r' u u' n n' t t' : Nat) (hr : r < 2 ^ 16) (hr' : r' < 2 ^ 16) (hn : n < 2 ^ 32) (hn' : n' < 2 ^ 32)
    (ht : t < 2 ^ 32) (ht' : t' < 2 ^ 32) (h : ff1PBlock r u n t = ff1PBlock r' u' n' t') : r = r' ∧ n = n' ∧ t = t' := by
  have hl := congrArg Vector.toList h
  simp only [ff1PBlock, Vector.toList_mk, List.cons.injEq] at hl
  obtain ⟨-, -, -, a3, a2, a1, a0, -, b3, b2, b1, b0, c3, c2, c1, c0, -⟩ := hl
  have e := four_bytes _ _ (by omega) (by omega) a3 a2 a1 a0
  exact ⟨by omega, four_bytes _ _ hn hn' b3 b2 b1 b0, four_bytes _ _ ht ht' c3 c2 c1 c0⟩

theorem ff1QBytes_spec (tweak : List Byte) (b i num : Nat) (Q : List Byte) (h : ff1QBytes tweak b i num = some Q) :
    num < 256 ^ b ∧ Q = tweak ++ (List.replicate (ff1Pad tweak.length b) 0 ++ (BitVec.ofNat 8 i :: bytesOf b num)) := by
  have hlt : num < 256 ^ b := by
    apply (bnNumBytes_le_iff num b).mp
    rw [← length_bn2bin]
    by_cases hc : (bn2bin num).length > b
    · rw [ff1QBytes, if_pos hc] at h; simp at h
    · omega
  refine ⟨hlt, ?_⟩
  rw [ff1QBytes_some _ _ _ _ hlt] at h
  rw [← Option.some.inj h]
  simp [List.append_assoc]

/-- C116: the value of an FF1 round depends on the radix, the length, the tweak, the round and the half only through the string
`P ‖ Q`, which is authenticated by CBC-MAC, and the length of the result.  No two rounds of any two calls have the same
string, and none is the beginning of another (this is what makes CBC-MAC safe here). -/
theorem C116_ff1 (lg : Nat → Nat → Nat) :
    (∀ (ctx : FpeCtx) (n i num : Nat), ff1RoundY ctx lg n i num = (ff1Input ctx lg n i num).bind fun X =>
      ff1YOf ctx.E (prf ctx.E X) (ff1D (ff1B lg ctx.radix (n - n / 2)))) ∧
    ∀ (ctx ctx' : FpeCtx) (n n' i i' num num' : Nat) (X X' : List Byte),
      ctx.radix ≤ 36 → ctx'.radix ≤ 36 → n < 2 ^ 32 → n' < 2 ^ 32 → ctx.tweak.length < 2 ^ 32 → ctx'.tweak.length < 2 ^ 32 →
      i < 256 → i' < 256 → ff1Input ctx lg n i num = some X → ff1Input ctx' lg n' i' num' = some X' → X <+: X' →
      ctx.radix = ctx'.radix ∧ n = n' ∧ ctx.tweak = ctx'.tweak ∧ i = i' ∧ num = num' := by
  refine ⟨fun ctx n i num => ?_, ?_⟩
  · unfold ff1RoundY ff1Input
    simp only [floor2_eq]
    cases hq : ff1QBytes ctx.tweak (ff1B lg ctx.radix (n - n / 2)) i num with
    | none => rfl
    | some Q =>
      obtain ⟨-, e⟩ := ff1QBytes_spec _ _ _ _ _ hq
      have hl : Q.length % 16 = 0 := by
        have := ff1Pad_eq ctx.tweak.length (ff1B lg ctx.radix (n - n / 2))
        rw [e]
        simp only [List.length_append, List.length_replicate, List.length_cons, length_bytesOf]
        omega
      simp only [Option.bind_some, Option.map_some]
      rw [prf_append _ _ _ hl]
  · intro ctx ctx' n n' i i' num num' X X' hr hr' hn hn' ht ht' hi hi' hX hX' hp
    obtain ⟨Q, hq, rfl⟩ := Option.map_eq_some_iff.mp hX
    obtain ⟨Q', hq', rfl⟩ := Option.map_eq_some_iff.mp hX'
    obtain ⟨hb, e⟩ := ff1QBytes_spec _ _ _ _ _ hq
    obtain ⟨hb', e'⟩ := ff1QBytes_spec _ _ _ _ _ hq'
    obtain ⟨Z, hZ⟩ := hp
    rw [List.append_assoc] at hZ
    obtain ⟨h1, h2⟩ := List.append_inj hZ (by simp)
    obtain ⟨er, en, et⟩ := ff1PBlock_inj _ _ _ _ _ _ _ _ (by omega) (by omega) hn hn' ht ht' (Vector.toList_inj.mp h1)
    subst en
    rw [e, e', ← er, ← et, List.append_assoc] at h2
    rw [← er] at hb'
    obtain ⟨h3, h4⟩ := List.append_inj h2 et
    rw [List.append_assoc] at h4
    have h5 := (List.append_inj h4 rfl).2
    rw [List.cons_append, List.cons.injEq] at h5
    obtain ⟨h6, h7⟩ := h5
    have h8 : bytesOf (ff1B lg ctx.radix (n - n / 2)) num = bytesOf (ff1B lg ctx.radix (n - n / 2)) num' := by
      have hl := congrArg List.length h7
      rw [List.length_append, length_bytesOf, length_bytesOf] at hl
      rw [← h7, List.length_eq_zero_iff.mp (show Z.length = 0 by omega), List.append_nil]
    have h9 := congrArg BitVec.toNat h6
    simp only [BitVec.toNat_ofNat] at h9
    exact ⟨er, rfl, h3, by omega, bytesOf_inj _ _ _ hb hb' h8⟩

/-- The hypotheses are met by two calls with the decimal strings 12 and 34 and the tweak 7. -/
example : ∃ X X', ff1Input ⟨id, 10, [7]⟩ exactLg 2 0 2 = some X ∧ ff1Input ⟨id, 10, [7]⟩ exactLg 2 0 4 = some X' ∧ ¬ X <+: X' := by
  have e : exactLg 10 1 = 4 := by decide
  refine ⟨_, _, rfl, rfl, ?_⟩
  decide

/-- The half of the tweak that round `i` of FF3 uses, with the number of the round added to its last byte. -/
def roundTweak (T : List Byte) (i : Nat) : List Byte :=
  List.zipWith (fun a b => a ^^^ b) ((T.drop (if i % 2 = 0 then 4 else 0)).take 4) [0, 0, 0, BitVec.ofNat 8 i]

theorem roundTweak_eq (T : List Byte) (i : Nat) (hi : i < 256) (ht : 8 ≤ T.length) :
    roundTweak T i = List.zipWith (fun a b => a ^^^ b) ((T.drop (if i % 2 = 1 then 0 else 4)).take 4) (bytesOf 4 i) ∧
    (roundTweak T i).length = 4 := by
  constructor
  · unfold roundTweak
    rw [bytesOf_four, show i / 16777216 = 0 by omega, show i / 65536 = 0 by omega, show i / 256 = 0 by omega]
    rcases Nat.mod_two_eq_zero_or_one i with h | h
    · rw [if_pos h, if_neg (by omega)]; rfl
    · rw [if_neg (by omega), if_pos h]; rfl
  · unfold roundTweak
    rw [List.length_zipWith, List.length_take, List.length_drop]
    simp only [List.length_cons, List.length_nil]
    split <;> omega

theorem ff3RoundS_block (ctx : FpeCtx) (lg : Nat → Nat → Nat) (n i num : Nat) (S : Block) (ht : 8 ≤ ctx.tweak.length) (hi : i < 256)
    (h12 : num < 256 ^ 12) (h : ff3RoundS ctx lg n i num = some S) :
    S = revBytes (ctx.E (blockOf (roundTweak ctx.tweak i ++ bytesOf 12 num).reverse)) := by
  have l12 := (bnNumBytes_le_iff _ _).mpr h12
  have hW : ((ctx.tweak.drop (if i % 2 = 1 then 0 else 4)).take 4).length = 4 := by
    rw [List.length_take, List.length_drop]; split <;> omega
  obtain ⟨e, hl⟩ := roundTweak_eq ctx.tweak i hi ht
  unfold ff3RoundS ff3PBytes at h
  simp only [ceil2_one] at h
  rw [ff3W_some _ _ ht] at h
  simp only [Option.bind_some] at h
  split at h
  · simp at h
  · simp only [Option.bind_some, Option.some.injEq] at h
    rw [if_neg (show ¬ (bn2bin num).length > 12 by
        rw [length_bn2bin]; exact Nat.not_lt.mpr l12), List.take_of_length_le (Nat.le_refl _),
      List.append_assoc, pad_bn2bin _ _ h12, zipWith_set _ hW i hi, ← e] at h
    rw [← h, ff3SBlock, revBytes_blockOf _ (by rw [List.length_append, hl, length_bytesOf])]

theorem blockOf_inj16 (l l' : List Byte) (h : l.length = 16) (h' : l'.length = 16) (e : blockOf l = blockOf l') : l = l' := by
  apply List.ext_getElem (by omega)
  intro i h1 h2
  have := congrArg (fun b : Block => b[i]'(by omega)) e
  simpa [blockOf, List.getD_eq_getElem?_getD, h1, h2] using this

theorem revBytes_inj (a b : Block) (h : revBytes a = revBytes b) : a = b := by
  have := congrArg Vector.toList h
  rw [toList_revBytes, toList_revBytes] at this
  exact Vector.toList_inj.mp (List.reverse_inj.mp this)

/-- C116: FF3 rounds of any two calls under one key, whatever their radixes and lengths, give the same block exactly if
the tweak halves with their rounds agree and the numbers agree; radix and length are kept apart by nothing. -/
theorem C116_ff3 (E : Block → Block) (hE : Function.Injective E) (r r' : Nat) (T T' : List Byte) (lg lg' : Nat → Nat → Nat)
    (n n' i i' num num' : Nat) (S S' : Block) (ht : 8 ≤ T.length) (ht' : 8 ≤ T'.length) (hi : i < 256) (hi' : i' < 256)
    (hx : num < 256 ^ 12) (hx' : num' < 256 ^ 12) (h : ff3RoundS ⟨E, r, T⟩ lg n i num = some S)
    (h' : ff3RoundS ⟨E, r', T'⟩ lg' n' i' num' = some S') :
    S = S' ↔ roundTweak T i = roundTweak T' i' ∧ num = num' := by
  have e := ff3RoundS_block _ _ _ _ _ _ ht hi hx h
  have e' := ff3RoundS_block _ _ _ _ _ _ ht' hi' hx' h'
  have l := (roundTweak_eq T i hi ht).2
  have l' := (roundTweak_eq T' i' hi' ht').2
  simp only at e e'
  constructor
  · intro hs
    rw [e, e'] at hs
    have h1 := blockOf_inj16 _ _ (by simp [l, length_bytesOf]) (by simp [l', length_bytesOf]) (hE (revBytes_inj _ _ hs))
    obtain ⟨h2, h3⟩ := List.append_inj (List.reverse_inj.mp h1) (by rw [l, l'])
    exact ⟨h2, bytesOf_inj _ _ _ hx hx' h3⟩
  · rintro ⟨h1, rfl⟩
    rw [e, e', h1]

/-- The hypotheses are met by a decimal string of 6 digits and a string of 4 letters in radix 36, and the blocks agree. -/
example : ∃ S, ff3RoundS ⟨id, 10, [1, 2, 3, 4, 5, 6, 7, 8]⟩ (fun _ k => 6 * k) 6 0 321 = some S ∧
    ff3RoundS ⟨id, 36, [1, 2, 3, 4, 5, 6, 7, 8]⟩ (fun _ k => 6 * k) 4 0 321 = some S := ⟨_, rfl, rfl⟩

/-- C116: the applications.  Where the hidden digits stand and whether they belong to a phone number or an identity card is
not part of the tweak: whenever the visible characters in order and the hidden digits in order agree, the encrypted digits
agree. -/
theorem C116_apps (imem : AppInitMem) (key : List Byte) (keylen : Nat) (k : Block) (cipher ffx : String) (hk : 16 ≤ keylen)
    (ht : k.toList = key.take 16) (hw : cipher ≠ "wbsm4") :
    ∃ app, fpeAppInit imem key keylen cipher ffx = some app ∧
      ∀ (p smp body tail smp' : List Byte), CardForm body tail → (∀ c ∈ p, c ≠ 0) → (∀ c ∈ smp, c ≠ 0) →
        (∀ c ∈ body, c ≠ 0) → (∀ c ∈ smp', c ≠ 0) → (smp = [] ∨ p.length ≤ smp.length) →
        (smp' = [] ∨ body.length ≤ smp'.length) →
        (∀ i (hi : i < p.length), Hidden smp i → IsNumeral 10 p[i]) →
        (∀ i (hi : i < body.length), Hidden smp' i → IsNumeral 10 body[i]) →
        FpeLens ffx 10 (p.length - hiddenCount smp p.length) (hiddenCount smp p.length) →
        FpeLens ffx 10 (body.length - hiddenCount smp' body.length) (hiddenCount smp' body.length) →
        (∀ b, pick b (maskOf smp p.length) p = pick b (maskOf smp' body.length) body) →
        ∀ (mem mem' : AppMem) (rest more rest' more' : List Byte), 1 ≤ mem.slack → 1 ≤ mem'.slack →
          ∃ o o', encryptPhone app exactLg mem (p ++ 0 :: rest) (smp ++ 0 :: more) (List.replicate p.length 0) = some o ∧
            encryptIdcard app exactLg mem' (body ++ tail ++ 0 :: rest') (smp' ++ 0 :: more')
              (List.replicate (body ++ tail).length 0) = some o' ∧
            pick false (maskOf smp p.length) o = pick false (maskOf smp' body.length) o' := by
  obtain ⟨app, ha, h1⟩ := C92_phone imem key keylen k cipher ffx hk ht hw
  obtain ⟨app2, ha2, h2⟩ := C92_idcard imem key keylen k cipher ffx hk ht hw
  rw [ha] at ha2
  cases ha2
  refine ⟨app, ha, ?_⟩
  intro p smp body tail smp' hform hp h0 hp' h0' hs hs' hd hd' hl hl' hpick mem mem' rest more rest' more' hsl hsl'
  have e1 := (h1 p smp hp h0 hs hd hl mem rest more (List.replicate p.length 0) hsl (by simp)).1
  have e2 := (h2 body tail smp' hform hp' h0' hs' hd' hl' mem' rest' more' (List.replicate (body ++ tail).length 0) hsl'
    (by simp)).1
  refine ⟨_, _, e1, e2, ?_⟩
  have m1 := maskOf_length smp p.length hs
  have m2 := maskOf_length smp' body.length hs'
  have d1 := (digits_named ffx (namedCipher cipher k) 10 (pick true (maskOf smp p.length) p ++ [0])
    ((pick false (maskOf smp p.length) p).map numeralVal) (by decide)).1.1
  have d2 := (digits_named ffx (namedCipher cipher k) 10 (pick true (maskOf smp' body.length) body ++ [0])
    ((pick false (maskOf smp' body.length) body).map numeralVal) (by decide)).1.1
  rw [List.length_map, length_pick _ _ _ m1] at d1
  rw [List.length_map, length_pick _ _ _ m2] at d2
  have f1 : ∀ (ms : List Bool) (xs r z : List Byte), ms.length = xs.length → ms.count false = r.length →
      pick false ms (fill ms xs r ++ z) = r := by
    intro ms xs r z hm hc
    have := pick_append false ms (fill ms xs r) [] z (by rw [length_fill ms xs r hm (by omega), hm])
    rw [List.append_nil] at this
    rw [this, pick_false_fill ms xs r hm hc]
    simp [pick]
  rw [f1 _ _ _ _ m1 (by rw [List.length_map, d1]), List.append_assoc, f1 _ _ _ _ m2 (by rw [List.length_map, d2]), hpick, hpick]

/-- The hypotheses are met by the phone number 1234 with the sample 12** and the card number 3412X with the sample **12. -/
example : let p : List Byte := [0x31, 0x32, 0x33, 0x34]
    let smp : List Byte := [0x31, 0x32, 0x2a, 0x2a]
    let body : List Byte := [0x33, 0x34, 0x31, 0x32]
    let smp' : List Byte := [0x2a, 0x2a, 0x31, 0x32]
    CardForm body [0x58] ∧ (∀ b, pick b (maskOf smp p.length) p = pick b (maskOf smp' body.length) body) ∧
      (∀ c ∈ p ++ body, IsNumeral 10 c) ∧
      FpeLens "ff1" 10 (p.length - hiddenCount smp p.length) (hiddenCount smp p.length) ∧
      FpeLens "ff1" 10 (body.length - hiddenCount smp' body.length) (hiddenCount smp' body.length) := by
  refine ⟨Or.inl rfl, by decide, ?_, by unfold FpeLens; decide, by unfold FpeLens; decide⟩
  intro c hc
  unfold IsNumeral
  revert c
  decide

end Verif.Props
