import Verif.Model.FpeMacCtx
import Verif.Props.FpeMac

/-! C109: the tag kept in an FPE MAC context. -/
set_option autoImplicit false

namespace Verif.Props
open Verif Spec Model

theorem macCalls_append (lg : Nat → Nat → Nat) (ks : List MacCall) : ∀ (c : MacCtx) (js : List MacCall),
    macCalls lg c (ks ++ js) =
      (macCalls lg c ks).bind fun r => (macCalls lg r.2 js).map fun s => (r.1 ++ s.1, s.2) := by
  induction ks with
  | nil => intro c js; simp [macCalls]
  | cons k ks ih =>
    intro c js
    simp only [List.cons_append, macCalls]
    cases macCall lg c k with
    | none => rfl
    | some r =>
      simp only [Option.bind_some, ih]
      cases macCalls lg r.2 ks with
      | none => rfl
      | some q => cases h : macCalls lg q.2 js <;> simp [h]

theorem macCalls_fpe (lg : Nat → Nat → Nat) (ks : List MacCall) : ∀ (c c' : MacCtx) (outs : List (List Byte)),
    macCalls lg c ks = some (outs, c') → c'.fpe = c.fpe := by
  induction ks with
  | nil => intro c c' outs h; simp only [macCalls, Option.some.injEq, Prod.mk.injEq] at h; rw [h.2]
  | cons k ks ih =>
    intro c c' outs h
    simp only [macCalls, macCall] at h
    cases hk : k.result lg c.fpe with
    | none => simp [hk] at h
    | some r =>
      simp only [hk, Option.map_some, Option.bind_some] at h
      cases hs : macCalls lg ⟨c.fpe, r.2⟩ ks with
      | none => simp [hs] at h
      | some q =>
        simp only [hs, Option.map_some, Option.some.injEq, Prod.mk.injEq] at h
        have := ih _ q.2 q.1 hs
        rw [← h.2]; exact this

theorem macInit_some {found : Block} {tweak : List Byte} {radix : Nat} {E : Block → Block} {c : MacCtx}
    (hc : macInit found tweak radix E = some c) : fpeInit tweak radix E = some c.fpe ∧ c.tag = found := by
  unfold macInit at hc
  split at hc
  · cases hc
  · cases hf : fpeInit tweak radix E with
    | none => simp [hf] at hc
    | some f => simp only [hf, Option.map_some, Option.some.injEq] at hc; subst hc; exact ⟨rfl, rfl⟩

theorem macCall_of (lg : Nat → Nat → Nat) (c : MacCtx) (k : MacCall) {o : List Byte} {tag : Block}
    (h : k.result lg c.fpe = some (o, tag)) : macCall lg c k = some (o, ⟨c.fpe, tag⟩) := by
  simp only [macCall, h, Option.map_some]

/-- C109, CMAC: after any series of calls, an encryption followed by `finish` delivers the tag of that one text; either of
the two `finish` functions does, so a receiver that takes the wrong one is given no error.
(The hypotheses are those of `C51_cmac_tag`: `cn_1` is set, and the byte count is the exact one.) -/
theorem C109_cmac (found : Block) (tweak : List Byte) (radix : Nat) (E : Block → Block) (c c1 : MacCtx)
    (hc : macInit found tweak radix E = some c) (lg : Nat → Nat → Nat) (hlg : LgOk lg) (before : List MacCall)
    (outs : List (List Byte)) (hb : macCalls lg c before = some (outs, c1))
    (s rest out : List Byte) (hs : ∀ c ∈ s, IsNumeral radix c) (hn : 2 ≤ s.length) (hn' : s.length < 2 ^ 30)
    (hT : QOk lg tweak radix s.length)
    (hx : lg radix (s.length - s.length / 2) = Nat.clog 2 (radix ^ (s.length - s.length / 2)))
    (ho : s.length < out.length) (h2 : 16 < tweak.length + 1 + ff1b radix (s.length - s.length / 2))
    (junk : Nat → Block) (buf : List Byte) (len : Nat) (h16 : 16 ≤ buf.length) :
    ∃ o c2, macCall lg c1 (.cmacEnc junk (s ++ 0 :: rest) out) = some (o, c2) ∧
      ∀ finish ∈ [cmacFinish, gmacFinish],
        finish c2 buf len = some ((ff1CmacTag E radix tweak (s.map numeralVal)).toList ++ buf.drop 16, 16) := by
  obtain ⟨hf, -⟩ := macInit_some hc
  have e1 := macCalls_fpe lg before c c1 outs hb
  obtain ⟨o, h⟩ := C51_cmac_tag c.fpe tweak radix E hf lg hlg s rest out hs hn hn' hT hx ho h2 junk
  refine ⟨o, ⟨c.fpe, ff1CmacTag E radix tweak (s.map numeralVal)⟩, ?_, ?_⟩
  · simp only [macCall, MacCall.result, e1, h, Option.map_some]
  · simp [cmacFinish, gmacFinish, h16]

/-- C109, GMAC: the same for FF3, within the lengths of the standard. -/
theorem C109_gmac (found : Block) (tweak : List Byte) (radix : Nat) (E : Block → Block) (c c1 : MacCtx)
    (hc : macInit found tweak radix E = some c) (ht : 16 ≤ tweak.length) (lg : Nat → Nat → Nat) (hlg : LgOk lg)
    (before : List MacCall) (outs : List (List Byte)) (hb : macCalls lg c before = some (outs, c1))
    (s rest out : List Byte) (hs : ∀ c ∈ s, IsNumeral radix c) (hn : 1 ≤ s.length)
    (hmax : radix ^ ((s.length + 1) / 2) ≤ 2 ^ 96) (ho : s.length < out.length)
    (buf : List Byte) (len : Nat) (h16 : 16 ≤ buf.length) :
    ∃ o c2 tag, macCall lg c1 (.gmacEnc (s ++ 0 :: rest) out) = some (o, c2) ∧
      (∀ finish ∈ [cmacFinish, gmacFinish], finish c2 buf len = some (tag.toList ++ buf.drop 16, 16)) ∧
      toBV tag = ff3GmacTag E radix tweak (s.map numeralVal) := by
  obtain ⟨hf, -⟩ := macInit_some hc
  have e1 := macCalls_fpe lg before c c1 outs hb
  obtain ⟨o, tag, h, h'⟩ := C52_gmac_tag c.fpe tweak radix E hf ht lg hlg s rest out hs hn hmax ho
  refine ⟨o, ⟨c.fpe, tag⟩, tag, ?_, ?_, h'⟩
  · simp only [macCall, MacCall.result, e1, h, Option.map_some]
  · simp [cmacFinish, gmacFinish, h16]

/-- C109, one tag for a batch: of a series of calls the tag covers the last one only.  Whatever is done to the earlier texts,
in number, kind or content, and whatever memory held before, the tag stays the same. -/
theorem C109_batch (found found' : Block) (tweak : List Byte) (radix : Nat) (E : Block → Block) (c c' : MacCtx)
    (hc : macInit found tweak radix E = some c) (hc' : macInit found' tweak radix E = some c')
    (lg : Nat → Nat → Nat) (before before' : List MacCall) (last : MacCall) (outs outs' : List (List Byte))
    (d d' : MacCtx) (h : macCalls lg c (before ++ [last]) = some (outs, d))
    (h' : macCalls lg c' (before' ++ [last]) = some (outs', d')) (buf : List Byte) (len : Nat) :
    cmacFinish d buf len = cmacFinish d' buf len ∧ gmacFinish d buf len = gmacFinish d' buf len ∧
      outs.getLast? = outs'.getLast? := by
  obtain ⟨hf, -⟩ := macInit_some hc
  obtain ⟨hf', -⟩ := macInit_some hc'
  have e : c.fpe = c'.fpe := by rw [hf] at hf'; exact Option.some.inj hf'
  have key : ∀ (x y : MacCtx) (os : List (List Byte)) (ks : List MacCall),
      macCalls lg x (ks ++ [last]) = some (os, y) →
      ∃ r, last.result lg x.fpe = some r ∧ y = ⟨x.fpe, r.2⟩ ∧ os.getLast? = some r.1 := by
    intro x y os ks hx
    rw [macCalls_append] at hx
    cases hk : macCalls lg x ks with
    | none => simp [hk] at hx
    | some q =>
      have e1 := macCalls_fpe lg ks x q.2 q.1 hk
      cases hr : last.result lg x.fpe with
      | none => simp [hk, macCalls, macCall, e1, hr] at hx
      | some r =>
        simp only [hk, macCalls, macCall, e1, hr, Option.map_some, Option.bind_some, Option.some.injEq, Prod.mk.injEq] at hx
        exact ⟨r, rfl, hx.2.symm, by rw [← hx.1]; simp⟩
  obtain ⟨r, h1, h2, h3⟩ := key c d outs before h
  obtain ⟨r', h1', h2', h3'⟩ := key c' d' outs' before' h'
  rw [e] at h1
  have er : r = r' := by rw [h1] at h1'; exact Option.some.inj h1'
  subst er
  rw [h2, h2', h3, h3']
  exact ⟨rfl, rfl, rfl⟩

/-- C109, `finish` before any call: it reports success and sixteen bytes, which are what `malloc` found; any sixteen bytes
can be "the tag". -/
theorem C109_early (found : Block) (tweak : List Byte) (radix : Nat) (E : Block → Block) (hr : 2 ≤ radix ∧ radix ≤ 36)
    (buf : List Byte) (len : Nat) (h16 : 16 ≤ buf.length) :
    ∃ c, macInit found tweak radix E = some c ∧ cmacFinish c buf len = some (found.toList ++ buf.drop 16, 16) ∧
      gmacFinish c buf len = some (found.toList ++ buf.drop 16, 16) := by
  refine ⟨⟨⟨E, radix, tweak⟩, found⟩, ?_, ?_, ?_⟩
  · unfold macInit fpeInit
    rw [if_neg (by omega), if_neg (by omega)]
    rfl
  · simp [cmacFinish, h16]
  · simp [gmacFinish, h16]

/-- C109, capacity: the number of bytes announced in `*len` is not consulted; `finish` is defined exactly on buffers of
sixteen bytes or more. -/
theorem C109_capacity (c : MacCtx) (buf : List Byte) (len : Nat) :
    (cmacFinish c buf len = none ↔ buf.length < 16) ∧ (gmacFinish c buf len = none ↔ buf.length < 16) := by
  unfold cmacFinish gmacFinish
  constructor <;> split <;> simp <;> omega

/-- C109, CMAC decryption accepts everything: every string of numerals, sent by anyone, is decrypted and delivered, and the tag
left in the context is the one an encryption of the delivered text leaves.  No function compares it with a received tag. -/
theorem C109_cmac_unverified (found : Block) (tweak : List Byte) (radix : Nat) (E : Block → Block) (c : MacCtx)
    (hc : macInit found tweak radix E = some c) (lg : Nat → Nat → Nat) (hlg : LgOk lg)
    (ct rest rest' out out' : List Byte) (hs : ∀ c ∈ ct, IsNumeral radix c) (hn : 2 ≤ ct.length)
    (hT : QOk lg tweak radix ct.length) (ho : ct.length < out.length) (ho' : ct.length < out'.length) (junk : Nat → Block) :
    ∃ s d, s.length = ct.length ∧ (∀ c ∈ s, IsNumeral radix c) ∧
      macCall lg c (.cmacDec junk (ct ++ 0 :: rest) out) = some (s ++ 0 :: out.drop (ct.length + 1), d) ∧
      macCall lg c (.cmacEnc junk (s ++ 0 :: rest') out') = some (ct ++ 0 :: out'.drop (ct.length + 1), d) := by
  obtain ⟨hf, -⟩ := macInit_some hc
  obtain ⟨f, t⟩ := c
  simp only at hf
  unfold fpeInit at hf
  split at hf
  · cases hf
  · rename_i hr
    injection hf with hf
    subst hf
    have hr2 : 2 ≤ radix := by omega
    obtain ⟨h1, h2, h3⟩ := ff1Undo_ok ⟨E, radix, tweak⟩ lg hlg hr2 (vals ct) (vals_lt ct hs) (by rw [length_vals]; exact hn)
    rw [length_vals] at h1
    have hnum := chars_numeral (radix := radix) (by omega) _ h2
    have hlen : ((ff1Undo ⟨E, radix, tweak⟩ lg (vals ct)).map numeralChar).length = ct.length := by rw [List.length_map, h1]
    have hv : vals ((ff1Undo ⟨E, radix, tweak⟩ lg (vals ct)).map numeralChar) = ff1Undo ⟨E, radix, tweak⟩ lg (vals ct) :=
      vals_chars _ (fun d hd => by have := h2 d hd; simp only at this; omega)
    have hd := cmacDecrypt_eq ⟨E, radix, tweak⟩ lg hlg hr2 (by simp only; omega) junk _ rest out hnum (by rw [hlen]; exact hn)
      (by rw [hlen]; exact ho) (by rw [hlen]; exact hT)
    have he := cmacEncrypt_eq ⟨E, radix, tweak⟩ lg hlg hr2 junk _ rest' out' hnum (by rw [hlen]; exact hn)
      (by rw [hlen]; exact ho') (by rw [hlen]; exact hT)
    rw [hv, h3, chars_vals ct hs, hlen] at hd he
    exact ⟨_, _, hlen, hnum, macCall_of lg ⟨⟨E, radix, tweak⟩, t⟩ _ hd, macCall_of lg ⟨⟨E, radix, tweak⟩, t⟩ _ he⟩

/-- C109, GMAC decryption accepts everything. -/
theorem C109_gmac_unverified (found : Block) (tweak : List Byte) (radix : Nat) (E : Block → Block) (c : MacCtx)
    (hc : macInit found tweak radix E = some c) (ht : 16 ≤ tweak.length) (lg : Nat → Nat → Nat) (hlg : LgOk lg)
    (ct rest rest' out out' : List Byte) (hs : ∀ c ∈ ct, IsNumeral radix c) (hn : 1 ≤ ct.length)
    (ho : ct.length < out.length) (ho' : ct.length < out'.length) :
    ∃ s d, s.length = ct.length ∧ (∀ c ∈ s, IsNumeral radix c) ∧
      macCall lg c (.gmacDec (ct ++ 0 :: rest) out) = some (s ++ 0 :: out.drop (ct.length + 1), d) ∧
      macCall lg c (.gmacEnc (s ++ 0 :: rest') out') = some (ct ++ 0 :: out'.drop (ct.length + 1), d) := by
  obtain ⟨hf, -⟩ := macInit_some hc
  obtain ⟨f, t⟩ := c
  simp only at hf
  unfold fpeInit at hf
  split at hf
  · cases hf
  · rename_i hr
    injection hf with hf
    subst hf
    have hr2 : 2 ≤ radix := by omega
    obtain ⟨h1, h2, h3⟩ := ff3Undo_ok ⟨E, radix, tweak⟩ lg hlg hr2 (by simp only; omega) (vals ct) (vals_lt ct hs)
      (by rw [length_vals]; exact hn)
    rw [length_vals] at h1
    have hnum := chars_numeral (radix := radix) (by omega) _ h2
    have hlen : ((ff3Undo ⟨E, radix, tweak⟩ lg (vals ct)).map numeralChar).length = ct.length := by rw [List.length_map, h1]
    have hv : vals ((ff3Undo ⟨E, radix, tweak⟩ lg (vals ct)).map numeralChar) = ff3Undo ⟨E, radix, tweak⟩ lg (vals ct) :=
      vals_chars _ (fun d hd => by have := h2 d hd; simp only at this; omega)
    have hd := gmacDecrypt_eq ⟨E, radix, tweak⟩ lg hlg hr2 (by simp only; omega) ht _ rest out hnum (by rw [hlen]; exact hn)
      (by rw [hlen]; exact ho)
    have he := gmacEncrypt_eq ⟨E, radix, tweak⟩ lg hlg hr2 ht _ rest' out' hnum (by rw [hlen]; exact hn)
      (by rw [hlen]; exact ho')
    rw [hv, h3, chars_vals ct hs, hlen] at hd he
    exact ⟨_, _, hlen, hnum, macCall_of lg ⟨⟨E, radix, tweak⟩, t⟩ _ hd, macCall_of lg ⟨⟨E, radix, tweak⟩, t⟩ _ he⟩

/-- The hypotheses are met by a tweak of sixteen bytes, radix 10 and two calls before, one of each kind. -/
example (lg : Nat → Nat → Nat) (hlg : LgOk lg) (junk : Nat → Block) (found : Block) :
    ∃ c outs c1, macInit found (List.replicate 16 7) 10 id = some c ∧
      macCalls lg c [.cmacEnc junk [0x31, 0x32, 0] [0, 0, 0], .gmacEnc [0x33, 0x34, 0] [0, 0, 0]] = some (outs, c1) ∧
      16 < (List.replicate 16 (7 : Byte)).length + 1 + ff1b 10 (2 - 2 / 2) := by
  have hs1 : ∀ c ∈ ([0x31, 0x32] : List Byte), IsNumeral 10 c := by intro c hc; unfold IsNumeral; revert c; decide
  have hs2 : ∀ c ∈ ([0x33, 0x34] : List Byte), IsNumeral 10 c := by intro c hc; unfold IsNumeral; revert c; decide
  have hi : fpeInit (List.replicate 16 7) 10 id = some ⟨id, 10, List.replicate 16 7⟩ := rfl
  obtain ⟨ct, tag, -, h1, -, -⟩ := C51_cmac_roundtrip _ _ _ _ hi lg hlg [0x31, 0x32] [] [] [0, 0, 0] [0, 0, 0] hs1 (by decide)
    (Or.inl (by simp)) (by decide) (by decide)
  obtain ⟨ct', tag', -, h2, -⟩ := C52_gmac_roundtrip _ _ _ _ hi (by simp) lg hlg [0x33, 0x34] [] [] [0, 0, 0] [0, 0, 0] hs2
    (by decide) (by decide) (by decide)
  simp only [List.cons_append, List.nil_append] at h1 h2
  have hcalls : macCalls lg ⟨⟨id, 10, List.replicate 16 7⟩, found⟩
      [.cmacEnc junk [0x31, 0x32, 0] [0, 0, 0], .gmacEnc [0x33, 0x34, 0] [0, 0, 0]] =
      some ([ct ++ [0], ct' ++ [0]], ⟨⟨id, 10, List.replicate 16 7⟩, tag'⟩) := by
    unfold macCalls
    rw [macCall_of lg ⟨⟨id, 10, List.replicate 16 7⟩, found⟩ (.cmacEnc junk [0x31, 0x32, 0] [0, 0, 0]) (h1 junk)]
    simp only [Option.bind_some]
    unfold macCalls
    rw [macCall_of lg ⟨⟨id, 10, List.replicate 16 7⟩, tag junk⟩ (.gmacEnc [0x33, 0x34, 0] [0, 0, 0]) h2]
    rfl
  refine ⟨⟨⟨id, 10, List.replicate 16 7⟩, found⟩, _, _, rfl, hcalls, ?_⟩
  rw [List.length_replicate]
  have h4 : ff1b 10 (2 - 2 / 2) = 1 := by decide
  omega

end Verif.Props
