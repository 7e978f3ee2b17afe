import Verif.Spec.FpeMac
import Verif.Props.FpeNist
import Verif.Lemmas.GcmMult
import Mathlib.Data.Fintype.Pi
import Mathlib.Data.Fintype.BigOperators

/-! C51, C52: FF1 with CMAC and FF3 with GMAC. -/
set_option autoImplicit false

namespace Verif.Props
open Verif Spec Model

/-! ### exclusive or over lists of blocks -/

theorem foldl_xor_acc (l : List Block) : ∀ a : Block, l.foldl (fun a b => a ^^^ b) a = a ^^^ xorBlocks l := by
  induction l with
  | nil => intro a; exact (Vec.xor_zero a).symm
  | cons b l ih =>
    intro a
    rw [List.foldl_cons, ih]
    rw [show xorBlocks (b :: l) = l.foldl (fun a b => a ^^^ b) (zeroBlock ^^^ b) from rfl, ih,
      show zeroBlock = Vector.replicate 16 0 from rfl, Vec.zero_xor, Vec.xor_assoc]

theorem xorBlocks_cons (b : Block) (l : List Block) : xorBlocks (b :: l) = b ^^^ xorBlocks l := by
  unfold xorBlocks
  rw [List.foldl_cons, foldl_xor_acc, show zeroBlock = Vector.replicate 16 0 from rfl, Vec.zero_xor]
  rfl

theorem xorBlocks_append (l m : List Block) : xorBlocks (l ++ m) = xorBlocks l ^^^ xorBlocks m := by
  unfold xorBlocks
  rw [List.foldl_append, foldl_xor_acc m]
  rfl

theorem xorBlocks_reverse (l : List Block) : xorBlocks l.reverse = xorBlocks l := by
  induction l with
  | nil => rfl
  | cons b l ih =>
    rw [List.reverse_cons, xorBlocks_append, ih, xorBlocks_cons, xorBlocks_cons, Vec.xor_comm]
    congr 1
    exact Vec.xor_zero b

/-- Two lists of blocks that differ in one place have different sums. -/
theorem xorBlocks_single (l m : List Block) (b c : Block) (h : b ≠ c) :
    xorBlocks (l ++ b :: m) ≠ xorBlocks (l ++ c :: m) := by
  rw [xorBlocks_append, xorBlocks_append, xorBlocks_cons, xorBlocks_cons]
  intro e
  apply h
  have e2 := congrArg (fun x => xorBlocks l ^^^ x) e
  simp only [Vec.xor_cancel_left] at e2
  have e3 := congrArg (fun x => x ^^^ xorBlocks m) e2
  simpa only [Vec.xor_cancel_right] using e3

/-! ### the halves do not depend on the contribution -/

theorem fseq_congr {τ τ' : Type} (n u : Nat) (q : Nat → Nat) (num : List Nat → Nat) (str : Nat → Nat → List Nat)
    (f : Nat → Nat → Nat × τ) (g : Nat → Nat → Nat × τ') (h : ∀ i x, (f i x).1 = (g i x).1)
    (AB : List Nat × List Nat) (k : Nat) : fseq n u q num str f AB k = fseq n u q num str g AB k := by
  induction k with
  | zero => rfl
  | succ k ih => rw [fseq, fseq, ih, h]

/-! ### CMAC -/

theorem cmacLoop_fst (E : Block → Block) (c : Nat) : ∀ (R cn : Block) (Q : List Byte),
    (cmacLoop E c R cn Q).1 = ff1MacLoop E c R Q := by
  induction c with
  | zero => intro R cn Q; rfl
  | succ c ih => intro R cn Q; rw [cmacLoop, ff1MacLoop]; exact ih _ _ _

theorem cmacLoop_snd (E : Block → Block) (c : Nat) : ∀ (R cn : Block) (Q : List Byte),
    (cmacLoop E (c + 2) R cn Q).2 = ff1MacLoop E (c + 1) R Q := by
  induction c with
  | zero => intro R cn Q; rfl
  | succ c ih =>
    intro R cn Q
    rw [cmacLoop, ff1MacLoop]
    exact ih _ _ _

theorem macLoop_take (E : Block → Block) (c : Nat) : ∀ (R : Block) (Q : List Byte),
    ff1MacLoop E c R (Q.take (16 * c)) = ff1MacLoop E c R Q := by
  induction c with
  | zero => intro R Q; rfl
  | succ c ih =>
    intro R Q
    rw [ff1MacLoop, ff1MacLoop, List.drop_take, show 16 * (c + 1) - 16 = 16 * c by omega, ih]
    congr 3
    ext1 i h
    simp only [blockAt, Vector.getElem_ofFn, List.getD_eq_getElem?_getD]
    rw [List.getElem?_take_of_lt (by omega)]

theorem cmacLoop_one (E : Block → Block) (R cn : Block) (Q : List Byte) : (cmacLoop E 1 R cn Q).2 = cn := rfl

/-- The round function of FF1-CMAC as a total function. -/
def cmacFn (ctx : FpeCtx) (lg : Nat → Nat → Nat) (junk : Nat → Block) (n i x : Nat) : Nat × Block :=
  (cmacRoundY ctx lg (junk i) n i x).getD (0, zeroBlock)

theorem cmacRoundY_fst (ctx : FpeCtx) (lg : Nat → Nat → Nat) (junk : Block) (n i x : Nat) :
    (cmacRoundY ctx lg junk n i x).map Prod.fst = ff1RoundY ctx lg n i x := by
  unfold cmacRoundY ff1RoundY
  simp only
  cases ff1QBytes ctx.tweak (ff1B lg ctx.radix (n - floor2 n 1)) i x with
  | none => rfl
  | some Q =>
    simp only [Option.bind_some, cmacLoop_fst]
    cases ff1YOf ctx.E _ _ <;> rfl

theorem cmacFn_fst (ctx : FpeCtx) (lg : Nat → Nat → Nat) (junk : Nat → Block) (n i x : Nat) :
    (cmacFn ctx lg junk n i x).1 = (ff1Fn ctx lg n i x).1 := by
  unfold cmacFn ff1Fn ff1FOpt
  rw [← cmacRoundY_fst ctx lg (junk i) n i x]
  cases cmacRoundY ctx lg (junk i) n i x <;> rfl

theorem cmac_ok (ctx : FpeCtx) (lg : Nat → Nat → Nat) (hlg : LgOk lg) (junk : Nat → Block) (n : Nat) (hn : 2 ≤ n)
    (hr : 2 ≤ ctx.radix) :
    FeistelOk n (n / 2) ctx.radix (fun i => ctx.radix ^ halfLen n (n / 2) i) (fun X => str2num X ctx.radix)
      (fun x m => num2str x ctx.radix m) (fun i => cmacRoundY ctx lg (junk i) n i) (cmacFn ctx lg junk n) := by
  obtain ⟨c1, c2, c3, c4, c5⟩ := codec_msb ctx.radix hr
  refine ⟨hr, by omega, by omega, fun _ => rfl, c1, c2, c3, c4, c5, ?_⟩
  intro i x _ hx
  obtain ⟨y, hy⟩ := ff1RoundY_some ctx lg hlg n i x hr hx
  rw [← cmacRoundY_fst ctx lg (junk i)] at hy
  unfold cmacFn
  cases h : cmacRoundY ctx lg (junk i) n i x with
  | none => rw [h] at hy; cases hy
  | some p => rfl

theorem cmacEnc_round (ctx : FpeCtx) (lg : Nat → Nat → Nat) (junk : Nat → Block) (n : Nat) :
    cmacEncryptRound ctx lg junk n =
      encR n (n / 2) (fun i => ctx.radix ^ halfLen n (n / 2) i) (fun X => str2num X ctx.radix)
        (fun x m => num2str x ctx.radix m) (fun i => cmacRoundY ctx lg (junk i) n i) (fun (a b : Block) => a ^^^ b) := by
  funext sm i
  unfold cmacEncryptRound encR
  simp only [floor2_eq]
  rw [← halfLen]
  simp only [show (if halfLen n (n / 2) i = n / 2 then (powUv ctx.radix (n / 2) (n - n / 2)).1
          else (powUv ctx.radix (n / 2) (n - n / 2)).2) = ctx.radix ^ halfLen n (n / 2) i from q_ff1 _ _ _ _ rfl]

theorem cmacDec_round (ctx : FpeCtx) (lg : Nat → Nat → Nat) (junk : Nat → Block) (n : Nat) :
    cmacDecryptRound ctx lg junk n =
      decR n (n / 2) (fun i => ctx.radix ^ halfLen n (n / 2) i) (fun X => str2num X ctx.radix)
        (fun x m => num2str x ctx.radix m) (fun i => cmacRoundY ctx lg (junk i) n i) (fun (a b : Block) => a ^^^ b) := by
  funext sm i
  unfold cmacDecryptRound decR
  simp only [floor2_eq]
  rw [← halfLen]
  simp only [show (if halfLen n (n / 2) i = n / 2 then (powUv ctx.radix (n / 2) (n - n / 2)).1
          else (powUv ctx.radix (n / 2) (n - n / 2)).2) = ctx.radix ^ halfLen n (n / 2) i from q_ff1 _ _ _ _ rfl]

/-- What round `i` adds to the tag of the model. -/
def cmacTrace (ctx : FpeCtx) (lg : Nat → Nat → Nat) (junk : Nat → Block) (X : List Nat) (i : Nat) : Block :=
  ftrace X.length (X.length / 2) (fun i => ctx.radix ^ halfLen X.length (X.length / 2) i)
    (fun X => str2num X ctx.radix) (fun x m => num2str x ctx.radix m) (cmacFn ctx lg junk X.length)
    (X.take (X.length / 2), X.drop (X.length / 2)) i

theorem cmac_out (ctx : FpeCtx) (lg : Nat → Nat → Nat) (junk : Nat → Block) (X : List Nat) :
    fenc X.length (X.length / 2) (fun i => ctx.radix ^ halfLen X.length (X.length / 2) i)
      (fun X => str2num X ctx.radix) (fun x m => num2str x ctx.radix m) (cmacFn ctx lg junk X.length) 10 X =
    ff1Out ctx lg X := by
  unfold ff1Out fenc
  simp only
  rw [fseq_congr _ _ _ _ _ _ (ff1Fn ctx lg X.length) (cmacFn_fst ctx lg junk X.length)]

theorem cmacEncrypt_eq (ctx : FpeCtx) (lg : Nat → Nat → Nat) (hlg : LgOk lg) (hr : 2 ≤ ctx.radix)
    (junk : Nat → Block) (s rest out : List Byte) (hs : ∀ c ∈ s, IsNumeral ctx.radix c) (hn : 2 ≤ s.length)
    (ho : s.length < out.length) (hT : QOk lg ctx.tweak ctx.radix s.length) :
    cmacEncrypt ctx lg junk (s ++ 0 :: rest) out =
      some ((ff1Out ctx lg (vals s)).map numeralChar ++ 0 :: out.drop (s.length + 1),
        xorBlocks ((List.range 10).map (cmacTrace ctx lg junk (vals s)))) := by
  have ok := cmac_ok ctx lg hlg junk s.length hn hr
  have hl := length_vals s
  have hv := vals_lt s hs
  unfold cmacEncrypt
  rw [cstr_append s rest (fun c hc => numeral_ne_zero c (hs c hc))]
  simp only [Option.bind_some, ff1Assert_ok lg ctx.tweak ctx.radix s.length hT]
  rw [cmacEnc_round, map_mapChar s hs, floor2_eq, engine_enc ok _ 10 (by decide) rfl _ hl hv]
  simp only [Option.bind_some, fpeStart]
  have h1 := (fenc_ok ok 10 _ hl hv).1
  rw [invMapChars_eq _ _ (by rw [h1]; exact ho), h1]
  simp only [Option.bind_some]
  rw [← cmac_out ctx lg junk]
  unfold cmacTrace
  rw [hl]
  rfl

theorem cmacDecrypt_eq (ctx : FpeCtx) (lg : Nat → Nat → Nat) (hlg : LgOk lg) (hr : 2 ≤ ctx.radix)
    (hr' : ctx.radix ≤ 36)
    (junk : Nat → Block) (s rest out : List Byte) (hs : ∀ c ∈ s, IsNumeral ctx.radix c) (hn : 2 ≤ s.length)
    (ho : s.length < out.length) (hT : QOk lg ctx.tweak ctx.radix s.length) :
    cmacDecrypt ctx lg junk ((ff1Out ctx lg (vals s)).map numeralChar ++ 0 :: rest) out =
      some (s ++ 0 :: out.drop (s.length + 1),
        xorBlocks ((List.range 10).map (cmacTrace ctx lg junk (vals s)))) := by
  have hl := length_vals s
  have hv := vals_lt s hs
  have ok := cmac_ok ctx lg hlg junk (vals s).length (by rw [hl]; exact hn) hr
  obtain ⟨h1, h2, h3⟩ := ff1Out_ok ctx lg hlg hr (vals s) hv (by rw [hl]; exact hn)
  have hc := chars_numeral hr' _ h2
  unfold cmacDecrypt
  rw [cstr_append _ rest (fun c hcc => numeral_ne_zero c (hc c hcc))]
  simp only [Option.bind_some]
  rw [List.length_map, h1]
  simp only [Option.bind_some, ff1Assert_ok lg ctx.tweak ctx.radix (vals s).length (by rw [hl]; exact hT)]
  rw [cmacDec_round, map_mapChar _ hc, vals_chars _ (fun d hd => by have := h2 d hd; omega), floor2_eq,
    ← cmac_out ctx lg junk, engine_dec ok _ 10 (by decide) rfl _ rfl hv]
  simp only [Option.bind_some, fpeStart]
  rw [invMapChars_eq _ _ (by rw [hl]; exact ho), chars_vals s hs, hl]
  simp only [Option.bind_some]
  rw [List.map_reverse]
  have e := xorBlocks_reverse ((List.range 10).map (cmacTrace ctx lg junk (vals s)))
  unfold xorBlocks cmacTrace at e ⊢
  rw [hl] at e ⊢
  rw [e]

/-! #### the tag -/

theorem length_ff1QBytes (tweak : List Byte) (b i x : Nat) (Q : List Byte) (h : ff1QBytes tweak b i x = some Q) :
    Q.length = tweak.length + ff1Pad tweak.length b + 1 + b := by
  unfold ff1QBytes at h
  simp only at h
  split at h
  · cases h
  · injection h with h
    subst h
    simp only [List.length_append, List.length_replicate, List.length_singleton]
    omega

/-- With two or more blocks of `Q` the round does not read the uninitialised array. -/
theorem cmacRoundY_junk (ctx : FpeCtx) (lg : Nat → Nat → Nat) (j1 j2 : Block) (n i x : Nat)
    (h : 16 < ctx.tweak.length + 1 + ff1B lg ctx.radix (n - n / 2)) :
    cmacRoundY ctx lg j1 n i x = cmacRoundY ctx lg j2 n i x := by
  unfold cmacRoundY
  simp only [floor2_eq]
  cases hq : ff1QBytes ctx.tweak (ff1B lg ctx.radix (n - n / 2)) i x with
  | none => rfl
  | some Q =>
    simp only [Option.bind_some]
    have hl := length_ff1QBytes _ _ _ _ _ hq
    obtain ⟨c, hc⟩ : ∃ c, Q.length / 16 = c + 2 := by
      have := ff1Pad_eq ctx.tweak.length (ff1B lg ctx.radix (n - n / 2))
      exact ⟨Q.length / 16 - 2, by omega⟩
    rw [hc, cmacLoop_snd, cmacLoop_snd, cmacLoop_fst, cmacLoop_fst]

theorem cmacTrace_junk (ctx : FpeCtx) (lg : Nat → Nat → Nat) (j1 j2 : Nat → Block) (X : List Nat) (i : Nat)
    (h : 16 < ctx.tweak.length + 1 + ff1B lg ctx.radix (X.length - X.length / 2)) :
    cmacTrace ctx lg j1 X i = cmacTrace ctx lg j2 X i := by
  have e : cmacFn ctx lg j1 X.length = cmacFn ctx lg j2 X.length := by
    funext i x
    unfold cmacFn
    rw [cmacRoundY_junk ctx lg (j1 i) (j2 i) _ _ _ h]
  unfold cmacTrace
  rw [e]

theorem byte_carry (b : Byte) : (if b &&& 0x80 ≠ 0 then 1 else 0 : Byte) = b >>> 7 := by revert b; decide

theorem byte_shl_bit (a c : Byte) (j : Nat) (hj : j < 8) :
    ((a <<< 1) ||| (c >>> 7)).getLsbD j = if j = 0 then c.getLsbD 7 else a.getLsbD (j - 1) := by
  simp only [BitVec.getLsbD_or, BitVec.getLsbD_shiftLeft, BitVec.getLsbD_ushiftRight]
  by_cases h : j = 0
  · subst h; simp
  · have : c.getLsbD (7 + j) = false := BitVec.getLsbD_of_ge _ _ (by omega)
    rw [this, if_neg h]
    simp [hj, show ¬ j < 1 by omega]

theorem toBV_leftShift (x : Block) : toBV (leftShift x) = toBV x <<< 1 := by
  apply BitVec.eq_of_getLsbD_eq
  intro k hk
  rw [BitVec.getLsbD_shiftLeft, toBV_getLsbD _ k hk]
  unfold leftShift
  simp only [Vector.getElem_ofFn, byte_carry]
  by_cases h8 : k < 8
  · have e : 15 - k / 8 = 15 := by omega
    simp only [e]
    rw [dif_neg (by omega)]
    refine (byte_shl_bit _ 0 (k % 8) (by omega)).trans ?_
    by_cases h0 : k = 0
    · subst h0; simp
    · rw [if_neg (by omega), toBV_getLsbD _ _ (by omega)]
      have e1 : 15 - (k - 1) / 8 = 15 := by omega
      have e2 : (k - 1) % 8 = k % 8 - 1 := by omega
      simp [hk, show ¬ k < 1 by omega, e1, e2]
  · rw [dif_pos (by omega), byte_shl_bit _ _ _ (by omega), toBV_getLsbD _ (k - 1) (by omega)]
    by_cases h0 : k % 8 = 0
    · have e1 : 15 - (k - 1) / 8 = 15 - k / 8 + 1 := by omega
      have e2 : (k - 1) % 8 = 7 := by omega
      simp [hk, h0, show ¬ k < 1 by omega, e1, e2]
    · have e1 : 15 - (k - 1) / 8 = 15 - k / 8 := by omega
      have e2 : (k - 1) % 8 = k % 8 - 1 := by omega
      simp [hk, h0, show ¬ k < 1 by omega, e1, e2]

theorem set15_xor (x : Block) : x.set 15 (x[15] ^^^ 0x87) = x ^^^ ofBV 0x87#128 := by
  have e : ofBV 0x87#128 = #v[0, 0, 0, 0, 0, 0, 0, 0, 0, 0, 0, 0, 0, 0, 0, 0x87] := by decide
  rw [e]
  ext1 i h
  rw [Vec.getElem_xor]
  rcases i with _ | _ | _ | _ | _ | _ | _ | _ | _ | _ | _ | _ | _ | _ | _ | _ | i
  all_goals first | omega | simp

theorem toBV_msb (x : Block) : (toBV x).msb = decide (x[0] &&& 0x80 ≠ 0) := by
  rw [BitVec.msb_eq_getLsbD_last, toBV_getLsbD _ _ (by decide)]
  have : ∀ b : Byte, b.getLsbD 7 = decide (b &&& 0x80 ≠ 0) := by decide
  exact this _

/-- C51: the key `K1` mixed into the tag is the first subkey of CMAC. -/
theorem C51_cmac_subkey (E : Block → Block) : cmacK1 E = cmacKey1 E := by
  apply toBV_injective
  unfold cmacK1 cmacKey1 cmacDbl
  rw [toBV_ofBV, toBV_msb]
  simp only [decide_eq_true_eq]
  split
  · rw [set15_xor, toBV_xor, toBV_leftShift, toBV_ofBV]
  · rw [toBV_leftShift]

theorem cmacLast_eq (K1 R cn : Block) (i : Nat) :
    cmacLast K1 R cn i = K1 ^^^ Vector.replicate 16 (R.toList.getD i 0 ^^^ cn.toList.getD i 0) := by
  ext1 j h
  unfold cmacLast
  rw [Vec.getElem_xor, Vector.getElem_ofFn, Vector.getElem_replicate, BitVec.xor_assoc]
  have e : ∀ v : Block, v.getD i 0 = v.toList.getD i 0 := by
    intro v
    by_cases hi : i < 16
    · simp [Vector.getD, Array.getD, hi, List.getD_eq_getElem?_getD]
    · simp [Vector.getD, Array.getD, hi, List.getD_eq_getElem?_getD]
  rw [e, e]
  rfl

/-- Every contribution is the encryption of the subkey xor one repeated byte. -/
theorem cmacTrace_byte (ctx : FpeCtx) (lg : Nat → Nat → Nat) (hlg : LgOk lg) (hr : 2 ≤ ctx.radix)
    (junk : Nat → Block) (X : List Nat) (hX : ∀ d ∈ X, d < ctx.radix) (hn : 2 ≤ X.length) (i : Nat) (hi : i < 10) :
    ∃ z : Byte, cmacTrace ctx lg junk X i = ctx.E (cmacKey1 ctx.E ^^^ Vector.replicate 16 z) := by
  have ok := cmac_ok ctx lg hlg junk X.length hn hr
  obtain ⟨h1, h2, h3, h4⟩ := fseq_halves ok _ (halves_split ok 0 rfl X rfl hX) i
  have hF := F_def ok i hi _ h2 h4
  unfold cmacTrace ftrace
  dsimp only at hF ⊢
  revert hF
  generalize hx : str2num _ ctx.radix = x
  intro hF
  unfold cmacRoundY at hF
  simp only at hF
  cases hq : ff1QBytes ctx.tweak (ff1B lg ctx.radix (X.length - floor2 X.length 1)) i x with
  | none => rw [hq] at hF; cases hF
  | some Q =>
    rw [hq] at hF
    simp only [Option.bind_some] at hF
    cases hy : ff1YOf ctx.E (cmacLoop ctx.E (Q.length / 16) (ctx.E (ff1PBlock ctx.radix (floor2 X.length 1) X.length ctx.tweak.length)) (junk i) Q).1 (ff1D (ff1B lg ctx.radix (X.length - floor2 X.length 1))) with
    | none => rw [hy] at hF; cases hF
    | some y =>
      rw [hy] at hF
      simp only [Option.bind_some, Option.some.injEq, Prod.mk.injEq] at hF
      rw [← hF.2, cmacLast_eq, C51_cmac_subkey]
      exact ⟨_, rfl⟩

/-- C51, FF1-CMAC round trip: for every context made by `fpe_init`, every numeral string of at least two
characters and whatever the uninitialised memory holds, the ciphertext is the FF1 ciphertext and decryption
returns the plaintext; when tweak, round number and half-string fill more than one block, both sides
produce the same tag, which does not depend on the uninitialised memory. -/
theorem C51_cmac_roundtrip (ctx : FpeCtx) (tweak : List Byte) (radix : Nat) (E : Block → Block)
    (hc : fpeInit tweak radix E = some ctx) (lg : Nat → Nat → Nat) (hlg : LgOk lg)
    (s rest rest' out out' : List Byte) (hs : ∀ c ∈ s, IsNumeral radix c) (hn : 2 ≤ s.length)
    (hT : QOk lg tweak radix s.length) (ho : s.length < out.length) (ho' : s.length < out'.length) :
    ∃ (ct : List Byte) (tag : (Nat → Block) → Block),
      ff1Encrypt ctx lg (s ++ 0 :: rest) out = some (ct ++ 0 :: out.drop (s.length + 1)) ∧
      (∀ junk, cmacEncrypt ctx lg junk (s ++ 0 :: rest) out =
        some (ct ++ 0 :: out.drop (s.length + 1), tag junk)) ∧
      (∀ junk, cmacDecrypt ctx lg junk (ct ++ 0 :: rest') out' =
        some (s ++ 0 :: out'.drop (s.length + 1), tag junk)) ∧
      (16 < tweak.length + 1 + (lg radix (s.length - s.length / 2) + 7) / 8 →
        ∀ junk junk', tag junk = tag junk') := by
  unfold fpeInit at hc
  split at hc
  · cases hc
  · rename_i hr
    injection hc with hc
    subst hc
    have hr2 : 2 ≤ radix := by omega
    refine ⟨(ff1Out ⟨E, radix, tweak⟩ lg (vals s)).map numeralChar,
      fun junk => xorBlocks ((List.range 10).map (cmacTrace ⟨E, radix, tweak⟩ lg junk (vals s))),
      ff1Encrypt_eq _ lg hlg hr2 s rest out hs hn ho hT,
      fun junk => cmacEncrypt_eq _ lg hlg hr2 junk s rest out hs hn ho hT,
      fun junk => cmacDecrypt_eq _ lg hlg hr2 (by simp only; omega) junk s rest' out' hs hn ho' hT, ?_⟩
    intro h junk junk'
    simp only
    congr 1
    apply List.map_congr_left
    intro i _
    apply cmacTrace_junk
    rw [length_vals]
    unfold ff1B
    rw [ceil2_eq]
    exact h

/-- The hypotheses, with more than one block: 18 decimal digits and a tweak of 12 bytes. -/
example : fpeInit (List.replicate 12 7) 10 id = some ⟨id, 10, List.replicate 12 7⟩ ∧
    16 < (List.replicate 12 (7 : Byte)).length + 1 + (Nat.clog 2 (10 ^ (18 - 18 / 2)) + 7) / 8 :=
  ⟨rfl, by decide⟩

theorem xorBlocks_map_ne (l : List Nat) (f g : Nat → Block) (i : Nat) (hi : i ∈ l) (hd : l.Nodup)
    (h : ∀ j, j ≠ i → f j = g j) (hne : f i ≠ g i) : xorBlocks (l.map f) ≠ xorBlocks (l.map g) := by
  obtain ⟨a, b, rfl⟩ := List.append_of_mem hi
  have hd' := List.nodup_append.mp hd
  have ha : ∀ x ∈ a, x ≠ i := fun x hx => hd'.2.2 x hx i (by simp)
  have hb : ∀ x ∈ b, x ≠ i := by
    intro x hx e
    subst e
    exact (List.nodup_cons.mp hd'.2.1).1 hx
  rw [List.map_append, List.map_append, List.map_cons, List.map_cons,
    List.map_congr_left (fun x hx => h x (ha x hx)), List.map_congr_left (fun x hx => h x (hb x hx))]
  exact xorBlocks_single _ _ _ _ hne

/-- C51, short inputs: when tweak, round number and half-string fit in one block, the array `cn_1` is read
uninitialised, and changing the one byte of it that round `i` reads changes the tag, for every
injective block function. -/
theorem C51_cmac_uninitialised (ctx : FpeCtx) (tweak : List Byte) (radix : Nat) (E : Block → Block)
    (hE : Function.Injective E)
    (hc : fpeInit tweak radix E = some ctx) (lg : Nat → Nat → Nat) (hlg : LgOk lg)
    (s rest out : List Byte) (hs : ∀ c ∈ s, IsNumeral radix c) (hn : 2 ≤ s.length)
    (hT : QOk lg tweak radix s.length) (ho : s.length < out.length)
    (hone : tweak.length + 1 + (lg radix (s.length - s.length / 2) + 7) / 8 ≤ 16)
    (junk junk' : Nat → Block) (i : Nat) (hi : i < 10) (hj : ∀ k, k ≠ i → junk k = junk' k)
    (hne : (junk i).toList.getD i 0 ≠ (junk' i).toList.getD i 0) :
    ∃ ct tag tag', cmacEncrypt ctx lg junk (s ++ 0 :: rest) out = some (ct, tag) ∧
      cmacEncrypt ctx lg junk' (s ++ 0 :: rest) out = some (ct, tag') ∧ tag ≠ tag' := by
  unfold fpeInit at hc
  split at hc
  · cases hc
  · rename_i hr
    injection hc with hc
    subst hc
    have hr2 : 2 ≤ radix := by omega
    refine ⟨_, _, _, cmacEncrypt_eq _ lg hlg hr2 junk s rest out hs hn ho hT,
      cmacEncrypt_eq _ lg hlg hr2 junk' s rest out hs hn ho hT, ?_⟩
    have hl := length_vals s
    have hv := vals_lt s hs
    generalize vals s = X at hl hv
    rw [← hl] at hn hone
    -- the halves agree
    have hh : ∀ k, fseq X.length (X.length / 2) (fun i => radix ^ halfLen X.length (X.length / 2) i)
        (fun X => str2num X radix) (fun x m => num2str x radix m) (cmacFn ⟨E, radix, tweak⟩ lg junk X.length)
        (X.take (X.length / 2), X.drop (X.length / 2)) k =
      fseq X.length (X.length / 2) (fun i => radix ^ halfLen X.length (X.length / 2) i)
        (fun X => str2num X radix) (fun x m => num2str x radix m) (cmacFn ⟨E, radix, tweak⟩ lg junk' X.length)
        (X.take (X.length / 2), X.drop (X.length / 2)) k := by
      intro k
      apply fseq_congr
      intro i x
      rw [cmacFn_fst, cmacFn_fst]
    refine xorBlocks_map_ne _ _ _ i (List.mem_range.mpr hi) List.nodup_range ?_ ?_
    · intro k hk
      unfold cmacTrace ftrace
      rw [hh k]
      unfold cmacFn
      rw [hj k hk]
    · have ok := cmac_ok ⟨E, radix, tweak⟩ lg hlg junk X.length hn hr2
      obtain ⟨h1, h2, h3, h4⟩ := fseq_halves ok _ (halves_split ok 0 rfl X rfl hv) i
      unfold cmacTrace ftrace
      rw [← hh i]
      simp only at h2 h4 ⊢
      have hx := str2num_lt radix _ h4
      rw [h2] at hx
      revert hx
      generalize str2num _ radix = x
      intro hx
      have hfit := ff1_fits lg hlg radix X.length i x hr2 hx
      unfold cmacFn cmacRoundY
      simp only [floor2_eq]
      rw [ff1QBytes_some _ _ _ _ hfit]
      simp only [Option.bind_some]
      have hB : ff1B lg radix (X.length - X.length / 2) = (lg radix (X.length - X.length / 2) + 7) / 8 :=
        ceil2_eq _ _
      have hlen : (tweak ++ List.replicate (ff1Pad tweak.length (ff1B lg radix (X.length - X.length / 2))) 0 ++
          [BitVec.ofNat 8 i] ++ bytesOf (ff1B lg radix (X.length - X.length / 2)) x).length / 16 = 1 := by
        simp only [List.length_append, List.length_replicate, List.length_singleton, length_bytesOf]
        rw [ff1Pad_eq]
        omega
      rw [hlen, cmacLoop_one, cmacLoop_one, cmacLoop_fst, cmacLoop_fst, ff1YOf_some]
      simp only [Option.bind_some, Option.getD_some]
      intro e
      have e := hE e
      rw [cmacLast_eq, cmacLast_eq] at e
      have e := congrArg (fun v => cmacK1 E ^^^ v) e
      simp only [Vec.xor_cancel_left] at e
      have e := congrArg (fun v : Block => v[0]) e
      simp only [Vector.getElem_replicate] at e
      exact hne (by simpa using e)

/-- The hypotheses are met by an 11-digit number and an empty tweak. -/
example : ([] : List Byte).length + 1 + (Nat.clog 2 (10 ^ (11 - 11 / 2)) + 7) / 8 ≤ 16 := by decide

theorem byte_fin (b : Byte) : ∃ w : Fin 256, BitVec.ofNat 8 w.1 = b :=
  ⟨⟨b.toNat, by omega⟩, by simp⟩

/-- C51, tag space: for one block function at most `2^80` of the `2^128` tags occur, over all tweaks,
radices, inputs and contents of uninitialised memory, because every round contributes a single byte. -/
theorem C51_cmac_tag_space (E : Block → Block) : ∃ S : Finset Block, S.card ≤ 2 ^ 80 ∧
    ∀ (ctx : FpeCtx) (tweak : List Byte) (radix : Nat) (_ : fpeInit tweak radix E = some ctx)
      (lg : Nat → Nat → Nat) (_ : LgOk lg) (s rest out : List Byte) (_ : ∀ c ∈ s, IsNumeral radix c)
      (_ : 2 ≤ s.length) (_ : QOk lg tweak radix s.length) (_ : s.length < out.length) (junk : Nat → Block),
      ∃ o tag, cmacEncrypt ctx lg junk (s ++ 0 :: rest) out = some (o, tag) ∧ tag ∈ S := by
  refine ⟨(Finset.univ : Finset (Fin 10 → Fin 256)).image fun z =>
    xorBlocks ((List.range 10).map fun i => E (cmacKey1 E ^^^
      Vector.replicate 16 (BitVec.ofNat 8 (if h : i < 10 then (z ⟨i, h⟩).1 else 0)))), ?_, ?_⟩
  · refine Nat.le_trans Finset.card_image_le ?_
    rw [Finset.card_univ, Fintype.card_fun, Fintype.card_fin, Fintype.card_fin]
    decide
  · intro ctx tweak radix hc lg hlg s rest out hs hn hT ho junk
    unfold fpeInit at hc
    split at hc
    · cases hc
    · rename_i hr
      injection hc with hc
      subst hc
      have hr2 : 2 ≤ radix := by omega
      refine ⟨_, _, cmacEncrypt_eq _ lg hlg hr2 junk s rest out hs hn ho hT, ?_⟩
      have hz := cmacTrace_byte ⟨E, radix, tweak⟩ lg hlg hr2 junk (vals s) (vals_lt s hs)
        (by rw [length_vals]; exact hn)
      have hz' : ∃ z : Fin 10 → Fin 256, ∀ i (h : i < 10), cmacTrace ⟨E, radix, tweak⟩ lg junk (vals s) i =
          E (cmacKey1 E ^^^ Vector.replicate 16 (BitVec.ofNat 8 (z ⟨i, h⟩).1)) := by
        have h := Classical.axiomOfChoice (r := fun (i : Fin 10) (w : Fin 256) =>
          cmacTrace ⟨E, radix, tweak⟩ lg junk (vals s) i.1 =
            E (cmacKey1 E ^^^ Vector.replicate 16 (BitVec.ofNat 8 w.1))) (fun i => by
              obtain ⟨b, hb⟩ := hz i.1 i.2
              obtain ⟨w, rfl⟩ := byte_fin b
              exact ⟨w, hb⟩)
        obtain ⟨z, h⟩ := h
        exact ⟨z, fun i hi => h ⟨i, hi⟩⟩
      simp only [Finset.mem_image, Finset.mem_univ, true_and]
      obtain ⟨z, hz⟩ := hz'
      refine ⟨z, ?_⟩
      congr 1
      apply List.map_congr_left
      intro i hi
      rw [List.mem_range] at hi
      rw [dif_pos hi, hz i hi]

/-- C51, the tag: with more than one block and the exact number of bits per half, the tag is the one
defined over the rounds of the standard by `ff1CmacTag`. -/
theorem C51_cmac_tag (ctx : FpeCtx) (tweak : List Byte) (radix : Nat) (E : Block → Block)
    (hc : fpeInit tweak radix E = some ctx) (lg : Nat → Nat → Nat) (hlg : LgOk lg)
    (s rest out : List Byte) (hs : ∀ c ∈ s, IsNumeral radix c) (hn : 2 ≤ s.length) (hn' : s.length < 2 ^ 30)
    (hT : QOk lg tweak radix s.length)
    (hx : lg radix (s.length - s.length / 2) = Nat.clog 2 (radix ^ (s.length - s.length / 2)))
    (ho : s.length < out.length)
    (h2 : 16 < tweak.length + 1 + ff1b radix (s.length - s.length / 2)) (junk : Nat → Block) :
    ∃ o, cmacEncrypt ctx lg junk (s ++ 0 :: rest) out = some (o, ff1CmacTag E radix tweak (s.map numeralVal)) := by
  unfold fpeInit at hc
  split at hc
  · cases hc
  · rename_i hr
    injection hc with hc
    subst hc
    have hr2 : 2 ≤ radix := by omega
    rw [cmacEncrypt_eq _ lg hlg hr2 junk s rest out hs hn ho hT]
    refine ⟨_, congrArg (fun t => some (_, t)) ?_⟩
    unfold ff1CmacTag
    congr 1
    apply List.map_congr_left
    intro i hi
    rw [List.mem_range] at hi
    have hl := length_vals s
    have hv := vals_lt s hs
    show _ = ff1CmacPart E radix (vals s).length tweak i (ff1Half E radix tweak (vals s) i).2
    generalize vals s = X at hl hv
    rw [← hl] at hn hn' hx h2
    have ok := cmac_ok ⟨E, radix, tweak⟩ lg hlg junk X.length hn hr2
    obtain ⟨h1, h2', h3, h4⟩ := fseq_halves ok _ (halves_split ok 0 rfl X rfl hv) i
    unfold cmacTrace ftrace
    rw [fseq_congr _ _ _ _ _ _ (ff1Fn ⟨E, radix, tweak⟩ lg X.length) (cmacFn_fst _ lg junk X.length),
      fseq_ff1 ⟨E, radix, tweak⟩ lg hlg X.length hr2 (by simp only; omega) hn hn' hx _
        (halves_split ok 0 rfl X rfl hv)] at h2' h4 ⊢
    show _ = ff1CmacPart E radix X.length tweak i (ff1Half E radix tweak X i).2
    change (ff1Half E radix tweak X i).2.length = _ at h2'
    change ∀ d ∈ (ff1Half E radix tweak X i).2, d < radix at h4
    show (cmacFn ⟨E, radix, tweak⟩ lg junk X.length i (str2num (ff1Half E radix tweak X i).2 radix)).2 = _
    generalize (ff1Half E radix tweak X i).2 = B at h2' h4
    have hlt := str2num_lt radix B h4
    rw [h2'] at hlt
    have hfit := ff1_fits lg hlg radix X.length i _ hr2 hlt
    unfold cmacFn cmacRoundY ff1CmacPart
    simp only [floor2_eq]
    rw [ff1QBytes_some _ _ _ _ hfit]
    simp only [Option.bind_some]
    rw [ff1B_eq lg _ _ hx]
    have eQ : tweak ++ List.replicate (ff1Pad tweak.length (ff1b radix (X.length - X.length / 2))) 0 ++
          [BitVec.ofNat 8 i] ++ bytesOf (ff1b radix (X.length - X.length / 2)) (str2num B radix) =
        ff1Q radix X.length tweak i B := by
      unfold ff1Q
      simp only [str2num_eq, ff1Pad_eq, bytesOf_one]
    rw [eQ]
    have hQ : (ff1Q radix X.length tweak i B).length % 16 = 0 ∧ 32 ≤ (ff1Q radix X.length tweak i B).length := by
      unfold ff1Q
      simp only [List.length_append, List.length_replicate, length_bytesOf]
      omega
    generalize ff1Q radix X.length tweak i B = Q at hQ
    obtain ⟨hQ1, hQ2⟩ := hQ
    obtain ⟨c, hcc⟩ : ∃ c, Q.length / 16 = c + 2 := ⟨Q.length / 16 - 2, by omega⟩
    rw [← pBlock_toList, List.take_append, List.take_of_length_le (by simp; omega), prf_append _ _ _ hQ1,
      prf_append _ _ _ (by rw [List.length_take, List.length_append, Vector.length_toList]; omega),
      List.length_take, List.length_append, Vector.length_toList, hcc, cmacLoop_fst, cmacLoop_snd, ff1YOf_some]
    simp only [Option.bind_some, Option.getD_some]
    rw [cmacLast_eq, C51_cmac_subkey, show min (16 + Q.length - 16 - 16) Q.length / 16 = c + 1 by omega,
      show 16 + Q.length - 16 - 16 = 16 * (c + 1) by omega, macLoop_take]

/-! ### GMAC -/

theorem horner_xor (y : BitVec 128) (a : List Bool) : ∀ b : List Bool, a.length = b.length →
    horner y (List.zipWith (fun p q => p ^^ q) a b) = horner y a ^^^ horner y b := by
  induction a with
  | nil =>
    intro b h
    cases b with
    | nil => simp [horner]
    | cons q b => simp at h
  | cons p a ih =>
    intro b h
    cases b with
    | nil => simp at h
    | cons q b =>
      have h' : a.length = b.length := by simpa using h
      have e := ih b h'
      simp only [horner, List.zipWith_cons_cons, List.foldr_cons] at e ⊢
      rw [e, mulx_xor]
      cases p <;> cases q <;> simp [sel] <;> try ac_rfl
      generalize mulx _ = u
      generalize mulx _ = v
      have : u ^^^ y ^^^ (v ^^^ y) = u ^^^ v ^^^ (y ^^^ y) := by ac_rfl
      rw [this]
      simp

/-- Multiplication in the field is linear in its first argument. -/
theorem gfMul_xor (a b h : BitVec 128) : gfMul (a ^^^ b) h = gfMul a h ^^^ gfMul b h := by
  rw [gfMul_eq_horner, gfMul_eq_horner, gfMul_eq_horner, ← horner_xor _ _ _ (by simp [msbBits])]
  congr 1
  unfold msbBits
  rw [List.zipWith_map, List.zipWith_self]
  apply List.map_congr_left
  intro k hk
  rw [List.mem_range] at hk
  simp [BitVec.getMsbD_xor]

theorem gmacMultH_eq (E : Block → Block) (x : Block) :
    toBV (gmacMultH (gmacGenH E).1 (gmacGenH E).2 x) = gfMul (toBV x) (hashKey E) :=
  gcmMult_eq (tabOk (E zeroBlock)) x

theorem gmac_fold (E : Block → Block) (l : List Block) : ∀ M : Block,
    toBV (l.foldl (fun M S => M ^^^ gmacMultH (gmacGenH E).1 (gmacGenH E).2 S) M) =
      toBV M ^^^ gfMul (toBV (xorBlocks l)) (hashKey E) := by
  induction l with
  | nil =>
    intro M
    rw [show xorBlocks [] = zeroBlock from rfl, toBV_zero]
    have : gfMul 0 (hashKey E) = 0 := by
      have := gfMul_xor 0 0 (hashKey E)
      rw [BitVec.xor_self, BitVec.xor_self] at this
      exact this
    rw [this]
    simp
  | cons S l ih =>
    intro M
    rw [List.foldl_cons, ih, toBV_xor, gmacMultH_eq, xorBlocks_cons, toBV_xor, gfMul_xor, BitVec.xor_assoc]

theorem gmacEnc_round (ctx : FpeCtx) (lg : Nat → Nat → Nat) (n : Nat) :
    gmacEncryptRound ctx lg n =
      encR n ((n + 1) / 2) (fun i => ctx.radix ^ halfLen n ((n + 1) / 2) i) (fun X => str2numRev X ctx.radix)
        (fun x m => num2strRev x ctx.radix m) (ff3FOpt ctx lg n)
        (fun M S => M ^^^ gmacMultH (gmacGenH ctx.E).1 (gmacGenH ctx.E).2 S) := by
  funext sm i
  unfold gmacEncryptRound encR ff3FOpt
  simp only [ceil2_one]
  rw [← halfLen]
  simp only [q_ff3 ctx.radix n i ((n + 1) / 2) rfl]
  cases h1 : rdDigits sm.1.out sm.1.b (n - halfLen n ((n + 1) / 2) i) with
  | none => rfl
  | some B =>
    simp only [Option.bind_some]
    cases h2 : ff3RoundS ctx lg n i (str2numRev B ctx.radix) <;> rfl

theorem gmacDec_round (ctx : FpeCtx) (lg : Nat → Nat → Nat) (n : Nat) :
    gmacDecryptRound ctx lg n =
      decR n ((n + 1) / 2) (fun i => ctx.radix ^ halfLen n ((n + 1) / 2) i) (fun X => str2numRev X ctx.radix)
        (fun x m => num2strRev x ctx.radix m) (ff3FOpt ctx lg n)
        (fun M S => M ^^^ gmacMultH (gmacGenH ctx.E).1 (gmacGenH ctx.E).2 S) := by
  funext sm i
  unfold gmacDecryptRound decR ff3FOpt
  simp only [ceil2_one]
  rw [← halfLen]
  simp only [q_ff3 ctx.radix n i ((n + 1) / 2) rfl]
  cases h1 : rdDigits sm.1.out sm.1.a (n - halfLen n ((n + 1) / 2) i) with
  | none => rfl
  | some B =>
    simp only [Option.bind_some]
    cases h2 : ff3RoundS ctx lg n i (str2numRev B ctx.radix) <;> rfl

/-- The blocks `S` of the rounds of the model. -/
def gmacTrace (ctx : FpeCtx) (lg : Nat → Nat → Nat) (X : List Nat) (i : Nat) : Block :=
  ftrace X.length ((X.length + 1) / 2) (fun i => ctx.radix ^ halfLen X.length ((X.length + 1) / 2) i)
    (fun X => str2numRev X ctx.radix) (fun x m => num2strRev x ctx.radix m) (ff3Fn ctx lg X.length)
    (X.take ((X.length + 1) / 2), X.drop ((X.length + 1) / 2)) i

/-- The tag of the model in closed form. -/
def gmacTag (ctx : FpeCtx) (lg : Nat → Nat → Nat) (X : List Nat) : Block :=
  ofBV (gfMul (toBV (blockOf ctx.tweak ^^^ xorBlocks ((List.range 8).map (gmacTrace ctx lg X)))) (hashKey ctx.E))

theorem gmac_tag_fold (ctx : FpeCtx) (l : List Block) :
    l.foldl (fun M S => M ^^^ gmacMultH (gmacGenH ctx.E).1 (gmacGenH ctx.E).2 S)
      (gmacMultH (gmacGenH ctx.E).1 (gmacGenH ctx.E).2 (blockAt ctx.tweak)) =
    ofBV (gfMul (toBV (blockOf ctx.tweak ^^^ xorBlocks l)) (hashKey ctx.E)) := by
  apply toBV_injective
  rw [gmac_fold, gmacMultH_eq, toBV_ofBV, toBV_xor, gfMul_xor, blockAt_eq]

theorem gmacEncrypt_eq (ctx : FpeCtx) (lg : Nat → Nat → Nat) (hlg : LgOk lg) (hr : 2 ≤ ctx.radix)
    (ht : 16 ≤ ctx.tweak.length)
    (s rest out : List Byte) (hs : ∀ c ∈ s, IsNumeral ctx.radix c) (hn : 1 ≤ s.length) (ho : s.length < out.length) :
    gmacEncrypt ctx lg (s ++ 0 :: rest) out =
      some ((ff3Out ctx lg (vals s)).map numeralChar ++ 0 :: out.drop (s.length + 1), gmacTag ctx lg (vals s)) := by
  have hl := length_vals s
  have hv := vals_lt s hs
  have ok := ff3_ok ctx lg hlg s.length hn hr (by omega)
  unfold gmacEncrypt gmacStart
  rw [cstr_append s rest (fun c hc => numeral_ne_zero c (hs c hc)), if_pos ht]
  simp only [Option.bind_some]
  rw [gmacEnc_round, map_mapChar s hs, ceil2_one, engine_enc ok _ 8 (by decide) rfl _ hl hv]
  simp only [Option.bind_some, fpeStart]
  have h1 := (fenc_ok ok 8 _ hl hv).1
  rw [invMapChars_eq _ _ (by rw [h1]; exact ho), h1, gmac_tag_fold]
  simp only [Option.bind_some]
  unfold ff3Out gmacTag gmacTrace
  rw [hl]

theorem gmacDecrypt_eq (ctx : FpeCtx) (lg : Nat → Nat → Nat) (hlg : LgOk lg) (hr : 2 ≤ ctx.radix)
    (hr' : ctx.radix ≤ 36) (ht : 16 ≤ ctx.tweak.length)
    (s rest out : List Byte) (hs : ∀ c ∈ s, IsNumeral ctx.radix c) (hn : 1 ≤ s.length) (ho : s.length < out.length) :
    gmacDecrypt ctx lg ((ff3Out ctx lg (vals s)).map numeralChar ++ 0 :: rest) out =
      some (s ++ 0 :: out.drop (s.length + 1), gmacTag ctx lg (vals s)) := by
  have hl := length_vals s
  have hv := vals_lt s hs
  have ok := ff3_ok ctx lg hlg (vals s).length (by rw [hl]; exact hn) hr (by omega)
  obtain ⟨h1, h2, h3⟩ := ff3Out_ok ctx lg hlg hr (by omega) (vals s) hv (by rw [hl]; exact hn)
  have hc := chars_numeral hr' _ h2
  unfold gmacDecrypt gmacStart
  rw [cstr_append _ rest (fun c hcc => numeral_ne_zero c (hc c hcc)), if_pos ht]
  simp only [Option.bind_some]
  rw [gmacDec_round, map_mapChar _ hc, vals_chars _ (fun d hd => by have := h2 d hd; omega), ceil2_one,
    List.length_map, h1]
  have e := engine_dec ok (fun M S => M ^^^ gmacMultH (gmacGenH ctx.E).1 (gmacGenH ctx.E).2 S) 8 (by decide) rfl
    (vals s) rfl hv (gmacMultH (gmacGenH ctx.E).1 (gmacGenH ctx.E).2 (blockAt ctx.tweak))
  rw [show ff3Out ctx lg (vals s) = _ from rfl]
  unfold ff3Out
  rw [e]
  simp only [Option.bind_some, fpeStart]
  rw [invMapChars_eq _ _ (by rw [hl]; exact ho), chars_vals s hs, hl, gmac_tag_fold, List.map_reverse,
    xorBlocks_reverse]
  simp only [Option.bind_some]
  unfold gmacTag gmacTrace
  rw [hl]

/-- C52: for every context made by `fpe_init` with at least 16 tweak bytes and every nonempty numeral
string, the FF3-GMAC ciphertext is the FF3 ciphertext, decryption returns the plaintext, and both
directions produce the same tag. -/
theorem C52_gmac_roundtrip (ctx : FpeCtx) (tweak : List Byte) (radix : Nat) (E : Block → Block)
    (hc : fpeInit tweak radix E = some ctx) (ht : 16 ≤ tweak.length) (lg : Nat → Nat → Nat) (hlg : LgOk lg)
    (s rest rest' out out' : List Byte) (hs : ∀ c ∈ s, IsNumeral radix c) (hn : 1 ≤ s.length)
    (ho : s.length < out.length) (ho' : s.length < out'.length) :
    ∃ ct tag, ff3Encrypt ctx lg (s ++ 0 :: rest) out = some (ct ++ 0 :: out.drop (s.length + 1)) ∧
      gmacEncrypt ctx lg (s ++ 0 :: rest) out = some (ct ++ 0 :: out.drop (s.length + 1), tag) ∧
      gmacDecrypt ctx lg (ct ++ 0 :: rest') out' = some (s ++ 0 :: out'.drop (s.length + 1), tag) := by
  unfold fpeInit at hc
  split at hc
  · cases hc
  · rename_i hr
    injection hc with hc
    subst hc
    have hr2 : 2 ≤ radix := by omega
    exact ⟨_, _, ff3Encrypt_eq _ lg hlg hr2 (by simp only; omega) s rest out hs hn ho,
      gmacEncrypt_eq _ lg hlg hr2 ht s rest out hs hn ho,
      gmacDecrypt_eq _ lg hlg hr2 (by simp only; omega) ht s rest' out' hs hn ho'⟩

/-- The hypotheses are met by a tweak of 16 bytes and one digit. -/
example : fpeInit (List.replicate 16 7) 10 id = some ⟨id, 10, List.replicate 16 7⟩ ∧
    (∀ c ∈ ([55] : List Byte), IsNumeral 10 c) :=
  ⟨rfl, by intro c hc; unfold IsNumeral; revert c; decide⟩

theorem ff3Fn_snd (ctx : FpeCtx) (lg : Nat → Nat → Nat) (hlg : LgOk lg) (n i : Nat) (hr : 2 ≤ ctx.radix)
    (ht : 8 ≤ ctx.tweak.length) (hmax : ctx.radix ^ ((n + 1) / 2) ≤ 2 ^ 96) (hi : i < 256) (B : List Nat)
    (hB : ∀ d ∈ B, d < ctx.radix) (hl : B.length = n - halfLen n ((n + 1) / 2) i) :
    (ff3Fn ctx lg n i (str2numRev B ctx.radix)).2 = ff3S ctx.E ctx.radix (ctx.tweak.take 8) i B := by
  have h1 : str2numRev B ctx.radix < ctx.radix ^ (n - halfLen n ((n + 1) / 2) i) := by
    rw [← hl]; exact (C50_str_num_str _ _ hB).2.2.2
  have h2 := ff3_fits lg hlg _ _ _ _ hr h1
  have h12 : str2numRev B ctx.radix < 256 ^ 12 := by
    refine Nat.lt_of_lt_of_le h1 (Nat.le_trans (Nat.pow_le_pow_right (by omega) ?_) hmax)
    unfold halfLen; split <;> omega
  have l12 := (bnNumBytes_le_iff _ _).mpr h12
  have lb := (bnNumBytes_le_iff _ _).mpr h2
  unfold ff3Fn ff3FOpt ff3RoundS ff3PBytes
  simp only [ceil2_one]
  rw [ff3W_some _ _ ht]
  simp only [Option.bind_some]
  rw [if_neg (by rw [length_bn2bin]; exact Nat.not_lt.mpr lb)]
  simp only [Option.bind_some, Option.map_some, Option.getD_some]
  rw [if_neg (show ¬ (bn2bin (str2numRev B ctx.radix)).length > 12 by
      rw [length_bn2bin]; exact Nat.not_lt.mpr l12), List.take_of_length_le (Nat.le_refl _),
    List.append_assoc, pad_bn2bin _ _ h12]
  have hW : ((ctx.tweak.drop (if i % 2 = 1 then 0 else 4)).take 4).length = 4 := by
    rw [List.length_take, List.length_drop]; split <;> omega
  unfold ff3SBlock ff3S
  rw [zipWith_set _ hW i hi, revBytes_blockOf _ (by
    rw [List.length_append, List.length_zipWith, hW, length_bytesOf, length_bytesOf]; rfl)]
  unfold ff3P
  simp only
  rw [str2numRev_eq, str2num_eq, ← toList_revBytes, blockOf_toList]
  have e : (ctx.tweak.drop (if i % 2 = 1 then 0 else 4)).take 4 =
      if i % 2 = 0 then ((ctx.tweak.take 8).drop 4).take 4 else (ctx.tweak.take 8).take 4 := by
    rcases Nat.mod_two_eq_zero_or_one i with h | h
    · rw [if_neg (by omega), if_pos h, List.drop_take, List.take_take]; rfl
    · rw [if_pos h, if_neg (by omega), List.take_take]; rfl
  rw [e]

/-- C52, the tag: within the length limit of the standard, the tag is the field product of the hash key
with the xor of the first 16 tweak bytes and the eight round blocks `S` of the standard. -/
theorem C52_gmac_tag (ctx : FpeCtx) (tweak : List Byte) (radix : Nat) (E : Block → Block)
    (hc : fpeInit tweak radix E = some ctx) (ht : 16 ≤ tweak.length) (lg : Nat → Nat → Nat) (hlg : LgOk lg)
    (s rest out : List Byte) (hs : ∀ c ∈ s, IsNumeral radix c) (hn : 1 ≤ s.length)
    (hmax : radix ^ ((s.length + 1) / 2) ≤ 2 ^ 96) (ho : s.length < out.length) :
    ∃ o tag, gmacEncrypt ctx lg (s ++ 0 :: rest) out = some (o, tag) ∧
      toBV tag = ff3GmacTag E radix tweak (s.map numeralVal) := by
  unfold fpeInit at hc
  split at hc
  · cases hc
  · rename_i hr
    injection hc with hc
    subst hc
    have hr2 : 2 ≤ radix := by omega
    refine ⟨_, _, gmacEncrypt_eq _ lg hlg hr2 ht s rest out hs hn ho, ?_⟩
    unfold gmacTag ff3GmacTag
    rw [toBV_ofBV]
    refine congrArg (fun l => gfMul (toBV (blockOf tweak ^^^ xorBlocks l)) (hashKey E)) ?_
    have hl := length_vals s
    have hv := vals_lt s hs
    apply List.map_congr_left
    intro i hi
    rw [List.mem_range] at hi
    show _ = ff3S E radix (tweak.take 8) i (ff3Half E radix (tweak.take 8) (vals s) i).2
    generalize vals s = X at hl hv
    rw [← hl] at hn hmax
    have ok := ff3_ok ⟨E, radix, tweak⟩ lg hlg X.length hn hr2 (by simp only; omega)
    obtain ⟨h1, h2', h3, h4⟩ := fseq_halves ok _ (halves_split ok 0 rfl X rfl hv) i
    unfold gmacTrace ftrace
    rw [fseq_ff3 ⟨E, radix, tweak⟩ lg hlg X.length hr2 (by simp only; omega) hmax hn _
        (halves_split ok 0 rfl X rfl hv) i (by omega)] at h2' h4 ⊢
    exact ff3Fn_snd ⟨E, radix, tweak⟩ lg hlg X.length i hr2 (by simp only; omega) hmax (by omega) _ h4 h2'

/-- C52, short tweaks: with fewer than 16 tweak bytes both functions read outside the copied tweak. -/
theorem C52_gmac_short_tweak (tweak : List Byte) (radix : Nat) (E : Block → Block) (ctx : FpeCtx)
    (hc : fpeInit tweak radix E = some ctx) (ht : tweak.length < 16) (lg : Nat → Nat → Nat) (input out : List Byte) :
    gmacEncrypt ctx lg input out = none ∧ gmacDecrypt ctx lg input out = none := by
  have ht' : ¬ 16 ≤ ctx.tweak.length := by
    unfold fpeInit at hc
    split at hc
    · cases hc
    · injection hc with hc; subst hc; simp only; omega
  constructor
  · unfold gmacEncrypt gmacStart
    rw [if_neg ht']
    cases cstr input <;> rfl
  · unfold gmacDecrypt gmacStart
    rw [if_neg ht']
    cases cstr input <;> rfl

end Verif.Props
