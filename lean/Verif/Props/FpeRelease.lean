import Verif.Model.FpeRelease
import Verif.Props.FpeShort
import Verif.Props.FpeMac

/-!
# FPE compiled without assertions

What the functions of `/repo/src/fpe` do when compiled with `NDEBUG` (Model/FpeRelease), compared with what they do when the
assertions are compiled in (Model/Fpe).
-/
set_option autoImplicit false

namespace Verif.Props
open Verif Spec Model

/-! ### Rounds -/

theorem fold_same {S : Type} (g g' : S → Nat → Option S) (P : S → Prop) (h1 : ∀ s i, P s → g s i = g' s i)
    (h2 : ∀ s i s', P s → g' s i = some s' → P s') (l : List Nat) : ∀ s, P s → l.foldlM g s = l.foldlM g' s := by
  induction l with
  | nil => intro s _; rfl
  | cons i l ih =>
    intro s hs
    rw [List.foldlM_cons, List.foldlM_cons, h1 s i hs]
    cases h : g' s i with
    | none => rfl
    | some s' => exact ih s' (h2 s i s' hs h)

theorem ff1Enc_same (ctx : FpeCtx) (lg : Nat → Nat → Nat) (n : Nat) (s : FpeSt) (i : Nat) (h : s.a ≠ s.b) :
    ff1EncryptRound ctx lg n s i = ff1EncryptRoundRel ctx lg n s i := by
  unfold ff1EncryptRound ff1EncryptRoundRel swapPtrs
  simp only [if_neg h, Option.bind_some]
  rfl

theorem ff1Dec_same (ctx : FpeCtx) (lg : Nat → Nat → Nat) (n : Nat) (s : FpeSt) (i : Nat) (h : s.a ≠ s.b) :
    ff1DecryptRound ctx lg n s i = ff1DecryptRoundRel ctx lg n s i := by
  unfold ff1DecryptRound ff1DecryptRoundRel swapPtrs
  simp only [if_neg h, Option.bind_some]
  rfl

theorem ff3Enc_same (ctx : FpeCtx) (lg : Nat → Nat → Nat) (n : Nat) (s : FpeSt) (i : Nat) (h : s.a ≠ s.b) :
    ff3EncryptRound ctx lg n s i = ff3EncryptRoundRel ctx lg n s i := by
  unfold ff3EncryptRound ff3EncryptRoundRel swapPtrs
  simp only [if_neg h, Option.bind_some]
  rfl

theorem ff3Dec_same (ctx : FpeCtx) (lg : Nat → Nat → Nat) (n : Nat) (s : FpeSt) (i : Nat) (h : s.a ≠ s.b) :
    ff3DecryptRound ctx lg n s i = ff3DecryptRoundRel ctx lg n s i := by
  unfold ff3DecryptRound ff3DecryptRoundRel swapPtrs
  simp only [if_neg h, Option.bind_some]
  rfl

theorem cmacEnc_same (ctx : FpeCtx) (lg : Nat → Nat → Nat) (junk : Nat → Block) (n : Nat) (s : FpeSt × Block) (i : Nat)
    (h : s.1.a ≠ s.1.b) : cmacEncryptRound ctx lg junk n s i = cmacEncryptRoundRel ctx lg junk n s i := by
  unfold cmacEncryptRound cmacEncryptRoundRel swapPtrs
  simp only [if_neg h, Option.bind_some]
  rfl

theorem cmacDec_same (ctx : FpeCtx) (lg : Nat → Nat → Nat) (junk : Nat → Block) (n : Nat) (s : FpeSt × Block) (i : Nat)
    (h : s.1.a ≠ s.1.b) : cmacDecryptRound ctx lg junk n s i = cmacDecryptRoundRel ctx lg junk n s i := by
  unfold cmacDecryptRound cmacDecryptRoundRel swapPtrs
  simp only [if_neg h, Option.bind_some]
  rfl

theorem gmacEnc_same (ctx : FpeCtx) (lg : Nat → Nat → Nat) (n : Nat) (s : FpeSt × Block) (i : Nat)
    (h : s.1.a ≠ s.1.b) : gmacEncryptRound ctx lg n s i = gmacEncryptRoundRel ctx lg n s i := by
  unfold gmacEncryptRound gmacEncryptRoundRel swapPtrs
  simp only [if_neg h, Option.bind_some]
  rfl

theorem gmacDec_same (ctx : FpeCtx) (lg : Nat → Nat → Nat) (n : Nat) (s : FpeSt × Block) (i : Nat)
    (h : s.1.a ≠ s.1.b) : gmacDecryptRound ctx lg n s i = gmacDecryptRoundRel ctx lg n s i := by
  unfold gmacDecryptRound gmacDecryptRoundRel swapPtrs
  simp only [if_neg h, Option.bind_some]
  rfl

/-- The pointers after a round are those before it, exchanged. -/
theorem ff1Enc_ptrs (ctx : FpeCtx) (lg : Nat → Nat → Nat) (n : Nat) (s s' : FpeSt) (i : Nat) (hs : s.a ≠ s.b)
    (h : ff1EncryptRoundRel ctx lg n s i = some s') : s'.a ≠ s'.b := by
  unfold ff1EncryptRoundRel at h
  simp only [Option.bind_eq_some_iff] at h
  obtain ⟨_, _, _, _, _, _, _, _, h⟩ := h
  cases h
  exact fun e => hs e.symm

theorem ff1Dec_ptrs (ctx : FpeCtx) (lg : Nat → Nat → Nat) (n : Nat) (s s' : FpeSt) (i : Nat) (hs : s.a ≠ s.b)
    (h : ff1DecryptRoundRel ctx lg n s i = some s') : s'.a ≠ s'.b := by
  unfold ff1DecryptRoundRel at h
  simp only [Option.bind_eq_some_iff] at h
  obtain ⟨_, _, _, _, _, _, _, _, h⟩ := h
  cases h
  exact fun e => hs e.symm

theorem ff3Enc_ptrs (ctx : FpeCtx) (lg : Nat → Nat → Nat) (n : Nat) (s s' : FpeSt) (i : Nat) (hs : s.a ≠ s.b)
    (h : ff3EncryptRoundRel ctx lg n s i = some s') : s'.a ≠ s'.b := by
  unfold ff3EncryptRoundRel at h
  simp only [Option.bind_eq_some_iff] at h
  obtain ⟨_, _, _, _, _, _, _, _, h⟩ := h
  cases h
  exact fun e => hs e.symm

theorem ff3Dec_ptrs (ctx : FpeCtx) (lg : Nat → Nat → Nat) (n : Nat) (s s' : FpeSt) (i : Nat) (hs : s.a ≠ s.b)
    (h : ff3DecryptRoundRel ctx lg n s i = some s') : s'.a ≠ s'.b := by
  unfold ff3DecryptRoundRel at h
  simp only [Option.bind_eq_some_iff] at h
  obtain ⟨_, _, _, _, _, _, _, _, h⟩ := h
  cases h
  exact fun e => hs e.symm

theorem cmacEnc_ptrs (ctx : FpeCtx) (lg : Nat → Nat → Nat) (junk : Nat → Block) (n : Nat) (s s' : FpeSt × Block) (i : Nat)
    (hs : s.1.a ≠ s.1.b) (h : cmacEncryptRoundRel ctx lg junk n s i = some s') : s'.1.a ≠ s'.1.b := by
  unfold cmacEncryptRoundRel at h
  simp only [Option.bind_eq_some_iff] at h
  obtain ⟨_, _, _, _, _, _, _, _, h⟩ := h
  cases h
  exact fun e => hs e.symm

theorem cmacDec_ptrs (ctx : FpeCtx) (lg : Nat → Nat → Nat) (junk : Nat → Block) (n : Nat) (s s' : FpeSt × Block) (i : Nat)
    (hs : s.1.a ≠ s.1.b) (h : cmacDecryptRoundRel ctx lg junk n s i = some s') : s'.1.a ≠ s'.1.b := by
  unfold cmacDecryptRoundRel at h
  simp only [Option.bind_eq_some_iff] at h
  obtain ⟨_, _, _, _, _, _, _, _, h⟩ := h
  cases h
  exact fun e => hs e.symm

theorem gmacEnc_ptrs (ctx : FpeCtx) (lg : Nat → Nat → Nat) (n : Nat) (s s' : FpeSt × Block) (i : Nat) (hs : s.1.a ≠ s.1.b)
    (h : gmacEncryptRoundRel ctx lg n s i = some s') : s'.1.a ≠ s'.1.b := by
  unfold gmacEncryptRoundRel at h
  simp only [Option.bind_eq_some_iff] at h
  obtain ⟨_, _, _, _, _, _, _, _, h⟩ := h
  cases h
  exact fun e => hs e.symm

theorem gmacDec_ptrs (ctx : FpeCtx) (lg : Nat → Nat → Nat) (n : Nat) (s s' : FpeSt × Block) (i : Nat) (hs : s.1.a ≠ s.1.b)
    (h : gmacDecryptRoundRel ctx lg n s i = some s') : s'.1.a ≠ s'.1.b := by
  unfold gmacDecryptRoundRel at h
  simp only [Option.bind_eq_some_iff] at h
  obtain ⟨_, _, _, _, _, _, _, _, h⟩ := h
  cases h
  exact fun e => hs e.symm

theorem start_ne (ds : List Nat) (u : Nat) (h : 0 < u) : (fpeStart ds u).a ≠ (fpeStart ds u).b := by
  show 0 ≠ u
  omega

theorem floor_pos (n : Nat) (h : 2 ≤ n) : 0 < floor2 n 1 := by rw [floor2_eq]; omega

theorem ceil_pos (n : Nat) (h : 1 ≤ n) : 0 < ceil2 n 1 := by rw [ceil2_eq]; omega

theorem cstrArr_append (s rest : List Byte) (h0 : ∀ c ∈ s, c ≠ 0) (h : s ≠ []) : cstrArr (s ++ 0 :: rest) = some s := by
  rw [cstrArr, cstr_append s rest h0, Option.bind_some, if_neg h]

/-! ### What is the same -/

/-- C124: on strings of two and more bytes, numerals or not, FF1 without assertions is FF1 with assertions wherever the assertion on
`Q` holds, with and without tag. -/
theorem C124_ff1_same (ctx : FpeCtx) (lg : Nat → Nat → Nat) (junk : Nat → Block) (s rest out : List Byte)
    (h0 : ∀ c ∈ s, c ≠ 0) (hn : 2 ≤ s.length) (hT : QOk lg ctx.tweak ctx.radix s.length) :
    ff1EncryptRel ctx lg (s ++ 0 :: rest) out = ff1Encrypt ctx lg (s ++ 0 :: rest) out ∧
    ff1DecryptRel ctx lg (s ++ 0 :: rest) out = ff1Decrypt ctx lg (s ++ 0 :: rest) out ∧
    cmacEncryptRel ctx lg junk (s ++ 0 :: rest) out = cmacEncrypt ctx lg junk (s ++ 0 :: rest) out ∧
    cmacDecryptRel ctx lg junk (s ++ 0 :: rest) out = cmacDecrypt ctx lg junk (s ++ 0 :: rest) out := by
  have hne : s ≠ [] := fun e => by subst e; simp at hn
  have hst := start_ne (s.map mapChar) (floor2 s.length 1) (floor_pos _ hn)
  unfold ff1EncryptRel ff1DecryptRel cmacEncryptRel cmacDecryptRel ff1Encrypt ff1Decrypt cmacEncrypt cmacDecrypt
  rw [cstrArr_append s rest h0 hne, cstr_append s rest h0]
  simp only [Option.bind_some, ff1Assert_ok lg ctx.tweak ctx.radix s.length hT]
  refine ⟨?_, ?_, ?_, ?_⟩
  · rw [fold_same _ _ (fun s => s.a ≠ s.b) (ff1Enc_same ctx lg s.length)
      (fun a i b => ff1Enc_ptrs ctx lg s.length a b i) _ _ hst]
  · rw [fold_same _ _ (fun s => s.a ≠ s.b) (ff1Dec_same ctx lg s.length)
      (fun a i b => ff1Dec_ptrs ctx lg s.length a b i) _ _ hst]
  · rw [fold_same _ _ (fun s => s.1.a ≠ s.1.b) (cmacEnc_same ctx lg junk s.length)
      (fun a i b => cmacEnc_ptrs ctx lg junk s.length a b i) _ _ hst]
  · rw [fold_same _ _ (fun s => s.1.a ≠ s.1.b) (cmacDec_same ctx lg junk s.length)
      (fun a i b => cmacDec_ptrs ctx lg junk s.length a b i) _ _ hst]

/-- C124: FF3 is the same function with and without assertions, on every input. -/
theorem C124_ff3_same (ctx : FpeCtx) (lg : Nat → Nat → Nat) (s rest out : List Byte) (h0 : ∀ c ∈ s, c ≠ 0) :
    ff3EncryptRel ctx lg (s ++ 0 :: rest) out = ff3Encrypt ctx lg (s ++ 0 :: rest) out ∧
    ff3DecryptRel ctx lg (s ++ 0 :: rest) out = ff3Decrypt ctx lg (s ++ 0 :: rest) out ∧
    gmacEncryptRel ctx lg (s ++ 0 :: rest) out = gmacEncrypt ctx lg (s ++ 0 :: rest) out ∧
    gmacDecryptRel ctx lg (s ++ 0 :: rest) out = gmacDecrypt ctx lg (s ++ 0 :: rest) out := by
  by_cases hne : s = []
  · subst hne
    obtain ⟨e1, e2, e3, e4⟩ := C98_ff3_empty ctx lg rest out
    rw [List.nil_append, e1, e2, e3, e4]
    have hc : cstrArr (0 :: rest) = none := by
      rw [cstrArr, show cstr (0 :: rest) = some [] from cstr_append [] rest (by simp)]
      rfl
    unfold ff3EncryptRel ff3DecryptRel gmacEncryptRel gmacDecryptRel
    rw [hc]
    exact ⟨rfl, rfl, rfl, rfl⟩
  · have hn : 1 ≤ s.length := List.length_pos_iff.mpr hne
    have hst := start_ne (s.map mapChar) (ceil2 s.length 1) (ceil_pos _ hn)
    unfold ff3EncryptRel ff3DecryptRel gmacEncryptRel gmacDecryptRel ff3Encrypt ff3Decrypt gmacEncrypt gmacDecrypt
    rw [cstrArr_append s rest h0 hne, cstr_append s rest h0]
    simp only [Option.bind_some]
    refine ⟨?_, ?_, ?_, ?_⟩
    · rw [fold_same _ _ (fun s => s.a ≠ s.b) (ff3Enc_same ctx lg s.length)
        (fun a i b => ff3Enc_ptrs ctx lg s.length a b i) _ _ hst]
    · rw [fold_same _ _ (fun s => s.a ≠ s.b) (ff3Dec_same ctx lg s.length)
        (fun a i b => ff3Dec_ptrs ctx lg s.length a b i) _ _ hst]
    · cases gmacStart ctx with
      | none => rfl
      | some M =>
        rw [Option.bind_some, Option.bind_some, fold_same _ _ (fun s => s.1.a ≠ s.1.b) (gmacEnc_same ctx lg s.length)
          (fun a i b => gmacEnc_ptrs ctx lg s.length a b i) _ (fpeStart (s.map mapChar) (ceil2 s.length 1), M) hst]
    · cases gmacStart ctx with
      | none => rfl
      | some M =>
        rw [Option.bind_some, Option.bind_some, fold_same _ _ (fun s => s.1.a ≠ s.1.b) (gmacDec_same ctx lg s.length)
          (fun a i b => gmacDec_ptrs ctx lg s.length a b i) _ (fpeStart (s.map mapChar) (ceil2 s.length 1), M) hst]

/-- C124: whatever FF1 computes with assertions it computes without, for all inputs: only calls that stopped the program can
change. -/
theorem C124_ff1_debug (ctx : FpeCtx) (lg : Nat → Nat → Nat) (junk : Nat → Block) (s rest out r : List Byte) (t : Block)
    (h0 : ∀ c ∈ s, c ≠ 0) :
    (ff1Encrypt ctx lg (s ++ 0 :: rest) out = some r → ff1EncryptRel ctx lg (s ++ 0 :: rest) out = some r) ∧
    (ff1Decrypt ctx lg (s ++ 0 :: rest) out = some r → ff1DecryptRel ctx lg (s ++ 0 :: rest) out = some r) ∧
    (cmacEncrypt ctx lg junk (s ++ 0 :: rest) out = some (r, t) → cmacEncryptRel ctx lg junk (s ++ 0 :: rest) out = some (r, t)) ∧
    (cmacDecrypt ctx lg junk (s ++ 0 :: rest) out = some (r, t) → cmacDecryptRel ctx lg junk (s ++ 0 :: rest) out = some (r, t)) := by
  by_cases hn : 2 ≤ s.length
  · by_cases hT : QOk lg ctx.tweak ctx.radix s.length
    · obtain ⟨e1, e2, e3, e4⟩ := C124_ff1_same ctx lg junk s rest out h0 hn hT
      rw [e1, e2, e3, e4]
      exact ⟨id, id, id, id⟩
    · have hx : ff1Assert ctx.tweak.length (ff1B lg ctx.radix (s.length - floor2 s.length 1)) = none := by
        rw [ff1Assert_iff, if_neg hT]
      unfold ff1Encrypt ff1Decrypt cmacEncrypt cmacDecrypt
      rw [cstr_append s rest h0]
      simp only [Option.bind_some, hx, Option.bind_none]
      exact ⟨nofun, nofun, nofun, nofun⟩
  · obtain ⟨e1, e2, e3, e4⟩ := C98_ff1_short ctx lg junk s rest out h0 (by omega)
    rw [e1, e2, e3, e4]
    exact ⟨nofun, nofun, nofun, nofun⟩

/-! ### What is different: the empty tweak -/

theorem ff1EncryptRel_eq (ctx : FpeCtx) (lg : Nat → Nat → Nat) (hlg : LgOk lg) (hr : 2 ≤ ctx.radix)
    (s rest out : List Byte) (hs : ∀ c ∈ s, IsNumeral ctx.radix c) (hn : 2 ≤ s.length) (ho : s.length < out.length) :
    ff1EncryptRel ctx lg (s ++ 0 :: rest) out =
      some ((ff1Out ctx lg (vals s)).map numeralChar ++ 0 :: out.drop (s.length + 1)) := by
  have ok := ff1_ok ctx lg hlg s.length hn hr
  have hl := length_vals s
  have hv := vals_lt s hs
  have hne : s ≠ [] := fun e => by subst e; simp at hn
  have hst := start_ne (s.map mapChar) (floor2 s.length 1) (floor_pos _ hn)
  unfold ff1EncryptRel
  rw [cstrArr_append s rest (fun c hc => numeral_ne_zero c (hs c hc)) hne]
  simp only [Option.bind_some]
  rw [← fold_same _ _ (fun s => s.a ≠ s.b) (ff1Enc_same ctx lg s.length)
    (fun a i b => ff1Enc_ptrs ctx lg s.length a b i) _ _ hst,
    foldlM_drop_unit _ _ (ff1Enc_round ctx lg s.length), map_mapChar s hs, floor2_eq,
    engine_enc ok _ 10 (by decide) rfl _ hl hv]
  simp only [Option.map_some, Option.bind_some, fpeStart]
  have h1 := (fenc_ok ok 10 _ hl hv).1
  rw [invMapChars_eq _ _ (by rw [h1]; exact ho), h1]
  unfold ff1Out
  rw [hl]

theorem ff1DecryptRel_eq (ctx : FpeCtx) (lg : Nat → Nat → Nat) (hlg : LgOk lg) (hr : 2 ≤ ctx.radix)
    (s rest out : List Byte) (hs : ∀ c ∈ s, IsNumeral ctx.radix c) (hn : 2 ≤ s.length) (ho : s.length < out.length) :
    ff1DecryptRel ctx lg (s ++ 0 :: rest) out =
      some ((ff1Undo ctx lg (vals s)).map numeralChar ++ 0 :: out.drop (s.length + 1)) := by
  have ok := ff1_ok ctx lg hlg s.length hn hr
  have hl := length_vals s
  have hv := vals_lt s hs
  have hne : s ≠ [] := fun e => by subst e; simp at hn
  have hst := start_ne (s.map mapChar) (floor2 s.length 1) (floor_pos _ hn)
  unfold ff1DecryptRel
  rw [cstrArr_append s rest (fun c hc => numeral_ne_zero c (hs c hc)) hne]
  simp only [Option.bind_some]
  obtain ⟨a, e⟩ := engine_undo ok (fun (_ : Unit) _ => ()) 10 (by decide) rfl _ hl hv ()
  rw [← fold_same _ _ (fun s => s.a ≠ s.b) (ff1Dec_same ctx lg s.length)
    (fun a i b => ff1Dec_ptrs ctx lg s.length a b i) _ _ hst,
    foldlM_drop_unit _ _ (ff1Dec_round ctx lg s.length), map_mapChar s hs, floor2_eq, e]
  simp only [Option.map_some, Option.bind_some, fpeStart]
  have h1 := (fundo_ok ok 10 rfl _ hl hv).1
  rw [invMapChars_eq _ _ (by rw [h1]; exact ho), h1]
  unfold ff1Undo
  rw [hl]

/-- C124: without assertions FF1 is FF1 of SP 800-38G on all numeral strings of 2 to `2^30` characters, the empty tweak and the
lengths at which the assertion on `Q` fails included. -/
theorem C124_ff1_nist (ctx : FpeCtx) (tweak : List Byte) (radix : Nat) (E : Block → Block)
    (hc : fpeInit tweak radix E = some ctx) (s rest out : List Byte) (hs : ∀ c ∈ s, IsNumeral radix c)
    (hn : 2 ≤ s.length) (hn' : s.length < 2 ^ 30) (ho : s.length < out.length) :
    ff1EncryptRel ctx (fun r k => Nat.clog 2 (r ^ k)) (s ++ 0 :: rest) out =
      some ((ff1Enc E radix tweak (s.map numeralVal)).map numeralChar ++ 0 :: out.drop (s.length + 1)) ∧
    ff1DecryptRel ctx (fun r k => Nat.clog 2 (r ^ k)) (s ++ 0 :: rest) out =
      some ((ff1Dec E radix tweak (s.map numeralVal)).map numeralChar ++ 0 :: out.drop (s.length + 1)) := by
  unfold fpeInit at hc
  split at hc
  · cases hc
  · rename_i hr
    injection hc with hc
    subst hc
    have hr2 : 2 ≤ radix := by omega
    have ok := ff1_ok ⟨E, radix, tweak⟩ _ lgOk_clog s.length hn hr2
    have hl := length_vals s
    have hv := vals_lt s hs
    constructor
    · rw [ff1EncryptRel_eq _ _ lgOk_clog hr2 s rest out hs hn ho]
      unfold ff1Out fenc
      simp only
      rw [hl, fseq_ff1 _ _ lgOk_clog _ hr2 (by simp only; omega) hn hn' rfl _ (halves_split ok 0 rfl _ hl hv)]
      unfold ff1Enc
      simp only [List.length_map]
      rfl
    · rw [ff1DecryptRel_eq _ _ lgOk_clog hr2 s rest out hs hn ho]
      unfold ff1Undo fundo
      simp only
      rw [hl, fdec_ff1 _ _ lgOk_clog _ hr2 (by simp only; omega) hn hn' rfl _ _ (halves_split ok 10 rfl _ hl hv)]
      unfold ff1Dec
      simp only [List.length_map]
      rfl

/- 72 decimal digits and no tweak: with assertions the program stops (C44_ff1_empty_tweak), without it encrypts. -/
example : ¬ QOk (fun r k => Nat.clog 2 (r ^ k)) [] 10 72 ∧ fpeInit [] 10 id = some ⟨id, 10, []⟩ := ⟨by decide +kernel, rfl⟩

example (E : Block → Block) (rest out : List Byte) (ho : 72 < out.length) :
    ff1Encrypt ⟨E, 10, []⟩ (fun r k => Nat.clog 2 (r ^ k)) (List.replicate 72 0x37 ++ 0 :: rest) out = none ∧
    ff1EncryptRel ⟨E, 10, []⟩ (fun r k => Nat.clog 2 (r ^ k)) (List.replicate 72 0x37 ++ 0 :: rest) out ≠ none := by
  constructor
  · exact (C44_ff1_empty_tweak ⟨E, 10, []⟩ _ (fun _ => zeroBlock) (List.replicate 72 0x37) rest out
      (by intro c hc; rw [(List.mem_replicate.mp hc).2]; decide) rfl (by
        rw [List.length_replicate]
        show (Nat.clog 2 (10 ^ (72 - 72 / 2)) + 7) / 8 % 16 = 15
        decide +kernel)).1
  · rw [(C124_ff1_nist ⟨E, 10, []⟩ [] 10 E rfl (List.replicate 72 0x37) rest out
      (by intro c hc; rw [(List.mem_replicate.mp hc).2]; unfold IsNumeral; decide) (by simp) (by simp) (by simpa using ho)).1]
    simp

/-! ### What is different: one character -/

/-- What an odd round adds to a single numeral. -/
def oneShift (ctx : FpeCtx) (lg : Nat → Nat → Nat) (i : Nat) : Nat := (ff1RoundY ctx lg 1 i 0).getD 0

theorem one_even_enc (ctx : FpeCtx) (lg : Nat → Nat → Nat) (hlg : LgOk lg) (hr : 2 ≤ ctx.radix) (d : Nat) (hd : d < ctx.radix)
    (i : Nat) (hi : i % 2 = 0) : ff1EncryptRoundRel ctx lg 1 ⟨[d], 0, 0⟩ i = some ⟨[d], 0, 0⟩ := by
  obtain ⟨y, hy⟩ := ff1RoundY_some ctx lg hlg 1 i d hr (by simpa [halfLen, hi] using hd)
  unfold ff1EncryptRoundRel
  simp only [show floor2 1 1 = 0 by decide, hi]
  simp [rdDigits, wrDigits, swapAlways, num2str, str2num, hy]

theorem one_even_dec (ctx : FpeCtx) (lg : Nat → Nat → Nat) (hlg : LgOk lg) (hr : 2 ≤ ctx.radix) (d : Nat) (hd : d < ctx.radix)
    (i : Nat) (hi : i % 2 = 0) : ff1DecryptRoundRel ctx lg 1 ⟨[d], 0, 0⟩ i = some ⟨[d], 0, 0⟩ := by
  obtain ⟨y, hy⟩ := ff1RoundY_some ctx lg hlg 1 i d hr (by simpa [halfLen, hi] using hd)
  unfold ff1DecryptRoundRel
  simp only [show floor2 1 1 = 0 by decide, hi]
  simp [rdDigits, wrDigits, swapAlways, num2str, str2num, hy]

theorem one_odd_enc (ctx : FpeCtx) (lg : Nat → Nat → Nat) (hlg : LgOk lg) (hr : 2 ≤ ctx.radix) (d : Nat)
    (i : Nat) (hi : i % 2 = 1) :
    ff1EncryptRoundRel ctx lg 1 ⟨[d], 0, 0⟩ i = some ⟨[(d + oneShift ctx lg i) % ctx.radix], 0, 0⟩ := by
  obtain ⟨y, hy⟩ := ff1RoundY_some ctx lg hlg 1 i 0 hr (Nat.pow_pos (by omega))
  unfold ff1EncryptRoundRel oneShift
  simp only [show floor2 1 1 = 0 by decide, hi]
  simp [rdDigits, wrDigits, swapAlways, num2str, str2num, hy, powUv]

theorem one_odd_dec (ctx : FpeCtx) (lg : Nat → Nat → Nat) (hlg : LgOk lg) (hr : 2 ≤ ctx.radix) (d : Nat)
    (i : Nat) (hi : i % 2 = 1) :
    ff1DecryptRoundRel ctx lg 1 ⟨[d], 0, 0⟩ i = some ⟨[bnModSub d (oneShift ctx lg i) ctx.radix], 0, 0⟩ := by
  obtain ⟨y, hy⟩ := ff1RoundY_some ctx lg hlg 1 i 0 hr (Nat.pow_pos (by omega))
  have hlt := modSub_lt d y ctx.radix (by omega)
  unfold ff1DecryptRoundRel oneShift
  simp only [show floor2 1 1 = 0 by decide, hi]
  simp [rdDigits, wrDigits, swapAlways, num2str, str2num, hy, powUv, Nat.mod_eq_of_lt hlt]

theorem one_enc (ctx : FpeCtx) (lg : Nat → Nat → Nat) (hlg : LgOk lg) (hr : 2 ≤ ctx.radix) (d : Nat) (hd : d < ctx.radix) :
    (List.range 10).foldlM (ff1EncryptRoundRel ctx lg 1) ⟨[d], 0, 0⟩ =
      some ⟨[(d + (oneShift ctx lg 1 + oneShift ctx lg 3 + oneShift ctx lg 5 + oneShift ctx lg 7 + oneShift ctx lg 9)) % ctx.radix],
        0, 0⟩ := by
  have hm : ∀ x, x % ctx.radix < ctx.radix := fun x => Nat.mod_lt x (by omega)
  rw [show List.range 10 = [0, 1, 2, 3, 4, 5, 6, 7, 8, 9] from rfl]
  simp only [List.foldlM_cons, List.foldlM_nil, Option.bind_eq_bind]
  rw [one_even_enc ctx lg hlg hr d hd 0 rfl, Option.bind_some, one_odd_enc ctx lg hlg hr _ 1 rfl, Option.bind_some,
    one_even_enc ctx lg hlg hr _ (hm _) 2 rfl, Option.bind_some, one_odd_enc ctx lg hlg hr _ 3 rfl, Option.bind_some,
    one_even_enc ctx lg hlg hr _ (hm _) 4 rfl, Option.bind_some, one_odd_enc ctx lg hlg hr _ 5 rfl, Option.bind_some,
    one_even_enc ctx lg hlg hr _ (hm _) 6 rfl, Option.bind_some, one_odd_enc ctx lg hlg hr _ 7 rfl, Option.bind_some,
    one_even_enc ctx lg hlg hr _ (hm _) 8 rfl, Option.bind_some, one_odd_enc ctx lg hlg hr _ 9 rfl, Option.bind_some]
  simp only [Nat.mod_add_mod, Nat.add_assoc]
  rfl

theorem one_dec (ctx : FpeCtx) (lg : Nat → Nat → Nat) (hlg : LgOk lg) (hr : 2 ≤ ctx.radix) (d : Nat) (hd : d < ctx.radix) :
    (List.range 10).reverse.foldlM (ff1DecryptRoundRel ctx lg 1)
      ⟨[(d + (oneShift ctx lg 1 + oneShift ctx lg 3 + oneShift ctx lg 5 + oneShift ctx lg 7 + oneShift ctx lg 9)) % ctx.radix], 0, 0⟩ =
      some ⟨[d], 0, 0⟩ := by
  have hm : ∀ x, x % ctx.radix < ctx.radix := fun x => Nat.mod_lt x (by omega)
  have hs : ∀ x y, bnModSub ((x + y) % ctx.radix) y ctx.radix = x % ctx.radix := fun x y => by
    rw [← Nat.mod_add_mod]; exact modSub_add _ _ _ (hm x)
  rw [show (List.range 10).reverse = [9, 8, 7, 6, 5, 4, 3, 2, 1, 0] from rfl]
  simp only [List.foldlM_cons, List.foldlM_nil, Option.bind_eq_bind, ← Nat.add_assoc]
  rw [one_odd_dec ctx lg hlg hr _ 9 rfl, Option.bind_some, hs, one_even_dec ctx lg hlg hr _ (hm _) 8 rfl, Option.bind_some,
    one_odd_dec ctx lg hlg hr _ 7 rfl, Option.bind_some, hs, one_even_dec ctx lg hlg hr _ (hm _) 6 rfl, Option.bind_some,
    one_odd_dec ctx lg hlg hr _ 5 rfl, Option.bind_some, hs, one_even_dec ctx lg hlg hr _ (hm _) 4 rfl, Option.bind_some,
    one_odd_dec ctx lg hlg hr _ 3 rfl, Option.bind_some, hs, one_even_dec ctx lg hlg hr _ (hm _) 2 rfl, Option.bind_some,
    one_odd_dec ctx lg hlg hr _ 1 rfl, Option.bind_some, hs, one_even_dec ctx lg hlg hr _ (hm _) 0 rfl, Option.bind_some,
    Nat.mod_eq_of_lt hd]
  rfl

/-- C124: without assertions FF1 encrypts a single numeral (with assertions the program stops, C98) by a shift of the alphabet that
depends on the key and the tweak alone, and decrypts it again. -/
theorem C124_ff1_one (E : Block → Block) (radix : Nat) (lg : Nat → Nat → Nat) (hlg : LgOk lg) : ∃ k : List Byte → Nat,
    ∀ (tweak : List Byte) (ctx : FpeCtx), fpeInit tweak radix E = some ctx →
    ∀ (c : Byte), IsNumeral radix c → ∀ rest out : List Byte, 1 < out.length →
      ff1Encrypt ctx lg (c :: 0 :: rest) out = none ∧
      ff1EncryptRel ctx lg (c :: 0 :: rest) out = some (shiftNumeral radix (k tweak) c :: 0 :: out.drop 2) ∧
      ff1DecryptRel ctx lg (shiftNumeral radix (k tweak) c :: 0 :: rest) out = some (c :: 0 :: out.drop 2) := by
  refine ⟨fun T => oneShift ⟨E, radix, T⟩ lg 1 + oneShift ⟨E, radix, T⟩ lg 3 + oneShift ⟨E, radix, T⟩ lg 5 +
    oneShift ⟨E, radix, T⟩ lg 7 + oneShift ⟨E, radix, T⟩ lg 9, fun tweak ctx hc c hcn rest out ho => ?_⟩
  unfold fpeInit at hc
  split at hc
  · cases hc
  · rename_i hr
    injection hc with hc
    subst hc
    have hr2 : 2 ≤ radix := by omega
    have hc0 := numeral_ne_zero c hcn
    obtain ⟨hmc, hlt⟩ := mapChar_numeral c hcn
    simp only
    generalize hK : oneShift ⟨E, radix, tweak⟩ lg 1 + oneShift ⟨E, radix, tweak⟩ lg 3 + oneShift ⟨E, radix, tweak⟩ lg 5 +
      oneShift ⟨E, radix, tweak⟩ lg 7 + oneShift ⟨E, radix, tweak⟩ lg 9 = K
    have hlt' : (numeralVal c + K) % radix < radix := Nat.mod_lt _ (by omega)
    have hn' := numeralChar_isNumeral radix _ (by omega) hlt'
    have hd0 := numeral_ne_zero _ hn'
    obtain ⟨hmd, -⟩ := mapChar_numeral _ hn'
    rw [numeralVal_char _ (by omega)] at hmd
    have hinv : ∀ d, d < radix → invMapChars [d] out = some (numeralChar d :: 0 :: out.drop 2) := fun d hd =>
      invMapChars_eq [d] out (by simpa using ho)
    refine ⟨(C98_ff1_short _ lg (fun _ => zeroBlock) [c] rest out (by simpa using hc0) (by simp)).1, ?_, ?_⟩
    · unfold ff1EncryptRel
      rw [show c :: 0 :: rest = [c] ++ 0 :: rest from rfl, cstrArr_append [c] rest (by simpa using hc0) (by simp), Option.bind_some]
      simp only [List.length_singleton, show floor2 1 1 = 0 by decide, fpeStart, List.map_cons, List.map_nil]
      rw [hmc, one_enc _ lg hlg hr2 _ hlt, Option.bind_some, hK, hinv _ hlt']
      rfl
    · unfold ff1DecryptRel shiftNumeral
      rw [show numeralChar ((numeralVal c + K) % radix) :: 0 :: rest = [numeralChar ((numeralVal c + K) % radix)] ++ 0 :: rest from rfl,
        cstrArr_append _ rest (by simpa using hd0) (by simp), Option.bind_some]
      simp only [List.length_singleton, show floor2 1 1 = 0 by decide, fpeStart, List.map_cons, List.map_nil]
      rw [hmd, ← hK, one_dec ⟨E, radix, tweak⟩ lg hlg hr2 _ hlt, Option.bind_some, hinv _ hlt]
      have := chars_vals [c] (radix := radix) (by simpa using hcn)
      simp only [vals, List.map_cons, List.map_nil, List.cons.injEq, and_true] at this
      rw [this]

/- A decimal digit and no tweak. -/
example : fpeInit [] 10 id = some ⟨id, 10, []⟩ ∧ IsNumeral 10 (0x37 : Byte) ∧ LgOk (fun r k => Nat.clog 2 (r ^ k)) :=
  ⟨rfl, by unfold IsNumeral; decide, lgOk_clog⟩

/-- C124: so one digit and its encryption give the encryption of all digits under the same tweak. -/
theorem C124_ff1_one_pair (E : Block → Block) (radix : Nat) (tweak : List Byte) (ctx : FpeCtx)
    (hc : fpeInit tweak radix E = some ctx) (lg : Nat → Nat → Nat) (hlg : LgOk lg)
    (c d c' d' : Byte) (hcn : IsNumeral radix c) (hcn' : IsNumeral radix c') (rest rest' out out' : List Byte)
    (ho : 1 < out.length) (ho' : 1 < out'.length)
    (h : ff1EncryptRel ctx lg (c :: 0 :: rest) out = some (d :: 0 :: out.drop 2))
    (h' : ff1EncryptRel ctx lg (c' :: 0 :: rest') out' = some (d' :: 0 :: out'.drop 2)) :
    (numeralVal d' + numeralVal c) % radix = (numeralVal c' + numeralVal d) % radix := by
  have hr : 2 ≤ radix ∧ radix ≤ 36 := by
    unfold fpeInit at hc
    split at hc
    · cases hc
    · omega
  obtain ⟨k, hk⟩ := C124_ff1_one E radix lg hlg
  have e := (hk tweak ctx hc c hcn rest out ho).2.1
  have e' := (hk tweak ctx hc c' hcn' rest' out' ho').2.1
  rw [h] at e
  rw [h'] at e'
  have ed := (List.cons.inj (Option.some.inj e)).1
  have ed' := (List.cons.inj (Option.some.inj e')).1
  have hv : ∀ x : Nat, numeralVal (numeralChar (x % radix)) = x % radix := fun x =>
    numeralVal_char _ (Nat.lt_of_lt_of_le (Nat.mod_lt x (by omega)) hr.2)
  rw [ed, ed', shiftNumeral, shiftNumeral, hv, hv, Nat.mod_add_mod, Nat.add_mod_mod]
  congr 1
  omega

/-- C124: the empty string is undefined either way: without the assertion there are still arrays of length zero. -/
theorem C124_empty (ctx : FpeCtx) (lg : Nat → Nat → Nat) (junk : Nat → Block) (rest out : List Byte) :
    ff1EncryptRel ctx lg (0 :: rest) out = none ∧ ff1DecryptRel ctx lg (0 :: rest) out = none ∧
    cmacEncryptRel ctx lg junk (0 :: rest) out = none ∧ cmacDecryptRel ctx lg junk (0 :: rest) out = none := by
  have hc : cstrArr (0 :: rest) = none := by
    rw [cstrArr, show cstr (0 :: rest) = some [] from cstr_append [] rest (by simp)]
    rfl
  unfold ff1EncryptRel ff1DecryptRel cmacEncryptRel cmacDecryptRel
  rw [hc]
  exact ⟨rfl, rfl, rfl, rfl⟩

end Verif.Props
