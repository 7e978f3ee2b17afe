import Verif.Props.Perform
import Verif.Props.FpeApp
import Verif.Props.FpeMac
import Verif.Props.Cbc
import Verif.Props.GcmAuth

/-! C132, the programs that measure format-preserving encryption and the modes. -/

set_option autoImplicit false

namespace Verif.Props
open Verif Spec Model

/-! ### calls into one buffer -/

/-- Calls that put the same bytes at the start of the buffer have the effect of one. -/
theorem repeatCall_same (f : Nat → List Byte → Option (List Byte)) (c : List Byte) (N m : Nat) (hm : m ≤ N) (hc : c.length = m)
    (h : ∀ n o, o.length = N → f n o = some (c ++ o.drop m)) :
    ∀ (n : Nat) (o : List Byte), o.length = N → repeatCall f (n + 1) o = some (c ++ o.drop m) := by
  intro n
  induction n with
  | zero => intro o ho; rw [repeatCall, h _ o ho]; rfl
  | succ n ih =>
    intro o ho
    rw [repeatCall, h _ o ho, Option.bind_some, ih _ (by rw [List.length_append, List.length_drop]; omega), List.drop_left' hc]

theorem repeatCall_none (f : Nat → List Byte → Option (List Byte)) (n : Nat) (o : List Byte) (h : f n o = none) :
    repeatCall f (n + 1) o = none := by
  rw [repeatCall, h]; rfl

/-- The digits of `input`. -/
def perfDigits : List Byte := perfInput.take 16

theorem perfInput_eq : perfInput = perfDigits ++ 0 :: [] := by decide
theorem perfDigits_ok : ∀ c ∈ perfDigits, IsNumeral 10 c := by
  intro c hc
  revert c
  decide

/-- Sixteen decimal digits and a terminator. -/
def Digits (l : List Byte) : Prop := ∃ a, l = a ++ [0] ∧ a.length = 16 ∧ ∀ c ∈ a, IsNumeral 10 c

theorem digits_length {l : List Byte} (h : Digits l) : l.length = 17 := by
  obtain ⟨a, rfl, h1, _⟩ := h
  rw [List.length_append, h1]; rfl

theorem digits_of {X : List Nat} (h1 : X.length = (vals perfDigits).length) (h2 : ∀ d ∈ X, d < 10) :
    Digits (X.map numeralChar ++ [0]) := by
  refine ⟨_, rfl, by rw [List.length_map, h1, length_vals]; decide, fun c hc => ?_⟩
  obtain ⟨d, hd, rfl⟩ := List.mem_map.mp hc
  exact numeralChar_isNumeral 10 d (by decide) (h2 d hd)

/-- A call that writes the digits `a` into `cipher[50]`. -/
def Writes (f : List Byte → Option (List Byte)) (a : List Byte) : Prop := ∀ o, o.length = 50 → f o = some (a ++ o.drop 17)

theorem writes_of {f : List Byte → Option (List Byte)} {X : List Nat}
    (h : ∀ o : List Byte, o.length = 50 → f o = some (X.map numeralChar ++ 0 :: o.drop (perfDigits.length + 1))) :
    Writes f (X.map numeralChar ++ [0]) := by
  intro o ho
  rw [h o ho, List.append_assoc]
  rfl

theorem repeat_writes {f : List Byte → Option (List Byte)} {a : List Byte} (ha : Digits a) (h : Writes f a) (n : Nat) (o : List Byte)
    (ho : o.length = 50) : repeatCall (fun _ => f) (n + 1) o = some (a ++ o.drop 17) :=
  repeatCall_same _ a 50 17 (by decide) (digits_length ha) (fun _ o h' => h o h') n o ho

theorem two_loops {f g : List Byte → Option (List Byte)} {a b : List Byte} (ha : Digits a) (hb : Digits b) (hf : Writes f a)
    (hg : Writes g b) (o : List Byte) (ho : o.length = 50) :
    (repeatCall (fun _ => f) (testCycles * 64) o).bind (repeatCall (fun _ => g) (testCycles * 64)) = some (b ++ o.drop 17) := by
  rw [show testCycles * 64 = 639 + 1 from rfl, repeat_writes ha hf 639 o ho, Option.bind_some,
    repeat_writes hb hg 639 _ (by rw [List.length_append, List.length_drop, digits_length ha, ho]),
    List.drop_left' (digits_length ha)]

/-! ### fpe_peform.c -/

theorem ff1_writes (E : Block → Block) (lg : Nat → Nat → Nat) (hlg : LgOk lg) (tweak : List Byte) (ht : tweak ≠ []) :
    (∃ a, Digits a ∧ Writes (ff1Encrypt ⟨E, 10, tweak⟩ lg perfInput) a) ∧
    (∃ a, Digits a ∧ Writes (ff1Decrypt ⟨E, 10, tweak⟩ lg perfInput) a) := by
  have hr : 2 ≤ 10 := by decide
  have hv : ∀ d ∈ vals perfDigits, d < 10 := vals_lt perfDigits perfDigits_ok
  obtain ⟨h1, h2, _⟩ := ff1Out_ok ⟨E, 10, tweak⟩ lg hlg hr (vals perfDigits) hv (by decide)
  obtain ⟨g1, g2, _⟩ := ff1Undo_ok ⟨E, 10, tweak⟩ lg hlg hr (vals perfDigits) hv (by decide)
  rw [perfInput_eq]
  exact ⟨⟨_, digits_of h1 h2, writes_of fun o h => ff1Encrypt_eq ⟨E, 10, tweak⟩ lg hlg hr perfDigits [] o perfDigits_ok (by decide)
      (by rw [h]; decide) (.inl ht)⟩,
    ⟨_, digits_of g1 g2, writes_of fun o h => ff1Decrypt_eq ⟨E, 10, tweak⟩ lg hlg hr perfDigits [] o perfDigits_ok (by decide)
      (by rw [h]; decide) (.inl ht)⟩⟩

theorem ff3_writes (E : Block → Block) (lg : Nat → Nat → Nat) (hlg : LgOk lg) (tweak : List Byte) (ht : 8 ≤ tweak.length) :
    (∃ a, Digits a ∧ Writes (ff3Encrypt ⟨E, 10, tweak⟩ lg perfInput) a) ∧
    (∃ a, Digits a ∧ Writes (ff3Decrypt ⟨E, 10, tweak⟩ lg perfInput) a) := by
  have hr : 2 ≤ 10 := by decide
  have hv : ∀ d ∈ vals perfDigits, d < 10 := vals_lt perfDigits perfDigits_ok
  obtain ⟨h1, h2, _⟩ := ff3Out_ok ⟨E, 10, tweak⟩ lg hlg hr ht (vals perfDigits) hv (by decide)
  obtain ⟨g1, g2, _⟩ := ff3Undo_ok ⟨E, 10, tweak⟩ lg hlg hr ht (vals perfDigits) hv (by decide)
  rw [perfInput_eq]
  exact ⟨⟨_, digits_of h1 h2, writes_of fun o h => ff3Encrypt_eq ⟨E, 10, tweak⟩ lg hlg hr ht perfDigits [] o perfDigits_ok (by decide)
      (by rw [h]; decide)⟩,
    ⟨_, digits_of g1 g2, writes_of fun o h => ff3Decrypt_eq ⟨E, 10, tweak⟩ lg hlg hr ht perfDigits [] o perfDigits_ok (by decide)
      (by rw [h]; decide)⟩⟩

/-- C132: `test_wbaes_fpe`, `test_sm4_fpe`, `test_wbsm4_fpe`, for any block cipher: the 2560 calls leave in `cipher` what one call of FF3
decryption of `input` leaves there; nothing that was encrypted is decrypted. -/
theorem C132_fpe (E : Block → Block) (lg : Nat → Nat → Nat) (hlg : LgOk lg) (ctx : FpeCtx) (hc : fpeInit perfTweak 10 E = some ctx) :
    ∃ a, Digits a ∧ ff3Decrypt ctx lg perfInput (List.replicate 50 0) = some (a ++ List.replicate 33 0) ∧
      fpePerform E lg perfTweak = some (a ++ List.replicate 33 0) := by
  have hc' : ctx = ⟨E, 10, perfTweak⟩ := Option.some.inj (hc.symm.trans rfl)
  subst hc'
  obtain ⟨⟨a, a1, a2⟩, ⟨b, b1, b2⟩⟩ := ff1_writes E lg hlg perfTweak (by decide)
  obtain ⟨⟨c, c1, c2⟩, ⟨d, d1, d2⟩⟩ := ff3_writes E lg hlg perfTweak (by decide)
  have hd : (List.replicate 50 (0 : Byte)).drop 17 = List.replicate 33 0 := List.drop_replicate ..
  refine ⟨d, d1, by rw [d2 _ (List.length_replicate ..), hd], ?_⟩
  rw [fpePerform, hc, Option.bind_some, ff1Perform, two_loops a1 b1 a2 b2 _ (List.length_replicate ..), Option.bind_some, ff3Perform,
    two_loops c1 d1 c2 d2 _ (by rw [List.length_append, List.length_drop, digits_length b1, List.length_replicate]),
    List.drop_left' (digits_length b1), hd]

/-- C132, defect: `test_aes_fpe` has the tweak `""`, of one byte with its terminator. Its FF1 loops are defined, its first FF3 call reads
eight bytes of the tweak: the program is undefined for every cipher and every value of the logarithm. -/
theorem C132_fpe_aes (E : Block → Block) (lg : Nat → Nat → Nat) (ctx : FpeCtx) (hc : fpeInit perfTweakAes 10 E = some ctx) :
    (LgOk lg → ∃ a, Digits a ∧ ff1Perform ctx lg (List.replicate 50 0) = some (a ++ List.replicate 33 0)) ∧
    fpePerform E lg perfTweakAes = none := by
  have hc' : ctx = ⟨E, 10, perfTweakAes⟩ := Option.some.inj (hc.symm.trans rfl)
  subst hc'
  refine ⟨fun hlg => ?_, ?_⟩
  · obtain ⟨⟨a, a1, a2⟩, ⟨b, b1, b2⟩⟩ := ff1_writes E lg hlg perfTweakAes (by decide)
    refine ⟨b, b1, ?_⟩
    rw [ff1Perform, two_loops a1 b1 a2 b2 _ (List.length_replicate ..), List.drop_replicate]
  · rw [fpePerform, hc, Option.bind_some]
    cases ff1Perform ⟨E, 10, perfTweakAes⟩ lg (List.replicate 50 0) with
    | none => rfl
    | some o =>
      rw [Option.bind_some, ff3Perform, show testCycles * 64 = 639 + 1 from rfl,
        repeatCall_none _ 639 o (C49_ff3_short_tweak perfTweakAes 10 E _ hc (by decide) lg perfInput o).1]
      rfl

/-! ### fpe_mac_perform.c -/

/-- C132: `test_ff1_cmac`, for any block cipher and whatever the calls find in their uninitialised memory: the decryption loop
restores `input`. -/
theorem C132_cmac (E : Block → Block) (lg : Nat → Nat → Nat) (hlg : LgOk lg) (junk junk' : Nat → Nat → Block) :
    ∃ a, Digits a ∧ cmacPerform E lg junk junk' = some (a ++ List.replicate 33 0, perfInput ++ List.replicate 33 0) := by
  have hr : 2 ≤ 10 := by decide
  have hv : ∀ d ∈ vals perfDigits, d < 10 := vals_lt perfDigits perfDigits_ok
  have hq : QOk lg perfTweakAes 10 perfDigits.length := .inl (by decide)
  obtain ⟨h1, h2, _⟩ := ff1Out_ok ⟨E, 10, perfTweakAes⟩ lg hlg hr (vals perfDigits) hv (by decide)
  have hd := digits_of h1 h2
  refine ⟨_, hd, ?_⟩
  rw [cmacPerform, show fpeInit perfTweakAes 10 E = some ⟨E, 10, perfTweakAes⟩ from rfl, Option.bind_some,
    show testCycles * 64 = 639 + 1 from rfl,
    repeatCall_same _ _ 50 17 (by decide) (digits_length hd) (fun n o ho => by
      rw [perfInput_eq, cmacEncrypt_eq ⟨E, 10, perfTweakAes⟩ lg hlg hr (junk n) perfDigits [] o perfDigits_ok (by decide)
        (by rw [ho]; decide) hq, Option.map_some, List.append_assoc]; rfl) 639 _ (List.length_replicate ..), Option.bind_some,
    repeatCall_same _ perfInput 50 17 (by decide) (by decide) (fun n o ho => by
      rw [List.append_assoc]
      show ((cmacDecrypt _ lg (junk' n) (_ ++ 0 :: _) o).map (·.1)) = _
      rw [cmacDecrypt_eq ⟨E, 10, perfTweakAes⟩ lg hlg hr (show 10 ≤ 36 by decide) (junk' n) perfDigits _ o perfDigits_ok (by decide)
        (by rw [ho]; decide) hq, Option.map_some, perfInput_eq, List.append_assoc]; rfl) 639 _ (List.length_replicate ..),
    Option.bind_some, List.drop_replicate]

/-- C132, defect: `test_ff3_gmac` has the same tweak of one byte, of which FF3-GMAC reads sixteen: undefined. -/
theorem C132_gmac (E : Block → Block) (lg : Nat → Nat → Nat) : gmacPerform E lg = none := by
  rw [gmacPerform, show fpeInit perfTweakAes 10 E = some ⟨E, 10, perfTweakAes⟩ from rfl, Option.bind_some,
    show testCycles * 64 = 639 + 1 from rfl, repeatCall_none _ 639 _ (by
      rw [(C52_gmac_short_tweak perfTweakAes 10 E ⟨E, 10, perfTweakAes⟩ rfl (by decide) lg perfInput _).1]; rfl)]
  rfl

/-! ### fpe_app_perform.c -/

/-- C132, defect: in the C language each loop of fpe_app_perform.c is undefined in its first call (C54); with a byte to spare behind
the array of every call it is defined for both engines, and keeps the digits that the sample shows. -/
theorem C132_app (app : FpeApp) (lg : Nat → Nat → Nat) (mem : Nat → AppMem) :
    (mem 9).slack = 0 → appPerform app lg mem (List.replicate 200 0) = none := by
  intro h
  have h0 := (C54_phone_overflow app lg (mem 9) perfPhone perfSample [] [] (List.replicate 200 0) (by decide) (by decide)
    (.inr (by decide)) h).1
  exact repeatCall_none _ 9 _ h0

theorem C132_app_slack (app : FpeApp) (lg : Nat → Nat → Nat) (hlg : LgOk lg) (mem : Nat → AppMem) (h : ∀ k, 1 ≤ (mem k).slack) :
    ∃ o : List Byte, o.length = 11 ∧ (∀ i, ¬ Hidden perfSample i → o[i]? = perfPhone[i]?) ∧
      appPerform app lg mem (List.replicate 200 0) = some (o ++ List.replicate 189 0) := by
  have hk : HiddenOk app.ffx perfSample perfPhone.length := by
    cases app.ffx <;> (unfold HiddenOk; decide)
  obtain ⟨⟨o, h1, h2, _, h4⟩, _⟩ := C53_phone_mask app lg hlg perfPhone perfSample (by decide) (by decide) (.inr (by decide))
    (by unfold Hidden IsNumeral; decide) hk
  refine ⟨o, h1, h2, ?_⟩
  rw [appPerform, show testCycles = 9 + 1 from rfl,
    repeatCall_same _ o 200 11 (by decide) h1 (fun n x hx => h4 (mem n) [] [] x (h n) (by rw [hx]; decide)) 9 _ (List.length_replicate ..),
    List.drop_replicate]

/-- The hypotheses of `C132_app_slack` and `C132_fpe` hold for the exact logarithm and arrays with one byte to spare. -/
example : LgOk (fun r k => Nat.clog 2 (r ^ k)) ∧ ∀ k : Nat, 1 ≤ ((fun _ => ⟨fun _ => 7, fun _ => 7, fun _ => 7, 1⟩ : Nat → AppMem) k).slack :=
  ⟨lgOk_clog, fun _ => Nat.le_refl 1⟩

/-! ### the modes -/

theorem perfMsg_length : perfMsg.length = 1024 := by rw [perfMsg, List.length_map, List.length_range]

theorem perfMsg_pad : Spec.pkcs7 perfMsg = perfMsg := by
  rw [Spec.pkcs7, perfMsg_length]
  exact List.append_nil _

theorem perfMsg_blocks : ∃ ps : List Block, fromBlocks ps = perfMsg ∧ ps.length = 64 := by
  obtain ⟨ps, h⟩ := exists_blocks perfMsg (by rw [perfMsg_length])
  refine ⟨ps, h, ?_⟩
  have := congrArg List.length h
  rw [length_fromBlocks, perfMsg_length] at this
  omega

/-- One call of the CBC loop. -/
theorem cbcPerf_call (E : Block → Block) (ps : List Block) (h : fromBlocks ps = perfMsg) (hl : ps.length = 64) (out : List Byte) (iv : Block)
    (ho : out.length = 1024) : Model.cbcEncrypt E false perfMsg out 1024 iv = some
      ⟨1, fromBlocks (Spec.cbcEncrypt E iv ps), some (BitVec.ofNat 64 1024), iv⟩ := by
  rw [C03_cbc_encrypt E perfMsg out 1024 iv ps (by rw [perfMsg_pad, h]) (by rw [perfMsg_length]; decide)
    (by rw [perfMsg_pad, perfMsg_length]) (by rw [ho]), hl, List.drop_of_length_le (by rw [ho]), List.append_nil]

theorem cbcPerf_moved (E : Block → Block) (out : List Byte) (iv : Block) : Model.cbcEncrypt E true perfMsg out 1024 iv = none :=
  C03_realloc_move_undefined E perfMsg out 1024 iv (by rw [perfMsg_length]; decide)
    (fun h => by have := perfMsg_length; rw [h] at this; exact absurd this (by decide)) (by rw [perfMsg_pad, perfMsg_length])

theorem spec_cbc_length (E : Block → Block) (ps : List Block) : ∀ iv, (Spec.cbcEncrypt E iv ps).length = ps.length := by
  induction ps with
  | nil => intro iv; rfl
  | cons p ps ih => intro iv; rw [Spec.cbcEncrypt, List.length_cons, ih, List.length_cons]

theorem cbcPerfLoop_run (E : Block → Block) (moved : Nat → Bool) (ps : List Block) (h : fromBlocks ps = perfMsg) (hl : ps.length = 64)
    (iv : Block) : ∀ (n : Nat) (out : List Byte), out.length = 1024 → (∀ k, k < n → moved k = false) →
    cbcPerfLoop E moved n (out, iv) = some (if n = 0 then out else fromBlocks (Spec.cbcEncrypt E iv ps), iv) := by
  intro n
  induction n with
  | zero => intro out _ _; rfl
  | succ n ih =>
    intro out ho hm
    rw [cbcPerfLoop, hm n (by omega), cbcPerf_call E ps h hl out iv ho, Option.bind_some,
      ih _ (by rw [length_fromBlocks, spec_cbc_length, hl]) fun k hk => hm k (by omega), if_neg (Nat.succ_ne_zero n)]
    split <;> rfl

theorem cbcPerfLoop_moved (E : Block → Block) (moved : Nat → Bool) (ps : List Block) (h : fromBlocks ps = perfMsg) (hl : ps.length = 64)
    (iv : Block) : ∀ (n : Nat) (out : List Byte), out.length = 1024 → (∃ k, k < n ∧ moved k = true) →
    cbcPerfLoop E moved n (out, iv) = none := by
  intro n
  induction n with
  | zero => rintro out _ ⟨k, hk, _⟩; omega
  | succ n ih =>
    rintro out ho ⟨k, hk, hm⟩
    rw [cbcPerfLoop]
    cases hn : moved n with
    | true => rw [cbcPerf_moved]; rfl
    | false =>
      have hkn : k ≠ n := fun h => by rw [h, hn] at hm; exact (nomatch hm)
      rw [cbcPerf_call E ps h hl out iv ho, Option.bind_some,
        ih _ (by rw [length_fromBlocks, spec_cbc_length, hl]) ⟨k, by omega, hm⟩]

/-- C132: the CBC loops of wbsm4_perform.c and wbaes_perform.c, for any block cipher: defined exactly if `realloc` moves the message in none
of the 10240 calls; then every call encrypts with the same IV, and `cipher1024` holds the CBC encryption of the message. -/
theorem C132_cbc (E : Block → Block) (moved : Nat → Bool) (iv : Block) :
    (∀ ps : List Block, fromBlocks ps = perfMsg → (∀ k, k < 10240 → moved k = false) →
      cbcPerform E moved iv = some (fromBlocks (Spec.cbcEncrypt E iv ps))) ∧
    ((∃ k, k < 10240 ∧ moved k = true) → cbcPerform E moved iv = none) := by
  have hl : ∀ ps : List Block, fromBlocks ps = perfMsg → ps.length = 64 := fun ps h => by
    have := congrArg List.length h
    rw [length_fromBlocks, perfMsg_length] at this
    omega
  constructor
  · intro ps h hm
    rw [cbcPerform, show testCycles * 1024 = 10240 from rfl, cbcPerfLoop_run E moved ps h (hl ps h) iv 10240 _ (List.length_replicate ..) hm]
    rfl
  · intro hm
    obtain ⟨ps, h, hl⟩ := perfMsg_blocks
    rw [cbcPerform, show testCycles * 1024 = 10240 from rfl, cbcPerfLoop_moved E moved ps h hl iv 10240 _ (List.length_replicate ..) hm]
    rfl

attribute [local irreducible] perfMsg

theorem gcmPerf_call (c : GcmCtx) (out : List Byte) (ho : out.length = 1024) :
    ∃ c', gcmEncrypt c perfMsg out 1024 = some ⟨1, c', gctr c.block (inc32 (toBV c.y)) perfMsg⟩ ∧ c'.block = c.block ∧
      toBV c'.y = incN 64 (toBV c.y) := by
  have h := gcmEncrypt_eq c perfMsg out 1024 (by rw [perfMsg_length]; decide) (by rw [perfMsg_length]) (by rw [ho])
  rw [List.drop_of_length_le (by rw [ho, perfMsg_length]), List.append_nil] at h
  have hy := (fold_y c (chunks perfMsg) c.y c.buf []).1
  rw [foldl_inc, chunks_count, perfMsg_length, show (1024 + 15) / 16 = 64 from rfl] at hy
  refine ⟨_, h, rfl, ?_⟩
  rw [← hy]

theorem gcmPerfLoop_run (E : Block → Block) : ∀ (n : Nat) (c : GcmCtx) (out : List Byte) (v : BitVec 128), c.block = E → toBV c.y = v →
    out.length = 1024 → gcmPerfLoop n (c, out) = some ((List.range n).map fun k => gctr E (incN (64 * k + 1) v) perfMsg) := by
  intro n
  induction n with
  | zero => intro c out v _ _ _; rfl
  | succ n ih =>
    intro c out v hb hv ho
    obtain ⟨c', h1, h2, h3⟩ := gcmPerf_call c out ho
    rw [gcmPerfLoop, h1, Option.bind_some, ih c' _ (incN 64 v) (h2.trans hb) (by rw [h3, hv])
      (by rw [length_gctr, perfMsg_length]), Option.bind_some, List.range_succ_eq_map, List.map_cons, List.map_map, hb, hv]
    have e0 : gctr E (incN (64 * 0 + 1) v) perfMsg = gctr E (inc32 v) perfMsg := by rw [Nat.mul_zero, Nat.zero_add, incN_one]
    rw [e0]
    refine congrArg (fun l => some (gctr E (inc32 v) perfMsg :: l)) ?_
    apply List.map_congr_left
    intro k _
    rw [← incN_add]
    show gctr E (incN (64 * k + 1 + 64) v) perfMsg = gctr E (incN (64 * (k + 1) + 1) v) perfMsg
    rw [show 64 * k + 1 + 64 = 64 * (k + 1) + 1 by omega]

/-- C132: the GCM loops of wbsm4_perform.c and wbaes_perform.c, for any block cipher, IV and AAD: call `k` encrypts the message under the counters
that follow those of the call before; no counter is used twice. -/
theorem C132_gcm (E : Block → Block) (iv aad : List Byte) (hiv : iv.length < 2 ^ 29) :
    gcmPerform E iv aad = some ((List.range 10240).map fun k => gctr E (incN (64 * k + 1) (j0 E iv)) perfMsg) ∧
    (∀ k k' i i', k < 10240 → k' < 10240 → i < 64 → i' < 64 →
      incN (64 * k + 1 + i) (j0 E iv) = incN (64 * k' + 1 + i') (j0 E iv) → k = k' ∧ i = i') := by
  refine ⟨gcmPerfLoop_run E 10240 _ _ _ (gcm_start_at E iv aad hiv).1 (gcm_start_at E iv aad hiv).2 (List.length_replicate ..), ?_⟩
  intro k k' i i' hk hk' hi hi' h
  rw [incN_eq_iff, Nat.mod_eq_of_lt (by omega), Nat.mod_eq_of_lt (by omega)] at h
  omega

end Verif.Props
