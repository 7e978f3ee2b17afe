import Verif.Model.Oom
import Verif.Props.Shuffle
import Verif.Props.Wbsm4Bytes

/-!
C107: what happens when memory runs out. A computation in `Oom` is a function of the answers to all requests for memory; the
theorems are about every pattern of answers.
-/
set_option autoImplicit false

namespace Verif.Props
open Verif Spec Model

/-- Requests `k`, .., `k + n - 1` are granted. -/
def granted (ok : Nat → Bool) (k n : Nat) : Bool := (List.range n).all fun i => ok (k + i)

/-- `P` makes `n` requests and, when they are all granted, computes `r`; when one is refused it uses a null pointer: it never
reports the lack of memory. -/
def Unreported {α : Type} (P : Oom α) (n : Nat) (r : Option α) : Prop :=
  ∀ ok k, P ok k = if granted ok k n then r.map fun a => (a, k + n) else none

theorem granted_iff (ok : Nat → Bool) (k n : Nat) : granted ok k n = true ↔ ∀ i < n, ok (k + i) = true := by
  simp [granted]

theorem granted_add (ok : Nat → Bool) (k a b : Nat) : granted ok k (a + b) = (granted ok k a && granted ok (k + a) b) := by
  simp only [granted, List.range_add, List.all_append, List.all_map, Function.comp_def, Nat.add_assoc]

theorem granted_succ (ok : Nat → Bool) (k n : Nat) : granted ok k (n + 1) = (ok k && granted ok (k + 1) n) := by
  rw [Nat.add_comm n 1, granted_add]; simp [granted]

theorem granted_zero (ok : Nat → Bool) (k : Nat) : granted ok k 0 = true := by simp [granted]

section
variable {α β : Type}

theorem bindO (x : Oom α) (f : α → Oom β) (ok : Nat → Bool) (k : Nat) :
    (x >>= f) ok k = (x ok k).bind fun r => f r.1 ok r.2 := rfl
theorem pureO (a : α) (ok : Nat → Bool) (k : Nat) : (pure a : Oom α) ok k = some (a, k) := rfl
theorem askO (ok : Nat → Bool) (k : Nat) : ask ok k = some (ok k, k + 1) := rfl
theorem useO (p : Bool) (ok : Nat → Bool) (k : Nat) : use p ok k = if p then some ((), k) else none := rfl
theorem liftO (x : Option α) (ok : Nat → Bool) (k : Nat) : oomLift x ok k = x.map fun a => (a, k) := rfl

/-- A loop whose body makes `c` requests and uses a null pointer exactly when `p i` fails. -/
theorem loopO_eq (f : Nat → Oom α) (p : Nat → Bool) (v : Nat → (Nat → Bool) → Nat → α) (c : Nat)
    (h : ∀ i ok k, f i ok k = if p i then some (v i ok k, k + c) else none) (n i : Nat) (ok : Nat → Bool) (k : Nat) :
    loopO f n i ok k = if (List.range n).all fun j => p (i + j)
      then some ((List.range n).map fun j => v (i + j) ok (k + c * j), k + c * n) else none := by
  induction n generalizing i k with
  | zero => simp [loopO, pureO]
  | succ n ih =>
    rw [loopO, bindO, h, List.range_succ_eq_map]
    by_cases hp : p i
    · simp only [hp, if_true, Option.bind_some, bindO, ih, pureO, List.all_cons, List.all_map, Function.comp_def, Nat.add_zero,
        Bool.true_and, List.map_cons, List.map_map, Nat.mul_zero, Nat.succ_eq_add_one]
      have e : ∀ j, i + 1 + j = i + (j + 1) := fun j => by omega
      have e' : ∀ j, k + c + c * j = k + c * (j + 1) := fun j => by rw [Nat.mul_add]; omega
      simp only [e, e']
      split <;> simp
    · simp [hp]

theorem asks_eq (n : Nat) (ok : Nat → Bool) (k : Nat) :
    asks n ok k = some ((List.range n).map fun i => ok (k + i), k + n) := by
  rw [asks, loopO_eq _ (fun _ => true) (fun _ ok k => ok k) 1 (fun i ok k => by simp [askO])]
  simp

theorem Unreported.bind {P : Oom α} {Q : α → Oom β} {n m : Nat} {r : Option α} {s : α → Option β} (hP : Unreported P n r)
    (hQ : ∀ a, Unreported (Q a) m (s a)) : Unreported (P >>= Q) (n + m) (r.bind s) := by
  intro ok k
  rw [bindO, hP, granted_add]
  by_cases h : granted ok k n
  · cases r with
    | none => simp [h]
    | some a => simp [h, hQ a ok (k + n), Nat.add_assoc]
  · simp [h]

theorem Unreported.lift (r : Option α) : Unreported (oomLift r) 0 r := by
  intro ok k; simp [liftO, granted_zero]

theorem Unreported.pure (a : α) : Unreported (pure a : Oom α) 0 (some a) := by
  intro ok k; simp [pureO, granted_zero]

end

/-! ### functions that test the result -/

/-- The constructors of one structure: whatever the allocator answers they are defined and make one request; the result is `NULL`
exactly when it is refused. The context `WBCRYPTO_gcm_init` gives otherwise is complete: every message sealed with it has the
ciphertext and the tag of SP 800-38D. -/
theorem C107_tested (E : Block → Block) (ok : Nat → Bool) (k : Nat) :
    ctxInitO ok k = some (ok k, k + 1) ∧
    ∃ ctx, gcmInitO E ok k = some (ctx, k + 1) ∧ (ctx = none ↔ ok k = false) ∧
      ∀ c ∈ ctx, ∀ (iv aad p out : List Byte) (outlen : Nat), iv.length < 2 ^ 29 → aad.length < 2 ^ 61 → p.length < 2 ^ 31 →
        p.length ≤ outlen → outlen ≤ out.length →
        sealMsg c iv aad p out outlen 16 = some (1, gcmCipher E iv p ++ out.drop p.length,
          (gcmTag E iv aad (gcmCipher E iv p)).toList) := by
  refine ⟨rfl, if ok k then some (gcmInit E) else none, rfl, by by_cases h : ok k <;> simp [h], ?_⟩
  intro c hc iv aad p out outlen h1 h2 h3 h4 h5
  by_cases h : ok k
  · simp only [h, if_true, Option.mem_def, Option.some.injEq] at hc
    exact hc ▸ C12_gcm_nist E iv aad p out outlen h1 h2 h3 h4 h5
  · simp [h] at hc

/-! ### functions that do not -/

theorem sm4Key_unreported (key : List Byte) (mode : EncMode) : Unreported (sm4InitKeyO true key mode) 2 (some (sm4InitKey key mode)) := by
  intro ok k
  simp only [sm4InitKeyO, bindO, askO, useO, pureO, Option.bind_some, granted_succ, granted_zero]
  cases ok k <;> cases ok (k + 1) <;> simp

/-- With a context that may be null (the caller has not tested it). -/
theorem sm4Ctx_unreported (key : List Byte) (mode : EncMode) :
    Unreported (ctxInitO >>= fun p => sm4InitKeyO p key mode) 3 (some (sm4InitKey key mode)) := by
  intro ok k
  simp only [ctxInitO, sm4InitKeyO, bindO, askO, useO, pureO, Option.bind_some, granted_succ, granted_zero]
  cases ok k <;> cases ok (k + 1) <;> cases ok (k + 1 + 1) <;> simp

theorem ff1Frame_unreported {α : Type} (c : FpeCtx) (f : FpeCtx → Option α) : Unreported (ff1FrameO (some c) f) 3 (f c) := by
  intro ok k
  simp only [ff1FrameO, bindO, askO, useO, liftO, Option.bind_some, Option.map_some, granted_succ, granted_zero]
  cases h : ok k <;> cases h' : ok (k + 1) <;> cases h'' : ok (k + 1 + 1) <;> simp [h'']

theorem ff3Frame_unreported {α : Type} (c : FpeCtx) (f : FpeCtx → Option α) : Unreported (ff3FrameO (some c) f) 1 (f c) := by
  intro ok k
  simp only [ff3FrameO, bindO, askO, useO, liftO, Option.bind_some, Option.map_some, granted_succ, granted_zero]
  cases ok k <;> simp

theorem yArr_unreported (n : Nat) (y : Block) : Unreported (yArrO y n) n (some (yArr y n)) := by
  induction n generalizing y with
  | zero => exact Unreported.pure _
  | succ n ih =>
    intro ok k
    simp only [yArrO, bindO, askO, useO, pureO, Option.bind_some, granted_succ]
    cases ok k
    · simp
    · simp only [if_true, Option.bind_some, ih _ ok (k + 1), Bool.true_and]
      split <;> simp [yArr, Nat.add_assoc, Nat.add_comm 1 n]

/-- Requests of the key schedule of SM4, the generator for self-equivalences, the export of a white-box key, the parallel mode
and file encryption: whichever is refused, the call is undefined; with all granted the result is that of the other modules. -/
theorem C107_untested (key : List Byte) (mode : EncMode) (r : SeRnd) (s : Wbsm4Struct) (y : Block) (len : Nat) (c : GcmCtx)
    (junk : Vector Byte 4) (fs : FS) (inp out : Path) :
    Unreported (sm4InitKeyO true key mode) 2 (some (sm4InitKey key mode)) ∧
    Unreported (seGenTableO r mode key) 3 (some (seGenTable r mode key)) ∧
    Unreported (key2bytesO s) 1 (some (key2bytes s)) ∧
    Unreported (gcmParallelO y len) (1 + parBlocks len) (some (yArr y (parBlocks len))) ∧
    Unreported (gcmfileEncryptO (some c) junk fs inp out) 1 (gcmfileEncrypt c junk fs inp out) := by
  refine ⟨sm4Key_unreported key mode, ?_, ?_, ?_, ?_⟩
  · exact (sm4Ctx_unreported key mode).bind fun _ => Unreported.pure _
  · intro ok k
    simp only [key2bytesO, bindO, askO, useO, pureO, Option.bind_some, granted_succ, granted_zero]
    cases ok k <;> simp
  · intro ok k
    rw [Nat.add_comm 1, granted_succ]
    simp only [gcmParallelO, bindO, askO, useO, Option.bind_some]
    cases ok k
    · simp
    · simp only [if_true, Option.bind_some, yArr_unreported (parBlocks len) y ok (k + 1), Bool.true_and]
      split <;> simp <;> omega
  · intro ok k
    simp only [gcmfileEncryptO, bindO, askO, useO, liftO, Option.bind_some, Option.map_some, granted_succ, granted_zero]
    cases ok k <;> simp

/-- FF1, FF1-CMAC (three requests), FF3 and FF3-GMAC (one): the documented result 0 for errors does not occur. -/
theorem C107_fpe (c : FpeCtx) (lg : Nat → Nat → Nat) (junk : Nat → Block) (input output : List Byte) :
    Unreported (ff1FrameO (some c) fun c => ff1Encrypt c lg input output) 3 (ff1Encrypt c lg input output) ∧
    Unreported (ff1FrameO (some c) fun c => ff1Decrypt c lg input output) 3 (ff1Decrypt c lg input output) ∧
    Unreported (ff1FrameO (some c) fun c => cmacEncrypt c lg junk input output) 3 (cmacEncrypt c lg junk input output) ∧
    Unreported (ff1FrameO (some c) fun c => cmacDecrypt c lg junk input output) 3 (cmacDecrypt c lg junk input output) ∧
    Unreported (ff3FrameO (some c) fun c => ff3Encrypt c lg input output) 1 (ff3Encrypt c lg input output) ∧
    Unreported (ff3FrameO (some c) fun c => ff3Decrypt c lg input output) 1 (ff3Decrypt c lg input output) ∧
    Unreported (ff3FrameO (some c) fun c => gmacEncrypt c lg input output) 1 (gmacEncrypt c lg input output) ∧
    Unreported (ff3FrameO (some c) fun c => gmacDecrypt c lg input output) 1 (gmacDecrypt c lg input output) :=
  ⟨ff1Frame_unreported c _, ff1Frame_unreported c _, ff1Frame_unreported c _, ff1Frame_unreported c _, ff3Frame_unreported c _,
    ff3Frame_unreported c _, ff3Frame_unreported c _, ff3Frame_unreported c _⟩

/-! ### contexts in two parts -/

/-- `WBCRYPTO_fpe_init`, radix in range: the structure is tested, the copy of the tweak is not. -/
theorem C107_fpe_init (tweak : List Byte) (radix : Nat) (E : Block → Block) (hr : 2 ≤ radix ∧ radix ≤ 36) (ok : Nat → Bool)
    (k : Nat) :
    fpeInitO tweak radix E ok k =
      if ok k then (if ok (k + 1) then some (fpeInit tweak radix E, k + 2) else none) else some (none, k + 1) := by
  have h : ¬ (radix < 2 ∨ radix > 36) := by omega
  simp only [fpeInitO, bindO, askO, Option.bind_some, fpeInit, if_neg h]
  cases ok k
  · simp [pureO]
  · simp only [Bool.true_eq_false, false_or, h, if_false, bindO, askO, useO, pureO, Option.bind_some, if_true]
    cases ok (k + 1) <;> simp

/-- `WBCRYPTO_fpe_mac_init` when the second request is refused: not `NULL`, but the context in it is. Every encryption and
decryption with it is undefined, whatever memory there is. -/
theorem C107_half_made_mac (tweak : List Byte) (radix : Nat) (E : Block → Block) (hr : 2 ≤ radix ∧ radix ≤ 36)
    (ok : Nat → Bool) (k : Nat) :
    fpeMacInitO tweak radix E ok k =
      (if ok k then
        if ok (k + 1) then (if ok (k + 2) then some (some (fpeInit tweak radix E), k + 3) else none)
        else some (some none, k + 2)
      else some (none, k + 1)) ∧
    ∀ {α : Type} (f : FpeCtx → Option α) (ok' : Nat → Bool) (k' : Nat),
      ff1FrameO none f ok' k' = none ∧ ff3FrameO none f ok' k' = none := by
  refine ⟨?_, fun f ok' k' => ⟨rfl, rfl⟩⟩
  have h : ¬ (radix < 2 ∨ radix > 36) := by omega
  simp only [fpeMacInitO, bindO, askO, Option.bind_some]
  cases ok k
  · simp [pureO]
  · simp only [Bool.true_eq_false, false_or, h, if_false, bindO, pureO, C107_fpe_init tweak radix E hr, if_true]
    cases ok (k + 1)
    · simp
    · cases ok (k + 1 + 1) <;> simp

/-- The same for the context of file encryption. -/
theorem C107_half_made_gcmfile (E : Block → Block) (ok : Nat → Bool) (k : Nat) :
    gcmfileInitO E ok k =
      (if ok k then some (some (if ok (k + 1) then some (gcmInit E) else none), k + 2) else some (none, k + 1)) ∧
    ∀ (iv : List Byte) (junk : Vector Byte 4) (fs : FS) (inp out : Path) (ok' : Nat → Bool) (k' : Nat),
      gcmfileSetivO none iv ok' k' = none ∧ gcmfileAadO none iv ok' k' = none ∧
      gcmfileEncryptO none junk fs inp out ok' k' = none := by
  refine ⟨?_, fun iv junk fs inp out ok' k' => ⟨rfl, rfl, ?_⟩⟩
  · simp only [gcmfileInitO, gcmInitO, bindO, askO, Option.bind_some]
    cases ok k <;> simp [bindO, pureO, askO]
  · simp only [gcmfileEncryptO, bindO, askO, useO, liftO, Option.bind_some]
    cases ok' k' <;> simp

/-! ### CBC -/

/-- CBC encryption of a message that is not empty: undefined when `realloc` is refused; when only the first request is, a call
that is refused for lack of space is still answered properly and every other is undefined. -/
theorem C107_cbc (E : Block → Block) (inp out : List Byte) (maxOlen : Nat) (ivec : Block) (hi : inp ≠ []) (ok : Nat → Bool)
    (k : Nat) :
    cbcEncryptO E inp out maxOlen ivec ok k =
      if ok (k + 1) ∧ (ok k ∨ ∃ p, pkcs7Merge inp = some p ∧ maxOlen < p.length)
      then (cbcEncrypt E false inp out maxOlen ivec).map fun r => (r, k + 2) else none := by
  have he : inp.isEmpty = false := by simpa using hi
  simp only [cbcEncryptO, bindO, askO, useO, liftO, Option.bind_some, he, Bool.or_false]
  cases h1 : ok (k + 1)
  · simp
  · cases hp : pkcs7Merge inp with
    | none => simp [Model.cbcEncrypt, hp]
    | some p =>
      by_cases hl : maxOlen < p.length
      · simp [hl]
      · cases h0 : ok k <;> simp [hl]

/-! ### white-box SM4 -/

theorem useAsks (p : Nat → Bool) (c n : Nat) (ok : Nat → Bool) (k : Nat) :
    loopO (fun i => do
      use (p i)
      asks c) n 0 ok k = if (List.range n).all p
        then some ((List.range n).map fun i => (List.range c).map fun l => ok (k + c * i + l), k + c * n) else none := by
  rw [loopO_eq _ p (fun _ ok k => (List.range c).map fun l => ok (k + l)) c (by
    intro i ok' k'
    simp only [bindO, useO, asks_eq]
    split <;> simp)]
  simp

theorem useAsks2 (p : Nat → Nat → Bool) (c m n : Nat) (ok : Nat → Bool) (k : Nat) :
    loopO (fun i => loopO (fun j => do
      use (p i j)
      asks c) m 0) n 0 ok k = if (List.range n).all fun i => (List.range m).all (p i)
        then some ((List.range n).map fun i => (List.range m).map fun j => (List.range c).map fun l =>
          ok (k + c * m * i + c * j + l), k + c * m * n) else none := by
  rw [loopO_eq _ (fun i => (List.range m).all (p i))
    (fun _ ok k => (List.range m).map fun j => (List.range c).map fun l => ok (k + c * j + l)) (c * m) (by
      intro i ok' k'
      rw [useAsks])]
  simp

theorem granted_mul (ok : Nat → Bool) (a c n : Nat) :
    granted ok a (c * n) = (List.range n).all fun i => granted ok (a + c * i) c := by
  induction n with
  | zero => simp [granted]
  | succ m ih => rw [Nat.mul_succ, granted_add, ih, List.range_succ, List.all_append]; simp

theorem getD_rangeMap {α : Type} (f : Nat → α) (n i : Nat) (h : i < n) (d : α) : ((List.range n).map f).getD i d = f i := by
  rw [List.getD_eq_getElem?_getD]; simp [h]

/-- The tables of a context made with requests from `k` on, `n` rounds: for each round twelve for `MM`, and then twelve for the
rest. -/
def leavesOf (ok : Nat → Bool) (k n : Nat) : WbLeaves :=
  ⟨(List.range n).map fun i => (List.range 3).map fun j => (List.range 4).map fun l => ok (k + 5 + 7 * n + 12 * i + 4 * j + l),
    (List.range n).map fun i => (List.range 4).map fun j => (List.range 3).map fun l =>
      ok (k + 5 + 19 * n + 12 * i + 3 * j + l)⟩

theorem all_congr_range (n : Nat) (p q : Nat → Bool) (h : ∀ i < n, p i = q i) : (List.range n).all p = (List.range n).all q := by
  rw [Bool.eq_iff_iff, List.all_eq_true, List.all_eq_true]
  constructor
  · intro g i hi; rw [← h i (List.mem_range.1 hi)]; exact g i hi
  · intro g i hi; rw [h i (List.mem_range.1 hi)]; exact g i hi

theorem all_and_range (n : Nat) (p q : Nat → Bool) :
    ((List.range n).all fun i => p i && q i) = ((List.range n).all p && (List.range n).all q) := by
  rw [Bool.eq_iff_iff, Bool.and_eq_true]
  simp only [List.all_eq_true, Bool.and_eq_true]
  exact ⟨fun h => ⟨fun i hi => (h i hi).1, fun i hi => (h i hi).2⟩, fun h i hi => ⟨h.1 i hi, h.2 i hi⟩⟩

theorem wbsm4InitO_eq (d : Nat) (ok : Nat → Bool) (k : Nat) (h0 : ok k = true) :
    wbsm4ContextInitO d ok k =
      if granted ok (k + 1) (4 + 7 * (32 + 4 * d)) then
        some (some (leavesOf ok k (32 + 4 * d)), k + 5 + 31 * (32 + 4 * d)) else none := by
  generalize hn : 32 + 4 * d = n
  have n0 : 0 < n := by omega
  have hg : granted ok (k + 1) (4 + 7 * n) =
      (granted ok (k + 1) 4 && (granted ok (k + 5) (4 * n) && granted ok (k + 5 + 4 * n) (3 * n))) := by
    rw [granted_add, show 7 * n = 4 * n + 3 * n by omega, granted_add]
  simp only [wbsm4ContextInitO, bindO, askO, Option.bind_some, h0, if_true, asks_eq, hn]
  rw [useAsks (fun _ => _), hg]
  have e1 : (((List.range 4).map fun i => ok (k + 1 + i)).all id) = granted ok (k + 1) 4 := by
    simp [granted, List.all_map, Function.comp_def]
  simp only [e1]
  cases g1 : granted ok (k + 1) 4
  · have : ((List.range n).all fun _ => false) = false := by
      rw [List.all_eq_false]; exact ⟨0, List.mem_range.2 n0, by simp⟩
    simp [this]
  have t : ((List.range n).all fun _ => true) = true := by simp
  simp only [t, if_true, Option.bind_some, Bool.true_and]
  rw [useAsks (fun i => _)]
  rw [all_congr_range n _ (fun i => ok (k + 1 + 4 + 4 * i)) (fun i hi => by
    rw [getD_rangeMap _ n i hi]; simp [List.range_succ])]
  have hrow : granted ok (k + 5) (4 * n) = (((List.range n).all fun i => ok (k + 1 + 4 + 4 * i)) &&
      (List.range n).all fun i => granted ok (k + 1 + 4 + 4 * i + 1) 3) := by
    rw [granted_mul, ← all_and_range]
    exact all_congr_range n _ _ fun i _ => granted_succ ok (k + 5 + 4 * i) 3
  rw [hrow]
  cases c1 : (List.range n).all fun i => ok (k + 1 + 4 + 4 * i)
  · simp
  simp only [if_true, Option.bind_some, Bool.true_and]
  rw [useAsks2 (fun i j => _)]
  rw [all_congr_range n _ (fun i => granted ok (k + 5 + 4 * n + 3 * i) 3) (fun i hi => by
    rw [granted]
    refine all_congr_range 3 _ _ fun j hj => ?_
    rw [getD_rangeMap _ n i hi, getD_rangeMap _ 3 j hj])]
  rw [granted_mul ok (k + 5 + 4 * n) 3 n]
  cases c2 : (List.range n).all fun i => granted ok (k + 5 + 4 * n + 3 * i) 3
  · simp
  simp only [if_true, Option.bind_some, Bool.and_true]
  rw [useAsks2 (fun i _ => _)]
  rw [all_congr_range n _ (fun i => granted ok (k + 1 + 4 + 4 * i + 1) 3) (fun i hi => by
    rw [getD_rangeMap _ n i hi]
    simp [List.range_succ, granted, Nat.add_assoc])]
  cases c3 : (List.range n).all fun i => granted ok (k + 1 + 4 + 4 * i + 1) 3
  · simp
  simp only [if_true, Option.bind_some, pureO, leavesOf, Option.some.injEq, Prod.mk.injEq, WbLeaves.mk.injEq]
  have a1 : k + 1 + 4 + 4 * n + 3 * n = k + 5 + 7 * n := by omega
  have a2 : k + 5 + 7 * n + 4 * 3 * n = k + 5 + 19 * n := by omega
  refine ⟨⟨?_, ?_⟩, by omega⟩
  · simp only [a1]
  · simp only [a1, a2]

theorem leaves_full (ok : Nat → Bool) (k n i : Nat) (hi : i < n) :
    (leavesOf ok k n).full i = (granted ok (k + 5 + 7 * n + 12 * i) 12 && granted ok (k + 5 + 19 * n + 12 * i) 12) := by
  rw [WbLeaves.full, leavesOf]
  dsimp only
  rw [getD_rangeMap _ n i hi, getD_rangeMap _ n i hi]
  simp only [granted, List.all_map, Function.comp_def, id, show List.range 3 = [0, 1, 2] from rfl,
    show List.range 4 = [0, 1, 2, 3] from rfl, show List.range 12 = [0, 1, 2, 3, 4, 5, 6, 7, 8, 9, 10, 11] from rfl,
    List.all_cons, List.all_nil, Bool.and_true, Nat.mul_zero, Nat.add_zero, Nat.mul_one, Nat.add_assoc, Nat.reduceMul, Nat.reduceAdd]
  simp only [Bool.and_assoc]

theorem leaves_ccTable (ok : Nat → Bool) (k n i : Nat) (hi : i < n) :
    (leavesOf ok k n).ccTable i = (List.range 4).all fun j =>
      ok (k + 5 + 19 * n + 12 * i + 3 * j) && ok (k + 5 + 19 * n + 12 * i + 3 * j + 2) := by
  rw [WbLeaves.ccTable, leavesOf]
  dsimp only
  rw [getD_rangeMap _ n i hi, List.all_map]
  simp [Function.comp_def, List.range_succ]

/-- `WBCRYPTO_wbsm4_context_init` for `n = 32 + 4 d` rounds makes `31 n + 5` requests. Refusing the first gives `NULL`; refusing
one of the next `7 n + 4` is undefined; the other `24 n` are not looked at: the context is returned with tables missing. -/
theorem C107_wbsm4_init (d n : Nat) (hn : n = 32 + 4 * d) (ok : Nat → Bool) (k : Nat) :
    (ok k = false → wbsm4ContextInitO d ok k = some (none, k + 1)) ∧
    (ok k = true → granted ok (k + 1) (4 + 7 * n) = false → wbsm4ContextInitO d ok k = none) ∧
    (ok k = true → granted ok (k + 1) (4 + 7 * n) = true → ∃ L, wbsm4ContextInitO d ok k = some (some L, k + 5 + 31 * n) ∧
      ∀ i < n, (L.full i = true ↔
          granted ok (k + 5 + 7 * n + 12 * i) 12 = true ∧ granted ok (k + 5 + 19 * n + 12 * i) 12 = true) ∧
        (L.ccTable i = true ↔ ∀ j < 4, ok (k + 5 + 19 * n + 12 * i + 3 * j) = true ∧
          ok (k + 5 + 19 * n + 12 * i + 3 * j + 2) = true)) := by
  subst hn
  refine ⟨fun h => ?_, fun h hg => ?_, fun h hg => ⟨leavesOf ok k (32 + 4 * d), ?_, fun i hi => ⟨?_, ?_⟩⟩⟩
  · simp [wbsm4ContextInitO, bindO, askO, h, pureO]
  · rw [wbsm4InitO_eq d ok k h, hg]; rfl
  · rw [wbsm4InitO_eq d ok k h, hg]; rfl
  · rw [leaves_full ok k _ i hi, Bool.and_eq_true]
  · rw [leaves_ccTable ok k _ i hi]; simp

/-- `WBCRYPTO_wbsm4_gen_table` makes six requests and tests none. It writes to all tables of the rounds and to `CC` and `Table`
of the dummy rounds, so a context without one of these is undefined here at the latest. -/
theorem C107_wbsm4_gen (L : WbLeaves) (r : Wbsm4Rnd) (junk : Nat → WbRound) (mode : EncMode) (d : Nat) (key arr : List Byte)
    (ha : dummyArray r.shuf d = some arr) (ok : Nat → Bool) (k : Nat) :
    wbsm4GenTableO L r junk mode d key ok k =
      if granted ok k 6 = true ∧ ∀ i (hi : i < arr.length), if arr[i] = 0 then L.full i = true else L.ccTable i = true
      then (wbsm4GenTable r junk mode d key).map fun c => (c, k + 6) else none := by
  have hw : L.written arr = true ↔ ∀ i (hi : i < arr.length), if arr[i] = 0 then L.full i = true else L.ccTable i = true := by
    rw [WbLeaves.written, List.all_eq_true]
    constructor
    · intro h i hi
      have := h i (List.mem_range.2 hi)
      rw [List.getD_eq_getElem?_getD, List.getElem?_eq_getElem hi, Option.getD_some] at this
      by_cases h0 : arr[i] = 0#8
      · simpa [h0] using this
      · simpa [h0] using this
    · intro h i hi
      have hi := List.mem_range.1 hi
      have := h i hi
      rw [List.getD_eq_getElem?_getD, List.getElem?_eq_getElem hi, Option.getD_some]
      by_cases h0 : arr[i] = 0#8
      · simpa [h0] using this
      · simpa [h0] using this
  simp only [← propext hw]
  rw [wbsm4GenTable, ha, Option.bind_some]
  have e : wbsm4GenTableO L r junk mode d key = ((ctxInitO >>= fun p => sm4InitKeyO p key mode) >>= fun _ =>
      (do
        let da ← ask
        use da
        let randNumbers ← ask
        use randNumbers
        let result ← ask
        use result
        let arr ← oomLift (dummyArray r.shuf d)
        use (L.written arr)
        oomLift (genTableWith r junk mode key arr) : Oom Wbsm4Ctx)) := by
    funext ok' k'
    simp only [wbsm4GenTableO, bindO, Option.bind_assoc]
  rw [e, bindO, sm4Ctx_unreported key mode ok k, show 6 = 3 + 3 from rfl, granted_add]
  cases h3 : granted ok k 3
  · simp
  simp only [if_true, Option.map_some, Option.bind_some, bindO, askO, useO, liftO, ha, Bool.true_and, granted_succ, granted_zero]
  cases h4 : ok (k + 3)
  · simp
  cases h5 : ok (k + 3 + 1)
  · simp [h5]
  cases h6 : ok (k + 3 + 1 + 1)
  · simp [h5, h6]
  cases hl : L.written arr <;> simp [h5, h6]

theorem expandDummy_length (da : List Byte) : (expandDummy da).length = (da.map fun d => if d ≠ 0 then 4 else 1).sum := by
  induction da with
  | nil => rfl
  | cons d da ih =>
    rw [expandDummy, List.flatMap_cons, List.length_append, List.map_cons, List.sum_cons, ← ih, expandDummy]
    split <;> simp

theorem dummyArray_spec (shuf : Nat → BitVec 32) (d : Nat) :
    ∃ arr, dummyArray shuf d = some arr ∧ arr.length = 32 + 4 * d := by
  obtain ⟨l, hl, hp⟩ := C58_shuffle shuf (List.replicate 32 0 ++ List.replicate d 1)
  refine ⟨expandDummy l, by rw [dummyArray, hl]; rfl, ?_⟩
  rw [expandDummy_length, (hp.map _).sum_nat, List.map_append, List.map_replicate, List.map_replicate, List.sum_append,
    List.sum_replicate_nat, List.sum_replicate_nat, if_neg (by decide), if_pos (by decide)]
  omega

/-- Making a white-box SM4 context and encrypting one block, without testing pointers: `31 n + 11` requests, all needed. -/
theorem C107_wbsm4 (r : Wbsm4Rnd) (junk : Nat → WbRound) (mode : EncMode) (d : Nat) (key : List Byte) (x : Block) :
    Unreported (do
      let L ← oomLift (← wbsm4ContextInitO d)
      let c ← wbsm4GenTableO L r junk mode d key
      wbsm4EncryptO L c x) (31 * (32 + 4 * d) + 11) ((wbsm4GenTable r junk mode d key).map fun c => wbsm4Encrypt c x) := by
  intro ok k
  obtain ⟨arr, ha, hlen⟩ := dummyArray_spec r.shuf d
  obtain ⟨i1, i2, i3⟩ := C107_wbsm4_init d _ rfl ok k
  generalize hn : 32 + 4 * d = n at *
  have hg : granted ok k (31 * n + 11) = (ok k && (granted ok (k + 1) (4 + 7 * n) && (granted ok (k + 5 + 7 * n) (24 * n) &&
      granted ok (k + 5 + 31 * n) 6))) := by
    rw [show 31 * n + 11 = (4 + 7 * n + (24 * n + 6)) + 1 by omega, granted_succ, granted_add ok _ (4 + 7 * n),
      show k + 1 + (4 + 7 * n) = k + 5 + 7 * n by omega, granted_add ok _ (24 * n), show k + 5 + 7 * n + 24 * n = k + 5 + 31 * n by omega]
  rw [hg, bindO]
  cases h0 : ok k
  · rw [i1 h0]; simp [bindO, liftO]
  cases h1 : granted ok (k + 1) (4 + 7 * n)
  · rw [i2 h0 h1]; simp
  obtain ⟨L, hL, hf⟩ := i3 h0 h1
  rw [hL]
  simp only [Option.bind_some, bindO, liftO, Option.map_some, Bool.true_and]
  rw [C107_wbsm4_gen L r junk mode d key arr ha]
  have hall : granted ok (k + 5 + 7 * n) (24 * n) = (List.range n).all L.full := by
    rw [show 24 * n = 12 * n + 12 * n by omega, granted_add, granted_mul, granted_mul, ← all_and_range]
    refine all_congr_range n _ _ fun i hi => ?_
    rw [Bool.eq_iff_iff, (hf i hi).1, Bool.and_eq_true, show k + 5 + 7 * n + 12 * n = k + 5 + 19 * n by omega]
  cases h6 : granted ok (k + 5 + 31 * n) 6
  · simp
  cases hc : wbsm4GenTable r junk mode d key with
  | none => simp
  | some c =>
    have hcl : c.rnds.length = n := by
      rw [wbsm4GenTable, ha, Option.bind_some, genTableWith] at hc
      obtain ⟨rs, hrs, rfl⟩ := Option.map_eq_some_iff.1 hc
      rw [← hlen]; exact genRounds_length _ _ _ _ _ _ _ _ hrs
    rw [hall]
    cases hA : (List.range n).all L.full
    · have e : ((some c).map fun c => (c, k + 5 + 31 * n + 6)).bind (fun p => wbsm4EncryptO L p.1 x ok p.2) = none := by
        rw [Option.map_some, Option.bind_some, wbsm4EncryptO, bindO, useO, hcl, hA]; rfl
      split
      · rw [e]; simp
      · simp
    · have hA' : ∀ i < n, L.full i = true := by simpa using hA
      rw [if_pos]
      · rw [Option.map_some, Option.bind_some, wbsm4EncryptO, bindO, useO, hcl, hA]
        simp [pureO]; omega
      · refine ⟨rfl, fun i hi => ?_⟩
        have hin : i < n := by omega
        split
        · exact hA' i hin
        · rw [(hf i hin).2]
          have := ((hf i hin).1.1 (hA' i hin)).2
          rw [granted_iff] at this
          exact fun j hj => ⟨by simpa [Nat.add_assoc] using this (3 * j) (by omega), by simpa [Nat.add_assoc] using this (3 * j + 2) (by omega)⟩

/-- Two refusals that differ: without the second table of the last round white-box SM4 is made and cannot be used; the first
request alone is reported. -/
example : (∃ L, wbsm4ContextInitO 1 (fun i => i != 5 + 31 * 36 - 1) 0 = some (some L, 1121) ∧ L.full 35 = false ∧ L.full 34 = true) ∧
    wbsm4ContextInitO 1 (fun i => i != 0) 0 = some (none, 1) := by
  constructor
  · obtain ⟨L, hL, hf⟩ := (C107_wbsm4_init 1 36 rfl (fun i => i != 5 + 31 * 36 - 1) 0).2.2 rfl (by decide +kernel)
    refine ⟨L, hL, ?_, (hf 34 (by decide)).1.2 ⟨by decide +kernel, by decide +kernel⟩⟩
    rw [← Bool.not_eq_true, (hf 35 (by decide)).1]
    exact fun h => absurd h.2 (by decide +kernel)
  · exact (C107_wbsm4_init 1 36 rfl (fun i => i != 0) 0).1 rfl

/-! ### masked white-box GCM -/

theorem maskInit_eq (ok : Nat → Bool) (k : Nat) : maskInitTableO ok k =
    if ok k then
      if granted ok (k + 1) 17 then
        some (some ((List.range 16).map fun i => (List.range 256).map fun j => ok (k + 18 + 256 * i + j)), k + 4114) else none
    else some (none, k + 1) := by
  rw [maskInitTableO, bindO, askO, Option.bind_some]
  cases h0 : ok k
  · simp [pureO]
  dsimp only
  rw [if_pos rfl, if_pos rfl, bindO, askO, Option.bind_some, bindO,
    loopO_eq _ (fun _ => ok (k + 1)) (fun _ ok k => ok k) 1 (fun i ok' k' => by
      simp only [bindO, useO, askO]; cases ok (k + 1) <;> simp), show 17 = 16 + 1 from rfl, granted_succ]
  cases h1 : ok (k + 1)
  · rw [if_neg (by decide)]; simp
  simp only [List.all_eq_true, implies_true, if_true, Option.bind_some, Bool.true_and, Nat.one_mul]
  rw [bindO, loopO_eq _ (fun i => ((List.range 16).map fun j => ok (k + 1 + 1 + j)).getD i false)
    (fun _ ok k => (List.range 256).map fun j => ok (k + j)) 256 (fun i ok' k' => by
      simp only [bindO, useO]
      cases ((List.range 16).map fun j => ok (k + 1 + 1 + j)).getD i false
      · simp
      · simp only [if_true, Option.bind_some]
        exact asks_eq 256 ok' k')]
  have e : ((List.range 16).all fun j => ((List.range 16).map fun j => ok (k + 1 + 1 + j)).getD (0 + j) false) =
      granted ok (k + 1 + 1) 16 := by
    rw [granted]
    refine all_congr_range 16 _ _ fun i hi => ?_
    rw [Nat.zero_add, getD_rangeMap _ 16 i hi]
  rw [e]
  cases granted ok (k + 1 + 1) 16
  · simp
  · simp [pureO]

/-- `WBCRYPTO_wbaes_wbgcm_mask_init_table`: of its 4114 requests the first is tested, the next 17 are used at once, the last 4096
are not looked at. Two such contexts and their tables: 8228 requests, all needed, none reported. -/
theorem C107_mask (ok : Nat → Bool) (k : Nat) (re rd : WbaesRnd) (roe rod : Fin 16 → Fin 2 → Nat → BitVec 32) (r : WbMaskRnd)
    (key : Block) :
    (ok k = false → maskInitTableO ok k = some (none, k + 1)) ∧
    (ok k = true → granted ok (k + 1) 17 = false → maskInitTableO ok k = none) ∧
    (ok k = true → granted ok (k + 1) 17 = true → ∃ l, maskInitTableO ok k = some (some l, k + 4114)) ∧
    Unreported (do
      let e ← maskInitTableO
      let e ← oomLift e
      let d ← maskInitTableO
      let d ← oomLift d
      wbMaskGenTableO e d re rd roe rod r key) 8228 (some (wbMaskGenTable re rd roe rod r key)) := by
  refine ⟨fun h => ?_, fun h h' => ?_, fun h h' => ?_, fun ok k => ?_⟩
  · rw [maskInit_eq, h]; rfl
  · rw [maskInit_eq, h, h']; rfl
  · rw [maskInit_eq, h, h']; exact ⟨_, rfl⟩
  have hs : ∀ k, granted ok k 4114 = (ok k && (granted ok (k + 1) 17 &&
      (((List.range 16).map fun i => (List.range 256).map fun j => ok (k + 18 + 256 * i + j)).all fun l => l.all id))) := by
    intro k
    rw [show 4114 = (17 + 256 * 16) + 1 from rfl, granted_succ, granted_add ok _ 17, granted_mul ok _ 256 16, show k + 1 + 17 = k + 18 from rfl]
    simp only [granted, List.all_map, Function.comp_def, id]
  rw [show 8228 = 4114 + 4114 from rfl, granted_add, hs k, hs (k + 4114)]
  rw [bindO, maskInit_eq]
  cases ok k
  · simp [bindO, liftO]
  cases granted ok (k + 1) 17
  · simp
  simp only [if_true, Option.bind_some, bindO, liftO, Option.map_some, Bool.true_and]
  rw [maskInit_eq]
  cases ok (k + 4114)
  · simp
  cases granted ok (k + 4114 + 1) 17
  · simp
  simp only [if_true, Option.bind_some, Option.map_some, Bool.true_and, wbMaskGenTableO, bindO, useO, pureO]
  generalize (((List.range 16).map fun i => (List.range 256).map fun j => ok (k + 18 + 256 * i + j)).all fun l => l.all id) = a
  generalize (((List.range 16).map fun i => (List.range 256).map fun j => ok (k + 4114 + 18 + 256 * i + j)).all fun l => l.all id) = b
  cases a <;> cases b <;> simp

/-! ### applications -/

/-- `WBCRYPTO_fpe_app_init`: no refusal is reported. With white-box SM4 the initialisation either is undefined or gives what it
gives with memory enough, in some cases with tables missing (`C107_wbsm4` has the first use). -/
theorem C107_app_init (mem : AppInitMem) (key : List Byte) (keylen : Nat) (cipher ffx : String) :
    (cipher ≠ "wbsm4" → Unreported (fpeAppInitO mem key keylen cipher ffx) (if cipher = "sm4" then 3 else 1)
      (fpeAppInit mem key keylen cipher ffx)) ∧
    (cipher = "wbsm4" → ∀ ok k,
      (fpeAppInitO mem key keylen cipher ffx ok k = none ∨
        fpeAppInitO mem key keylen cipher ffx ok k = (fpeAppInit mem key keylen cipher ffx).map fun a => (a, k + 1127)) ∧
      (granted ok k 257 = false ∨ granted ok (k + 1121) 6 = false → fpeAppInitO mem key keylen cipher ffx ok k = none) ∧
      (granted ok k 1127 = true →
        fpeAppInitO mem key keylen cipher ffx ok k = (fpeAppInit mem key keylen cipher ffx).map fun a => (a, k + 1127))) := by
  have em : ∀ {α β : Type} (x : Option α) (f : α → Oom β) ok k, (oomLift x >>= f) ok k = x.bind fun a => f a ok k := by
    intro α β x f ok k
    cases x <;> rfl
  constructor
  · intro hc ok k
    rw [fpeAppInitO, em, fpeAppInit]
    cases appInputKey mem key keylen with
    | none => simp
    | some w =>
      simp only [Option.bind_some, if_neg hc]
      by_cases h1 : cipher = "sm4"
      · simp only [if_pos h1]
        exact ((sm4Ctx_unreported w.toList .encrypt).bind fun rk => Unreported.pure (FpeApp.mk (Model.sm4Encrypt rk) (ffxOf ffx))) ok k
      simp only [if_neg h1, granted_succ, granted_zero, Bool.and_true]
      by_cases h2 : cipher = "wbaes"
      · subst h2
        simp only [if_true, bindO, ctxInitO, askO, useO, pureO, Option.bind_some]
        cases ok k <;> simp
      · simp only [if_neg h2, ite_self, bindO, ctxInitO, askO, useO, pureO, liftO, Option.bind_some]
        cases ok k
        · simp
        · cases aesInitKey w.toList 16 <;> simp
  · rintro rfl ok k
    obtain ⟨arr, ha, hlen⟩ := dummyArray_spec mem.sm4.shuf 1
    obtain ⟨i1, i2, i3⟩ := C107_wbsm4_init 1 36 rfl ok k
    have hs : granted ok k 257 = (ok k && granted ok (k + 1) 256) := granted_succ ok k 256
    have hs' : granted ok k 1127 = (granted ok k 257 && (granted ok (k + 257) 864 && granted ok (k + 1121) 6)) := by
      rw [show 1127 = 257 + (864 + 6) from rfl, granted_add ok k 257 (864 + 6), granted_add ok _ 864]
    rw [fpeAppInitO, em, fpeAppInit]
    cases appInputKey mem key keylen with
    | none => simp
    | some w =>
      simp only [Option.bind_some, if_neg (show ¬ ("wbsm4" = "sm4") by decide), if_true]
      rw [bindO, hs', hs]
      cases h0 : ok k
      · rw [i1 h0]; simp [em]
      cases h1 : granted ok (k + 1) 256
      · rw [i2 h0 h1]; simp
      obtain ⟨L, hL, hf⟩ := i3 h0 h1
      rw [hL]
      simp only [Option.bind_some, em, Bool.true_and, Bool.true_eq_false, false_or]
      rw [bindO, C107_wbsm4_gen L mem.sm4 mem.sm4Junk .encrypt 1 w.toList arr ha]
      cases h6 : granted ok (k + 1121) 6
      · simp
      refine ⟨?_, nofun, fun hg => ?_⟩
      · split
        · right; cases wbsm4GenTable mem.sm4 mem.sm4Junk .encrypt 1 w.toList <;> simp [pureO]
        · left; rfl
      · rw [Bool.and_true] at hg
        have hA' : ∀ i < 36, L.full i = true := by
          intro i hi
          rw [(hf i hi).1]
          rw [granted_iff] at hg
          constructor
          · rw [granted_iff]; intro j hj
            have := hg (12 * i + j) (by omega)
            rwa [show k + 257 + (12 * i + j) = k + 5 + 7 * 36 + 12 * i + j by omega] at this
          · rw [granted_iff]; intro j hj
            have := hg (432 + 12 * i + j) (by omega)
            rwa [show k + 257 + (432 + 12 * i + j) = k + 5 + 19 * 36 + 12 * i + j by omega] at this
        rw [if_pos]
        · cases wbsm4GenTable mem.sm4 mem.sm4Junk .encrypt 1 w.toList <;> simp [pureO]
        · refine ⟨rfl, fun i hi => ?_⟩
          have hin : i < 36 := by omega
          split
          · exact hA' i hin
          · rw [(hf i hin).2]
            have := ((hf i hin).1.1 (hA' i hin)).2
            rw [granted_iff] at this
            exact fun j hj => ⟨by simpa [Nat.add_assoc] using this (3 * j) (by omega),
              by simpa [Nat.add_assoc] using this (3 * j + 2) (by omega)⟩

/-- Encrypting or decrypting a phone number, identity card number or Chinese text in an application. -/
theorem C107_app_call (ffx : Ffx) (call : Option (List Byte)) :
    Unreported (appCallO ffx call) (match ffx with | .ff1 => 5 | .ff3 => 3) call := by
  intro ok k
  rw [appCallO, bindO, C107_fpe_init [] 10 id (by decide)]
  cases ffx with
  | ff1 =>
    dsimp only
    rw [show 5 = 3 + 1 + 1 from rfl, granted_succ, granted_succ]
    cases h0 : ok k
    · simp [ff1FrameO, bindO, liftO]
    cases h1 : ok (k + 1)
    · simp
    · simp only [if_true, Option.bind_some]
      exact ff1Frame_unreported _ (fun _ => call) ok (k + 2)
  | ff3 =>
    dsimp only
    rw [show 3 = 1 + 1 + 1 from rfl, granted_succ, granted_succ]
    cases h0 : ok k
    · simp [ff3FrameO, bindO, liftO]
    cases h1 : ok (k + 1)
    · simp
    · simp only [if_true, Option.bind_some]
      exact ff3Frame_unreported _ (fun _ => call) ok (k + 2)

/-- A program that calls `WBCRYPTO_fpe_app_init` with SM4 and FF1 for a row and encrypts a phone number: eight requests. -/
example (mem : AppInitMem) (am : AppMem) (key phone sample out : List Byte) (lg : Nat → Nat → Nat) :
    Unreported (do
      let app ← fpeAppInitO mem key key.length "sm4" "ff1"
      appCallO .ff1 (encryptPhone app lg am phone sample out)) 8
      ((fpeAppInit mem key key.length "sm4" "ff1").bind fun app => encryptPhone app lg am phone sample out) :=
  Unreported.bind ((C107_app_init mem key key.length "sm4" "ff1").1 (by decide)) fun _ => C107_app_call .ff1 _

/-- A caller that tests every pointer it gets: SM4 context, key, FPE context, FF1. Of the eight requests only the first and the
fourth can be refused without an undefined run. -/
theorem C107_careful (key tweak : List Byte) (radix : Nat) (hr : 2 ≤ radix ∧ radix ≤ 36) (lg : Nat → Nat → Nat)
    (input output : List Byte) (ok : Nat → Bool) :
    (do
      let p ← ctxInitO
      if p then
        let rk ← sm4InitKeyO p key .encrypt
        let c ← fpeInitO tweak radix (sm4Encrypt rk)
        match c with
        | some c => do
          let r ← ff1FrameO (some c) fun c => ff1Encrypt c lg input output
          pure (some r)
        | none => pure none
      else pure none : Oom (Option (List Byte))) ok 0 =
    if ok 0 then
      if ok 1 ∧ ok 2 then
        if ok 3 then
          if ok 4 ∧ ok 5 ∧ ok 6 ∧ ok 7 then
            (ff1Encrypt ⟨sm4Encrypt (sm4InitKey key .encrypt), radix, tweak⟩ lg input output).map fun r => (some r, 8)
          else none
        else some (none, 4)
      else none
    else some (none, 1) := by
  rw [bindO, ctxInitO, askO, Option.bind_some]
  cases h0 : ok 0
  · simp [pureO]
  simp only [if_true]
  rw [bindO, sm4Key_unreported key .encrypt ok (0 + 1)]
  simp only [granted_succ, granted_zero, Bool.and_true]
  cases h1 : ok 1
  · simp
  cases h2 : ok 2
  · simp
  simp only [Nat.zero_add, Nat.reduceAdd, Bool.and_true, if_true, Option.map_some, Option.bind_some, and_true]
  rw [bindO, C107_fpe_init tweak radix _ hr]
  cases h3 : ok 3
  · simp [pureO]
  have h : ¬ (radix < 2 ∨ radix > 36) := by omega
  cases h4 : ok 4
  · simp
  simp only [if_true, Nat.reduceAdd, Option.bind_some, fpeInit, if_neg h]
  rw [bindO, ff1Frame_unreported _ _ ok 5]
  simp only [granted_succ, granted_zero, Bool.and_true, Nat.reduceAdd]
  cases h5 : ok 5 <;> cases h6 : ok 6 <;> cases h7 : ok 7 <;> simp [pureO]
  cases ff1Encrypt ⟨Model.sm4Encrypt (sm4InitKey key .encrypt), radix, tweak⟩ lg input output <;> simp

/-- The sixth request refused: a caller that tests everything still has an undefined run, where the third one is reported. -/
example : (ff1FrameO (some ⟨id, 10, []⟩) fun c => ff1Encrypt c (fun _ _ => 20) [0x31, 0x32, 0] [0, 0, 0]) (fun i => i != 1) 0 = none ∧
    (fpeInitO [1, 2] 10 id (fun i => i != 0) 0).map (·.1.isSome) = some false ∧
    fpeInitO [1, 2] 10 id (fun i => i != 1) 0 = none := ⟨rfl, rfl, rfl⟩

/-- CBC: one of its two requests refused. The first is not noticed when the output buffer is too short. -/
example : (cbcEncryptO id [1, 2, 3] (List.replicate 16 0) 16 zeroBlock (fun i => i != 0) 0).isNone = true ∧
    (cbcEncryptO id [1, 2, 3] (List.replicate 16 0) 15 zeroBlock (fun i => i != 0) 0).isSome = true ∧
    (cbcEncryptO id [1, 2, 3] (List.replicate 16 0) 16 zeroBlock (fun i => i != 1) 0).isNone = true ∧
    (cbcEncryptO id [1, 2, 3] (List.replicate 16 0) 16 zeroBlock (fun _ => true) 0).isSome = true := by decide +kernel

end Verif.Props
