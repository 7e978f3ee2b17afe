import Verif.Model.GcmParallel

/-!
Model of whole calls of `WBCRYPTO_gcm_parallel_encrypt` and `WBCRYPTO_gcm_parallel_decrypt`
(`/repo/src/modes/gcm_parallel.c` lines 4-69, 71-136; same text) for every `inlen`, which lines 11 and 78 convert to `int`.
-/
set_option autoImplicit false

namespace Verif.Model

/-- `(len - 1) / 16 + 1` in `int` (lines 19, 86); `none` is the overflow of `len - 1`. -/
def parBlocksInt (len : Int) : Option Int :=
  if len = -2 ^ 31 then none else some ((len - 1).tdiv 16 + 1)

/-- The assignment of the iterations to the threads of the region: every iteration is done once. -/
structure FairAssign (nb : Nat) (assign : Nat → List Nat) : Prop where
  cover : ∀ i, i < nb → ∃ t, i ∈ assign t
  range : ∀ t, ∀ i ∈ assign t, i < nb
  unique : ∀ t u i, i ∈ assign t → i ∈ assign u → t = u
  nodup : ∀ t, (assign t).Nodup

/-- The outcomes of a call, `none` being undefined behaviour. -/
inductive ParCall (sh : Bool) (c : GcmCtx) (inbuf : List Byte) (inlen : Nat) (out : List Byte) (outlen : Nat) :
    Option GcmResult → Prop where
  /-- Lines 8-9. -/
  | refused : outlen < inlen → ParCall sh c inbuf inlen out outlen (some { ret := 0, ctx := c, out := out })
  /-- Line 19 overflows. -/
  | overflow : inlen ≤ outlen → parBlocksInt (intLen inlen) = none → ParCall sh c inbuf inlen out outlen none
  /-- `len_s` is a negative number read as `size_t`: the `malloc` of line 21 fails for want of memory, and line 24 writes to
  address 0. -/
  | noMemory (n : Int) : inlen ≤ outlen → parBlocksInt (intLen inlen) = some n → n < 0 →
      ParCall sh c inbuf inlen out outlen none
  /-- `len_s = 0`: no loop does anything. -/
  | nothing : inlen ≤ outlen → parBlocksInt (intLen inlen) = some 0 → ParCall sh c inbuf inlen out outlen
      (some { ret := 1, ctx := { c with len := c.len + BitVec.ofInt 64 (intLen inlen) }, out := out })
  /-- `len` is negative but `len_s` is not: `use_len` (line 43) is a negative number read as `size_t`, and line 48 runs past
  `ectr`. -/
  | pastEnd (n : Int) : inlen ≤ outlen → parBlocksInt (intLen inlen) = some n → 0 < n → intLen inlen < 0 →
      ParCall sh c inbuf inlen out outlen none
  /-- The region under some assignment and schedule runs to its end. -/
  | done (assign : Nat → List Nat) (j0 : Nat) (sched : List Nat) (s : PState) : inlen ≤ outlen → 0 ≤ intLen inlen →
      FairAssign (parBlocks (intLen inlen).toNat) assign →
      parRun (parCfg sh c inbuf (intLen inlen).toNat) (parInit out j0 assign) sched = some s → s.Done →
      ParCall sh c inbuf inlen out outlen (some (parTail c (intLen inlen).toNat s.out))
  /-- The region leaves its objects. -/
  | leaves (assign : Nat → List Nat) (j0 : Nat) (sched : List Nat) : inlen ≤ outlen → 0 ≤ intLen inlen →
      FairAssign (parBlocks (intLen inlen).toNat) assign →
      parRun (parCfg sh c inbuf (intLen inlen).toNat) (parInit out j0 assign) sched = none →
      ParCall sh c inbuf inlen out outlen none

end Verif.Model
