import Verif.Model.Gcm

/-!
`gcm_mult` and the loop over the AAD (`/repo/src/modes/gcm128.c`) with a record of the table lookups.
-/
set_option autoImplicit false

namespace Verif.Model

/-- `ctx->HH`, `ctx->HL` (modes.h lines 36-37) and `last4` (modes.h lines 12-14). -/
inductive GcmTab where
  | hh | hl | last4
  deriving DecidableEq

/-- A lookup. All three tables have 16 entries of eight bytes. -/
structure GcmLook where
  tab : GcmTab
  idx : BitVec 4
  deriving DecidableEq

/-- A result with the lookups made for it, in order. -/
structure GcmTraced (α : Type) where
  val : α
  log : List GcmLook

instance : Monad GcmTraced where
  pure a := ⟨a, []⟩
  bind m f := ⟨(f m.val).val, m.log ++ (f m.val).log⟩

def lookG (tab : GcmTab) (t : Vector (BitVec 64) 16) (n : BitVec 4) : GcmTraced (BitVec 64) := ⟨t[n.toFin], [⟨tab, n⟩]⟩

/-- One 4-bit step (gcm128.c lines 21-26 and 28-33). -/
def multStepTr (HL HH : Vector (BitVec 64) 16) (zh zl : BitVec 64) (n : BitVec 4) : GcmTraced (BitVec 64 × BitVec 64) := do
  let rem : BitVec 4 := zl.truncate 4
  let zl := (zh <<< 60) ||| (zl >>> 4)
  let zh := zh >>> 4
  let l ← lookG .last4 last4 rem
  let h ← lookG .hh HH n
  let g ← lookG .hl HL n
  pure (zh ^^^ (l <<< 48) ^^^ h, zl ^^^ g)

/-- Loop body of `gcm_mult` (lines 17-33). -/
def multByteTr (HL HH : Vector (BitVec 64) 16) (x : Block) (z : BitVec 64 × BitVec 64) (i : Fin 16) :
    GcmTraced (BitVec 64 × BitVec 64) := do
  let lo : BitVec 4 := x[i].truncate 4
  let hi : BitVec 4 := (x[i] >>> 4).truncate 4
  if i.1 ≠ 15 then
    let z ← multStepTr HL HH z.1 z.2 lo
    multStepTr HL HH z.1 z.2 hi
  else
    multStepTr HL HH z.1 z.2 hi

/-- `gcm_mult` (lines 3-39). -/
def gcmMultTr (HL HH : Vector (BitVec 64) 16) (x : Block) : GcmTraced Block := do
  let lo : BitVec 4 := x[15].truncate 4
  let h ← lookG .hh HH lo
  let l ← lookG .hl HL lo
  let z ← [15, 14, 13, 12, 11, 10, 9, 8, 7, 6, 5, 4, 3, 2, 1, 0].foldlM (multByteTr HL HH x) (h, l)
  pure (putBlock (z.1 >>> 32) z.1 (z.2 >>> 32) z.2)

/-- `WBCRYPTO_gcm_aad` (lines 139-160). -/
def gcmAadTr (c : GcmCtx) (aad : List Byte) : GcmTraced GcmCtx := do
  let b ← (chunks aad).foldlM (fun b p => gcmMultTr c.HL c.HH (xorInto b p)) c.buf
  pure { c with addLen := BitVec.ofNat 64 aad.length, buf := b }

end Verif.Model
