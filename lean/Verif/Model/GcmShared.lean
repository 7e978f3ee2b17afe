import Verif.Model.Gcm

/-!
`WBCRYPTO_gcm_encrypt` and `WBCRYPTO_gcm_decrypt` (`/repo/src/modes/gcm128.c` lines 162-259) called by several threads with one
context. No line of the library locks anything. Every thread makes one call; a scheduler picks the thread that makes the next
step. A step is one of the five statements of the calls that touch the context, each taken to be indivisible: what can go wrong
here goes wrong as well if threads can also be interrupted inside a statement. `used` records which counter blocks were given to
the cipher.
-/
set_option autoImplicit false

namespace Verif.Model

/-- The next statement of a call: `ctx->len += len` (line 177), the increment of `ctx->y` (line 184), the cipher (line 187), the
loop over the bytes (lines 190-199), `gcm_mult` (line 201). -/
inductive SPc where
  | enter | inc | enc | mix | mult
  deriving DecidableEq

/-- A call: whether it decrypts, the pieces still to do (the first being the current one), `len`, the next statement, the local
`ectr`, and what was written to `out`. -/
structure SThread where
  dec : Bool
  todo : List (List Byte)
  len : Int
  pc : SPc
  ectr : Block
  out : List Byte

/-- The context shared by `T` threads. -/
structure SState (T : Nat) where
  ctx : GcmCtx
  thr : Fin T → SThread
  used : List (Fin T × Block)

/-- Thread `t` goes on with `th`. -/
def SState.put {T : Nat} (s : SState T) (t : Fin T) (th : SThread) : SState T :=
  { s with thr := fun u => if u = t then th else s.thr u }

/-- What is stored to `out` for the piece `p` (lines 192, 248). -/
def pieceOut (ectr : Block) (p : List Byte) : List Byte := List.zipWith (fun a b => a ^^^ b) ectr.toList p

/-- One step of thread `t`. A finished call does nothing. -/
def sharedStep {T : Nat} (s : SState T) (t : Fin T) : SState T :=
  let th := s.thr t
  match th.pc, th.todo with
  | .enter, _ => { s with ctx := { s.ctx with len := s.ctx.len + BitVec.ofInt 64 th.len } }.put t { th with pc := .inc }
  | .inc, _ :: _ => { s with ctx := { s.ctx with y := incCtr s.ctx.y 4 (by decide) } }.put t { th with pc := .enc }
  | .enc, _ :: _ => { s with used := s.used ++ [(t, s.ctx.y)] }.put t { th with pc := .mix, ectr := s.ctx.block s.ctx.y }
  | .mix, p :: _ =>
    let o := pieceOut th.ectr p
    { s with ctx := { s.ctx with buf := xorInto s.ctx.buf (if th.dec then p else o) } }.put t
      { th with pc := .mult, out := th.out ++ o }
  | .mult, _ :: ps =>
    { s with ctx := { s.ctx with buf := gcmMult s.ctx.HL s.ctx.HH s.ctx.buf } }.put t { th with pc := .inc, todo := ps }
  | _, [] => s

/-- A schedule: the threads in the order of their steps. -/
def sharedRun {T : Nat} (s : SState T) (sched : List (Fin T)) : SState T := sched.foldl sharedStep s

/-- A call at its beginning: `len` is an `int`, the loop processes the first `len` bytes (lines 165-181). -/
def callStart (dec : Bool) (inp : List Byte) : SThread :=
  { dec := dec, todo := chunks (inp.take (intLen inp.length).toNat), len := intLen inp.length, pc := .enter, ectr := zeroBlock,
    out := [] }

/-- All calls at their beginning. -/
def sharedStart {T : Nat} (c : GcmCtx) (dec : Fin T → Bool) (inp : Fin T → List Byte) : SState T :=
  { ctx := c, thr := fun t => callStart (dec t) (inp t), used := [] }

/-- The call has returned. -/
def SThread.Returned (th : SThread) : Prop := th.pc = .inc ∧ th.todo = []

/-- The call has begun and not returned. -/
def SThread.Inside (th : SThread) : Prop := th.pc ≠ .enter ∧ ¬ th.Returned

end Verif.Model
