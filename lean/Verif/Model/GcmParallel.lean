import Verif.Model.Gcm

/-!
Model of `/repo/src/modes/gcm_parallel.c`. The OpenMP region is an interleaving machine: any number of
threads, each with the list of loop iterations (blocks) it executes, and a scheduler that picks the next
thread to make one step. The inner loop variable `j` is declared outside the region (line 13), hence shared
by all threads; the flag `shared` selects between the code as written (`true`) and a variant in which `j` is
private (`false`). Steps are sequentially consistent.
-/
set_option autoImplicit false

namespace Verif.Model

/-- `use_len` (gcm_parallel.c lines 40-44): number of bytes of block `i`. -/
def useLen (nb len i : Nat) : Nat :=
  if i = nb - 1 then (if len % 16 = 0 then 16 else len % 16) else 16

/-- Program points of one iteration of the parallel loop (lines 45-49): `start` evaluates the cipher and sets
`j = 0`, `test` compares `j < use_len`, `write` stores one byte, `incr` increments `j`. -/
inductive Pc where
  | start | test | write | incr
  deriving DecidableEq

structure Thread where
  /-- iterations still to do, the head being the current one -/
  blocks : List Nat
  pc : Pc
  /-- private copy of `j`, used if `j` is not shared -/
  j : Nat

structure PState where
  out : List Byte
  /-- the shared `j` -/
  j : Nat
  threads : Nat → Thread

/-- Data fixed during the region: cipher output per block, input, `len`, `len_s`. -/
structure ParCfg where
  shared : Bool
  ectr : Nat → Block
  inp : List Byte
  len : Nat
  nb : Nat

def PState.getJ (sh : Bool) (s : PState) (t : Nat) : Nat := if sh then s.j else (s.threads t).j

def PState.setJ (sh : Bool) (s : PState) (t v : Nat) : PState :=
  if sh then { s with j := v }
  else { s with threads := fun u => if u = t then { s.threads t with j := v } else s.threads u }

def PState.setThread (s : PState) (t : Nat) (blocks : List Nat) (pc : Pc) : PState :=
  { s with threads := fun u => if u = t then { s.threads t with blocks := blocks, pc := pc } else s.threads u }

/-- One step of thread `t` (lines 37-50). `none` = access outside an object. A thread without work does
nothing. -/
def parStep (g : ParCfg) (s : PState) (t : Nat) : Option PState :=
  match (s.threads t).blocks with
  | [] => some s
  | i :: rest =>
    match (s.threads t).pc with
    | .start => some ((s.setJ g.shared t 0).setThread t (i :: rest) .test)
    | .test =>
      if s.getJ g.shared t < useLen g.nb g.len i then some (s.setThread t (i :: rest) .write)
      else some (s.setThread t rest .start)
    | .write =>
      let j := s.getJ g.shared t
      if h : j < 16 ∧ 16 * i + j < g.inp.length ∧ 16 * i + j < s.out.length then
        some ({ s with out := s.out.set (16 * i + j) ((g.ectr i)[j] ^^^ g.inp[16 * i + j]) }.setThread t (i :: rest) .incr)
      else none
    | .incr => some ((s.setJ g.shared t (s.getJ g.shared t + 1)).setThread t (i :: rest) .test)

/-- Run a schedule (list of thread numbers). -/
def parRun (g : ParCfg) (s : PState) : List Nat → Option PState
  | [] => some s
  | t :: ts => do parRun g (← parStep g s t) ts

/-- Start of the region: thread `t` has the iterations `assign t`. -/
def parInit (out : List Byte) (j0 : Nat) (assign : Nat → List Nat) : PState :=
  { out := out, j := j0, threads := fun t => { blocks := assign t, pc := .start, j := 0 } }

/-- The implicit barrier at the end of the region is passed. -/
def PState.Done (s : PState) : Prop := ∀ t, (s.threads t).blocks = []

/-- `len_s = (len - 1) / 16 + 1` for `len >= 0` (line 19; C division truncates towards zero, so `len = 0`
gives 1). -/
def parBlocks (len : Nat) : Nat := if len = 0 then 1 else (len - 1) / 16 + 1

/-- `y_arr` and the final `ctx->y` (lines 22-30). -/
def yArr (y : Block) : Nat → List Block × Block
  | 0 => ([], y)
  | n + 1 =>
    let y' := incCtr y 4 (by decide)
    let r := yArr y' n
    (y' :: r.1, r.2)

/-- Configuration of the region of `WBCRYPTO_gcm_parallel_encrypt`/`_decrypt` (lines 13-31). `inbuf` is the whole
input object, `len` the length argument. -/
def parCfg (sh : Bool) (c : GcmCtx) (inbuf : List Byte) (len : Nat) : ParCfg :=
  { shared := sh, ectr := fun i => c.block ((yArr c.y (parBlocks len)).1.getD i zeroBlock), inp := inbuf,
    len := len, nb := parBlocks len }

/-- The sequential tail (lines 53-66): GHASH over `out` block by block, return value 1. -/
def parTail (c : GcmCtx) (len : Nat) (out : List Byte) : GcmResult :=
  { ret := 1
    ctx := { c with
      len := c.len + BitVec.ofNat 64 len
      y := (yArr c.y (parBlocks len)).2
      buf := (List.range (parBlocks len)).foldl (fun b i =>
        gcmMult c.HL c.HH (xorInto b ((out.drop (16 * i)).take (useLen (parBlocks len) len i)))) c.buf }
    out := out }

end Verif.Model
