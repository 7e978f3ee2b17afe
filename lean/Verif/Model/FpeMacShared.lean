import Verif.Model.FpeMacCtx

/-!
Model of several threads that use one `WBCRYPTO_fpe_mac_context` (`/repo/src/fpe/ff1_cmac.c`, `ff3_gmac.c`), each making calls of the
encryption or decryption functions and asking for the tag after each of them.

* The functions read `ctx->fpe_ctx` only and write nothing but `ctx->tag`, at their end, with `memcpy` (ff1_cmac.c lines 185, 353;
  ff3_gmac.c lines 163, 260). The computation before it does not depend on other threads, so a call is here the tag that it computes
  (`MacCall.result`) and the copying.
* `memcpy` copies `w` bytes at a time, in ascending order, each piece at once; `w` divides 16. Between two pieces other threads may run.
  Two accesses at the same time are a data race and undefined in the C language; here is what they do on machines on which a piece
  is read and written at once.
* `..._finish` (ff1_cmac.c lines 370-374, ff3_gmac.c lines 275-279) reads the tag in the same way into memory of the thread.
-/
set_option autoImplicit false

namespace Verif.Model

/-- Piece `i` of a tag, `w` bytes. -/
def tagPiece (w : Nat) (T : Block) (i : Nat) : List Byte := (T.toList.drop (w * i)).take w

/-- The context and the threads: the pieces of `ctx->tag`, how many copying steps each thread has done, and what it read in them. -/
structure TagState where
  tag : Nat → List Byte
  pc : Nat → Nat
  got : Nat → Nat → Option (List Byte)

/-- A new context with `found` in the tag, and threads that have done nothing. -/
def tagStart (w : Nat) (found : Block) : TagState := ⟨tagPiece w found, fun _ => 0, fun _ _ => none⟩

/-- The next copying step of thread `t`, whose calls compute the tags `tags t`: step `x` of call `j` writes piece `x` for `x < k` and
reads piece `x - k` otherwise, where a tag has `k = 16 / w` pieces. A thread that has finished does nothing. -/
def tagStep (w : Nat) (tags : Nat → List Block) (s : TagState) (t : Nat) : TagState :=
  match (tags t)[s.pc t / (2 * (16 / w))]? with
  | none => s
  | some T =>
    let x := s.pc t % (2 * (16 / w))
    if x < 16 / w then
      { s with tag := fun i => if i = x then tagPiece w T x else s.tag i
               pc := fun u => if u = t then s.pc t + 1 else s.pc u }
    else
      { s with pc := fun u => if u = t then s.pc t + 1 else s.pc u
               got := fun u q => if u = t ∧ q = s.pc t then some (s.tag (x - 16 / w)) else s.got u q }

/-- Steps of the threads in the order of a schedule. -/
def tagRun (w : Nat) (tags : Nat → List Block) (s : TagState) (sched : List Nat) : TagState := sched.foldl (tagStep w tags) s

/-- Piece `i` of what `..._finish` after call `j` of thread `t` returned, `none` if it has not been read yet. -/
def tagGot (w : Nat) (s : TagState) (t j i : Nat) : Option (List Byte) := s.got t (2 * (16 / w) * j + 16 / w + i)

end Verif.Model
