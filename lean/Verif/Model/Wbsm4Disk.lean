import Verif.Model.Wbsm4File

/-!
Model of `WBCRYPTO_wbsm4_key2file` and `WBCRYPTO_wbsm4_file2key` (`/repo/src/wbsm4/wbsm4_exkey.c` lines 3-100) with `fopen`
that may fail, a device that takes a limited number of bytes, and the buffer of the C library between the two.
`Model/Wbsm4File` has the same functions on a device without faults.
-/
set_option autoImplicit false

namespace Verif.Model

/-- An output stream: what the device holds, what the buffer holds, and the number of calls so far. -/
structure OutStream where
  disk : List Byte
  pending : List Byte
  calls : Nat

/-- One `fwrite` or `fputs`.  `flush k` says whether the library empties the buffer in call `k`, `room` is what the device
takes in all.  The call fails exactly if a flush does; then the device is full. -/
def outPut (room : Nat) (flush : Nat → Bool) (st : OutStream) (bs : List Byte) : Bool × OutStream :=
  let p := st.pending ++ bs
  if flush st.calls then
    (decide (st.disk.length + p.length ≤ room), ⟨st.disk ++ p.take (room - st.disk.length), [], st.calls + 1⟩)
  else (true, ⟨st.disk, p, st.calls + 1⟩)

/-- `fclose`: what is left in the buffer goes to the device; the result of the call is not looked at (lines 46 and 98). -/
def outClose (room : Nat) (st : OutStream) : List Byte := st.disk ++ st.pending.take (room - st.disk.length)

/-- A series of `fwrite` calls each of which is tested (lines 12-42): the first that fails ends the series. -/
def outPutAll (room : Nat) (flush : Nat → Bool) : OutStream → List (List Byte) → Bool × OutStream
  | st, [] => (true, st)
  | st, w :: ws =>
    let r := outPut room flush st w
    if r.1 then outPutAll room flush r.2 ws else (false, r.2)

/-- `WBCRYPTO_wbsm4_key2file` (lines 3-48): return value and file.  If `fopen` fails the macro of line 9 jumps to
`fclose(NULL)`, which is undefined.  The result of `fputs` (line 11) is not looked at. -/
def key2fileIo (opened : Bool) (room : Nat) (flush : Nat → Bool) (c : Wbsm4Mem) : Option (Bool × List Byte) :=
  if opened then
    let st := (outPut room flush ⟨[], [], 0⟩ wbsm4Name).2
    let r := outPutAll room flush st
      (wordLE c.rounds :: wordLE c.encmode :: (slots (loopBound c.rounds)).map fun s => wordLE (c.mem s))
    some (r.1, outClose room r.2)
  else none

/-- `WBCRYPTO_wbsm4_file2key` (lines 50-100) on a path: `none` if the file cannot be opened, else its content. -/
def file2keyPath (alloc : Nat) (c : Wbsm4Mem) (path : Option (List Byte)) : Option (Bool × Wbsm4Mem) :=
  match path with
  | none => none
  | some file => file2key alloc c file

end Verif.Model
