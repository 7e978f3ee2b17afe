import Verif.Model.Wbsm4

/-!
Model of `WBCRYPTO_wbsm4_key2file` and `WBCRYPTO_wbsm4_file2key` (`/repo/src/wbsm4/wbsm4_exkey.c` lines 3-100).

A file is a list of bytes; `fopen` is assumed to succeed, writes are complete, and words are stored little-endian (the
byte order of the machines the library is built for).  A context is seen as memory: one 32-bit word per table entry.
-/
set_option autoImplicit false

namespace Verif.Model

/-- One word of a context's tables. -/
inductive Slot where
  | mm (i : Nat) (j : Fin 3) (k : Fin 4) (l : Byte)
  | se (i : Fin 4) (j : Fin 4) (k : Byte)
  | fe (i : Fin 4) (j : Fin 4) (k : Byte)
  | cc (i : Nat) (j : Fin 4) (k : Byte)
  | dd (i : Nat) (j : Fin 4) (k : Byte)
  | table (i : Nat) (j : Fin 4) (k : Byte)
  deriving DecidableEq

/-- `struct wbsm4_context` as memory. -/
structure Wbsm4Mem where
  rounds : BitVec 32
  encmode : BitVec 32
  mem : Slot → BitVec 32

/-- All bytes in order, `for (l = 0; l < 256; l++)`. -/
def allBytes : List Byte := (List.range 256).map (BitVec.ofNat 8)

/-- The words in the order in which lines 17-42 (and 69-94) visit them. -/
def slots (rounds : Nat) : List Slot :=
  ((List.range rounds).flatMap fun i => (List.finRange 3).flatMap fun j => (List.finRange 4).flatMap fun k =>
    allBytes.map fun l => Slot.mm i j k l) ++
  ((List.range rounds).flatMap fun i => (List.finRange 4).flatMap fun j => allBytes.flatMap fun k =>
    (if h : i < 4 then [Slot.se ⟨i, h⟩ j k, Slot.fe ⟨i, h⟩ j k] else []) ++ [Slot.cc i j k, Slot.dd i j k, Slot.table i j k])

/-- `"DummyRound-WBSM4"`. -/
def wbsm4Name : List Byte :=
  [0x44, 0x75, 0x6d, 0x6d, 0x79, 0x52, 0x6f, 0x75, 0x6e, 0x64, 0x2d, 0x57, 0x42, 0x53, 0x4d, 0x34]

/-- Bytes of a 32-bit word in memory order. -/
def wordLE (w : BitVec 32) : List Byte :=
  [w.truncate 8, (w >>> 8).truncate 8, (w >>> 16).truncate 8, (w >>> 24).truncate 8]

/-- `ctx->rounds` as the (signed) loop bound. -/
def loopBound (rounds : BitVec 32) : Nat := rounds.toInt.toNat

/-- `WBCRYPTO_wbsm4_key2file` (lines 3-48): the content of the file. -/
def key2file (c : Wbsm4Mem) : List Byte :=
  wbsm4Name ++ wordLE c.rounds ++ wordLE c.encmode ++ (slots (loopBound c.rounds)).flatMap fun s => wordLE (c.mem s)

/-- `fread(&w, 4, 1, rkey)`: nothing is delivered when fewer than four bytes are left. -/
def freadWord : List Byte → Option (BitVec 32 × List Byte)
  | a :: b :: c :: d :: r => some ((d ++ c) ++ (b ++ a), r)
  | _ => none

/-- `fgets(algname, 17, rkey)`: at most 16 bytes, none after a newline. -/
def fgets16 (file : List Byte) : List Byte :=
  let l := file.take 16
  l.take ((l.takeWhile (· ≠ 0x0a)).length + 1)

/-- Whether a word lies inside the tables allocated for `alloc` rounds. -/
def Slot.inside (alloc : Nat) : Slot → Bool
  | .mm i .. | .cc i .. | .dd i .. | .table i .. => i < alloc
  | .se .. | .fe .. => true

/-- The reading loops (lines 69-94): `none` on a write outside the allocated tables, `false` when the file ends early. -/
def readSlots (alloc : Nat) : List Slot → (Slot → BitVec 32) → List Byte → Option (Bool × (Slot → BitVec 32))
  | [], m, _ => some (true, m)
  | s :: ss, m, file =>
    if s.inside alloc then
      match freadWord file with
      | none => some (false, m)
      | some (w, rest) => readSlots alloc ss (fun t => if t = s then w else m t) rest
    else none

/-- `WBCRYPTO_wbsm4_file2key` (lines 50-100) on a context allocated for `alloc` rounds: success flag and context. -/
def file2key (alloc : Nat) (c : Wbsm4Mem) (file : List Byte) : Option (Bool × Wbsm4Mem) :=
  let line := fgets16 file
  if line.takeWhile (· ≠ 0) ≠ wbsm4Name then some (false, c)
  else
    match freadWord (file.drop line.length) with
    | none => some (false, c)
    | some (rounds, rest) =>
      match freadWord rest with
      | none => some (false, { c with rounds := rounds })
      | some (encmode, rest) =>
        (readSlots alloc (slots (loopBound rounds)) c.mem rest).map fun x => (x.1, ⟨rounds, encmode, x.2⟩)

/-- The tables of a context in memory, as used by `wbsm4Encrypt`. -/
def Wbsm4Mem.toCtx (c : Wbsm4Mem) : Wbsm4Ctx where
  rnds := (List.range (loopBound c.rounds)).map fun i =>
    { mm := fun j k l => c.mem (.mm i j k l), cc := fun j k => c.mem (.cc i j k), dd := fun j k => c.mem (.dd i j k)
      table := fun j k => c.mem (.table i j k) }
  encmode := if c.encmode ≠ 0 then .encrypt else .decrypt
  se := fun i j k => c.mem (.se i j k)
  fe := fun i j k => c.mem (.fe i j k)

end Verif.Model
