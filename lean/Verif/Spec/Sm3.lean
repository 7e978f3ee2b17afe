import Verif.Basic

/-! SM3 according to GB/T 32905-2016. -/
set_option autoImplicit false

namespace Verif.Spec

abbrev W32 := BitVec 32

/-- Pieces of `k` elements (the last one possibly shorter). -/
def splitAux (k : Nat) : Nat → List Byte → List (List Byte)
  | 0, _ => []
  | _ + 1, [] => []
  | n + 1, b :: l => (b :: l).take k :: splitAux k n ((b :: l).drop k)

def split64 (l : List Byte) : List (List Byte) := splitAux 64 l.length l

def sm3P0 (x : W32) : W32 := x ^^^ x.rotateLeft 9 ^^^ x.rotateLeft 17
def sm3P1 (x : W32) : W32 := x ^^^ x.rotateLeft 15 ^^^ x.rotateLeft 23

def sm3T (j : Nat) : W32 := if j < 16 then 0x79CC4519 else 0x7A879D8A

def sm3FF (j : Nat) (x y z : W32) : W32 :=
  if j < 16 then x ^^^ y ^^^ z else (x &&& y) ||| (x &&& z) ||| (y &&& z)

def sm3GG (j : Nat) (x y z : W32) : W32 :=
  if j < 16 then x ^^^ y ^^^ z else (x &&& y) ||| (~~~ x &&& z)

/-- The eight working variables. -/
structure Oct where
  a : W32
  b : W32
  c : W32
  d : W32
  e : W32
  f : W32
  g : W32
  h : W32
  deriving DecidableEq

def Oct.xor (x y : Oct) : Oct :=
  ⟨x.a ^^^ y.a, x.b ^^^ y.b, x.c ^^^ y.c, x.d ^^^ y.d, x.e ^^^ y.e, x.f ^^^ y.f, x.g ^^^ y.g, x.h ^^^ y.h⟩

def sm3IV : Oct :=
  ⟨0x7380166f, 0x4914b2b9, 0x172442d7, 0xda8a0600, 0xa96f30bc, 0x163138aa, 0xe38dee4d, 0xb0fb0e4e⟩

/-- The 16 message words of a block of 64 bytes (big-endian). -/
def sm3Words (blk : List Byte) : List W32 :=
  (List.range 16).map fun j =>
    ((blk.getD (4 * j) 0 ++ blk.getD (4 * j + 1) 0) ++ (blk.getD (4 * j + 2) 0 ++ blk.getD (4 * j + 3) 0) : BitVec 32)

/-- Message expansion 5.3.2: one more word `W_j`, `j` being the number of words so far. -/
def sm3Extend (w : List W32) : List W32 :=
  let j := w.length
  w ++ [sm3P1 (w.getD (j - 16) 0 ^^^ w.getD (j - 9) 0 ^^^ (w.getD (j - 3) 0).rotateLeft 15) ^^^
    (w.getD (j - 13) 0).rotateLeft 7 ^^^ w.getD (j - 6) 0]

/-- `W_0 .. W_67`. -/
def sm3Schedule (blk : List Byte) : List W32 := (List.range 52).foldl (fun w _ => sm3Extend w) (sm3Words blk)

/-- One step of the compression function (5.3.3). -/
def sm3Step (w : List W32) (v : Oct) (j : Nat) : Oct :=
  let ss1 := (v.a.rotateLeft 12 + v.e + (sm3T j).rotateLeft (j % 32)).rotateLeft 7
  let ss2 := ss1 ^^^ v.a.rotateLeft 12
  let tt1 := sm3FF j v.a v.b v.c + v.d + ss2 + (w.getD j 0 ^^^ w.getD (j + 4) 0)
  let tt2 := sm3GG j v.e v.f v.g + v.h + ss1 + w.getD j 0
  ⟨tt1, v.a, v.b.rotateLeft 9, v.c, sm3P0 tt2, v.e, v.f.rotateLeft 19, v.g⟩

/-- Compression function `CF`. -/
def sm3CF (v : Oct) (blk : List Byte) : Oct :=
  ((List.range 64).foldl (sm3Step (sm3Schedule blk)) v).xor v

/-- Bit 1, zero bits up to 448 mod 512, then the 64-bit number `l`. -/
def sm3PadWith (l : BitVec 64) (m : List Byte) : List Byte :=
  m ++ [(0x80 : Byte)] ++ List.replicate ((119 - m.length % 64) % 64) (0 : Byte) ++
    (List.range 8).map (fun i => (l >>> (56 - 8 * i)).truncate 8)

/-- Padding: the number is the length in bits. -/
def sm3Pad (m : List Byte) : List Byte := sm3PadWith (BitVec.ofNat 64 (8 * m.length)) m

def wordToBytes (w : W32) : List Byte :=
  [w.extractLsb' 24 8, w.extractLsb' 16 8, w.extractLsb' 8 8, w.extractLsb' 0 8]

def Oct.bytes (v : Oct) : List Byte :=
  wordToBytes v.a ++ wordToBytes v.b ++ wordToBytes v.c ++ wordToBytes v.d ++
  wordToBytes v.e ++ wordToBytes v.f ++ wordToBytes v.g ++ wordToBytes v.h

/-- SM3. -/
def sm3 (m : List Byte) : List Byte := ((split64 (sm3Pad m)).foldl sm3CF sm3IV).bytes

/- Example 1 of the standard: "abc". -/
example : sm3 [0x61, 0x62, 0x63] =
    [0x66, 0xc7, 0xf0, 0xf4, 0x62, 0xee, 0xed, 0xd9, 0xd1, 0xf2, 0xd4, 0x6b, 0xdc, 0x10, 0xe4, 0xe2,
     0x41, 0x67, 0xc4, 0x87, 0x5c, 0xf2, 0xf7, 0xa2, 0x29, 0x7d, 0xa0, 0x2b, 0x8f, 0x4b, 0xa8, 0xe0] := by
  decide +kernel

end Verif.Spec
