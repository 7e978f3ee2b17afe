import Verif.Chunks

/-! GCM as defined in NIST SP 800-38D (sections 6 and 7). -/
set_option autoImplicit false

namespace Verif.Spec

/-- `R = 11100001 || 0^120`. -/
def gfR : BitVec 128 := 0xE1#128 <<< 120

/-- Multiplication by `x`: `V >> 1`, plus `R` when the bit shifted out is 1 (step 3 of Algorithm 1). -/
def mulx (v : BitVec 128) : BitVec 128 :=
  if v.getLsbD 0 then (v >>> 1) ^^^ gfR else v >>> 1

/-- Algorithm 1: `X • Y`; `x_i` is bit `i` from the left. -/
def gfMul (x y : BitVec 128) : BitVec 128 :=
  ((List.range 128).foldl
    (fun (zv : BitVec 128 × BitVec 128) i =>
      (if x.getMsbD i then zv.1 ^^^ zv.2 else zv.1, mulx zv.2)) (0, y)).1

/-- A piece of at most 16 bytes, filled with zero bytes on the right, as a 128-bit string. -/
def padBV (c : List Byte) : BitVec 128 := toBV (Vector.ofFn fun i => c.getD i.1 0)

/-- Algorithm 2: `GHASH_H`, over a list of blocks, started from `y`. -/
def ghashFrom (h : BitVec 128) (y : BitVec 128) (xs : List (BitVec 128)) : BitVec 128 :=
  xs.foldl (fun y x => gfMul (y ^^^ x) h) y

def ghash (h : BitVec 128) (xs : List (BitVec 128)) : BitVec 128 := ghashFrom h 0 xs

/-- `inc_32`: increment the rightmost 32 bits modulo `2^32`. -/
def inc32 (x : BitVec 128) : BitVec 128 :=
  x.extractLsb' 32 96 ++ (x.extractLsb' 0 32 + 1#32)

/-- Algorithm 3: `GCTR_K(ICB, X)` over the pieces of `X`. -/
def gctrPieces (E : Block → Block) : BitVec 128 → List (List Byte) → List Byte
  | _, [] => []
  | cb, x :: xs =>
    List.zipWith (fun a b => a ^^^ b) x (E (ofBV cb)).toList ++ gctrPieces E (inc32 cb) xs

def gctr (E : Block → Block) (icb : BitVec 128) (x : List Byte) : List Byte :=
  gctrPieces E icb (chunks x)

/-- The hash subkey `H = CIPH_K(0^128)`. -/
def hashKey (E : Block → Block) : BitVec 128 := toBV (E zeroBlock)

/-- The pre-counter block (section 7.1, step 2). -/
def j0 (E : Block → Block) (iv : List Byte) : BitVec 128 :=
  if iv.length = 12 then padBV (iv ++ [0, 0, 0, 1])
  else ghash (hashKey E) ((chunks iv).map padBV ++ [BitVec.ofNat 128 (8 * iv.length)])

/-- `GCM-AE` ciphertext. -/
def gcmCipher (E : Block → Block) (iv p : List Byte) : List Byte :=
  gctr E (inc32 (j0 E iv)) p

/-- `[len(A)]_64 || [len(C)]_64`, lengths in bits. -/
def lenBlock (a c : List Byte) : BitVec 128 :=
  BitVec.ofNat 64 (8 * a.length) ++ BitVec.ofNat 64 (8 * c.length)

/-- The 16-byte tag over AAD `a` and ciphertext `c`. -/
def gcmTag (E : Block → Block) (iv a c : List Byte) : Block :=
  E (ofBV (j0 E iv)) ^^^
    ofBV (ghash (hashKey E) ((chunks a).map padBV ++ (chunks c).map padBV ++ [lenBlock a c]))

end Verif.Spec
