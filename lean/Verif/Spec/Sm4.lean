import Verif.Basic

/-!
SM4 according to GB/T 32907-2016. The S-box is given by its algebraic description (affine map, inversion in
GF(2^8) modulo x^8+x^7+x^6+x^5+x^4+x^2+1, affine map) instead of the table.
-/
set_option autoImplicit false

namespace Verif.Spec

abbrev Word := BitVec 32

/-- Multiplication by x in GF(2)[x]/(x^8+x^7+x^6+x^5+x^4+x^2+1). -/
def sm4Xtime (a : Byte) : Byte := (a <<< 1) ^^^ (if a.msb then 0xF5 else 0)

/-- Product in that field. -/
def sm4Mul (a b : Byte) : Byte :=
  ((List.range 8).foldl (fun (p : Byte × Byte) i => (if b.getLsbD i then p.1 ^^^ p.2 else p.1, sm4Xtime p.2)) (0, a)).1

/-- Inverse: `x^254` (0 for 0). -/
def sm4Inv (x : Byte) : Byte :=
  let x2 := sm4Mul x x
  let x4 := sm4Mul x2 x2
  let x8 := sm4Mul x4 x4
  let x16 := sm4Mul x8 x8
  let x32 := sm4Mul x16 x16
  let x64 := sm4Mul x32 x32
  let x128 := sm4Mul x64 x64
  sm4Mul x2 (sm4Mul x4 (sm4Mul x8 (sm4Mul x16 (sm4Mul x32 (sm4Mul x64 x128)))))

/-- The affine map of the S-box: circulant matrix with first row 0xA7, constant 0xD3. -/
def sm4Affine (x : Byte) : Byte :=
  x ^^^ x.rotateLeft 1 ^^^ x.rotateLeft 3 ^^^ x.rotateLeft 6 ^^^ x.rotateLeft 7 ^^^ 0xD3

/-- The S-box. -/
def sm4Sbox (x : Byte) : Byte := sm4Affine (sm4Inv (sm4Affine x))

/-- `tau`: four S-boxes in parallel. -/
def sm4Tau (a : Word) : Word :=
  (sm4Sbox (a.extractLsb' 24 8) ++ sm4Sbox (a.extractLsb' 16 8)) ++
    (sm4Sbox (a.extractLsb' 8 8) ++ sm4Sbox (a.extractLsb' 0 8))

/-- `L` (6.2.2). -/
def sm4L (b : Word) : Word := b ^^^ b.rotateLeft 2 ^^^ b.rotateLeft 10 ^^^ b.rotateLeft 18 ^^^ b.rotateLeft 24

/-- `L'` (7.3). -/
def sm4L' (b : Word) : Word := b ^^^ b.rotateLeft 13 ^^^ b.rotateLeft 23

def sm4T (a : Word) : Word := sm4L (sm4Tau a)
def sm4T' (a : Word) : Word := sm4L' (sm4Tau a)

/-- Four consecutive words. -/
structure Quad where
  a : Word
  b : Word
  c : Word
  d : Word
  deriving DecidableEq

/-- One round: `(X_i, X_{i+1}, X_{i+2}, X_{i+3}) -> (X_{i+1}, ..., X_{i+4})`. -/
def sm4Round (x : Quad) (rk : Word) : Quad := ⟨x.b, x.c, x.d, x.a ^^^ sm4T (x.b ^^^ x.c ^^^ x.d ^^^ rk)⟩

/-- The final reversal `R`. -/
def Quad.rev (x : Quad) : Quad := ⟨x.d, x.c, x.b, x.a⟩

/-- Encryption under a list of round keys. -/
def sm4Crypt (rks : List Word) (x : Quad) : Quad := (rks.foldl sm4Round x).rev

/-- Constant key `CK_i`: bytes `(4 i + j) * 7 mod 256`. -/
def sm4CK (i : Nat) : Word :=
  (BitVec.ofNat 8 (4 * i * 7) ++ BitVec.ofNat 8 ((4 * i + 1) * 7)) ++
    (BitVec.ofNat 8 ((4 * i + 2) * 7) ++ BitVec.ofNat 8 ((4 * i + 3) * 7))

/-- Key schedule window after `i` steps: `(K_i, K_{i+1}, K_{i+2}, K_{i+3})`. -/
def sm4KeyWindow (mk : Quad) : Nat → Quad
  | 0 => ⟨mk.a ^^^ 0xA3B1BAC6, mk.b ^^^ 0x56AA3350, mk.c ^^^ 0x677D9197, mk.d ^^^ 0xB27022DC⟩
  | i + 1 =>
    let k := sm4KeyWindow mk i
    ⟨k.b, k.c, k.d, k.a ^^^ sm4T' (k.b ^^^ k.c ^^^ k.d ^^^ sm4CK i)⟩

/-- Round key `rk_i = K_{i+4}`. -/
def sm4Rk (mk : Quad) (i : Nat) : Word := (sm4KeyWindow mk (i + 1)).d

def sm4RoundKeys (mk : Quad) : List Word := (List.range 32).map (sm4Rk mk)

/-- Sixteen bytes as four big-endian words. -/
def quadOf (b : Block) : Quad :=
  ⟨(b[0] ++ b[1]) ++ (b[2] ++ b[3]), (b[4] ++ b[5]) ++ (b[6] ++ b[7]),
   (b[8] ++ b[9]) ++ (b[10] ++ b[11]), (b[12] ++ b[13]) ++ (b[14] ++ b[15])⟩

def wordBytes (w : Word) : Vector Byte 4 :=
  #v[w.extractLsb' 24 8, w.extractLsb' 16 8, w.extractLsb' 8 8, w.extractLsb' 0 8]

def Quad.toBlock (x : Quad) : Block := wordBytes x.a ++ wordBytes x.b ++ wordBytes x.c ++ wordBytes x.d

/-- SM4 encryption and decryption of a block. -/
def sm4Encrypt (key x : Block) : Block := (sm4Crypt (sm4RoundKeys (quadOf key)) (quadOf x)).toBlock

def sm4Decrypt (key x : Block) : Block := (sm4Crypt (sm4RoundKeys (quadOf key)).reverse (quadOf x)).toBlock

/- Worked example of the standard (Annex A.1). -/
example : sm4Encrypt
    #v[0x01, 0x23, 0x45, 0x67, 0x89, 0xab, 0xcd, 0xef, 0xfe, 0xdc, 0xba, 0x98, 0x76, 0x54, 0x32, 0x10]
    #v[0x01, 0x23, 0x45, 0x67, 0x89, 0xab, 0xcd, 0xef, 0xfe, 0xdc, 0xba, 0x98, 0x76, 0x54, 0x32, 0x10] =
    #v[0x68, 0x1e, 0xdf, 0x34, 0xd2, 0x06, 0x96, 0x5e, 0x86, 0xb3, 0xe9, 0x4f, 0x53, 0x6e, 0x42, 0x46] := by
  decide +kernel

end Verif.Spec
