import Verif.Chunks
import Mathlib.Data.Nat.Digits.Defs
import Mathlib.Data.Nat.Log

/-! Format-preserving encryption as defined in NIST SP 800-38G: FF1 (Algorithms 6, 7, 8) and FF3
(Algorithms 9, 10).  Numeral strings are lists of natural numbers, most significant first. -/
set_option autoImplicit false

namespace Verif.Spec

/-- Characters that stand for the numerals `0 .. radix - 1`: `0`-`9`, then `a`-`z`. -/
def IsNumeral (radix : Nat) (c : Byte) : Prop :=
  (48 ≤ c.toNat ∧ c.toNat ≤ 57 ∧ c.toNat < 48 + radix) ∨
  (97 ≤ c.toNat ∧ c.toNat ≤ 122 ∧ c.toNat + 10 < 97 + radix)

/-- The value of a numeral character. -/
def numeralVal (c : Byte) : Nat := if c.toNat ≤ 57 then c.toNat - 48 else c.toNat - 97 + 10

/-- The character of a numeral. -/
def numeralChar (d : Nat) : Byte := BitVec.ofNat 8 (if d < 10 then 48 + d else 97 + (d - 10))

/-- `NUM_radix(X)` (Algorithm 1). -/
def numRadix (radix : Nat) (X : List Nat) : Nat := Nat.ofDigits radix X.reverse

/-- `STR^m_radix(x)` (Algorithm 3). -/
def strRadix (radix m x : Nat) : List Nat := (List.range m).map fun i => x / radix ^ (m - 1 - i) % radix

/-- `[x]^s`: the number `x` as `s` bytes. -/
def bytesOf (s x : Nat) : List Byte := (List.range s).map fun i => BitVec.ofNat 8 (x / 256 ^ (s - 1 - i))

/-- `NUM(X)` of a byte string (Algorithm 2). -/
def numBytes (X : List Byte) : Nat := numRadix 256 (X.map BitVec.toNat)

/-- A 16-byte string as a block. -/
def blockOf (l : List Byte) : Block := Vector.ofFn fun i => l.getD i.1 0

/-- `PRF(X)` (Algorithm 6): CBC-MAC of a string of whole blocks. -/
def prf (E : Block → Block) (X : List Byte) : Block :=
  (chunks X).foldl (fun Y c => E (Y ^^^ blockOf c)) zeroBlock

/-- `⌈⌈v·log₂(radix)⌉ / 8⌉` (step 3 of Algorithm 7). -/
def ff1b (radix v : Nat) : Nat := (Nat.clog 2 (radix ^ v) + 7) / 8

/-- `4⌈b/4⌉ + 4` (step 4 of Algorithm 7). -/
def ff1d (b : Nat) : Nat := 4 * ((b + 3) / 4) + 4

/-- `P` (step 5 of Algorithm 7). -/
def ff1P (radix n t : Nat) : List Byte :=
  bytesOf 1 1 ++ bytesOf 1 2 ++ bytesOf 1 1 ++ bytesOf 3 radix ++ bytesOf 1 10 ++
  bytesOf 1 (n / 2 % 256) ++ bytesOf 4 n ++ bytesOf 4 t

/-- `Q` (step 6.i): `T || [0]^((-t-b-1) mod 16) || [i]^1 || [NUM_radix(B)]^b`. -/
def ff1Q (radix n : Nat) (T : List Byte) (i : Nat) (B : List Nat) : List Byte :=
  let b := ff1b radix (n - n / 2)
  T ++ List.replicate ((-(T.length : Int) - b - 1) % 16).toNat 0 ++ bytesOf 1 i ++
    bytesOf b (numRadix radix B)

/-- `S` (step 6.iii): the first `d` bytes of `R || CIPH(R ⊕ [1]^16) || … `. -/
def ff1S (E : Block → Block) (R : Block) (d : Nat) : List Byte :=
  (R.toList ++ (List.range ((d + 15) / 16 - 1)).flatMap fun j =>
    (E (R ^^^ blockOf (bytesOf 16 (j + 1)))).toList).take d

/-- `y` (step 6.iv) of round `i`, computed from the half that is not modified. -/
def ff1Y (E : Block → Block) (radix n : Nat) (T : List Byte) (i : Nat) (B : List Nat) : Nat :=
  numBytes (ff1S E (prf E (ff1P radix n T.length ++ ff1Q radix n T i B)) (ff1d (ff1b radix (n - n / 2))))

/-- Steps 6.v - 6.ix of Algorithm 7. -/
def ff1EncRound (E : Block → Block) (radix n : Nat) (T : List Byte) (AB : List Nat × List Nat) (i : Nat) :
    List Nat × List Nat :=
  let m := if i % 2 = 0 then n / 2 else n - n / 2
  (AB.2, strRadix radix m ((numRadix radix AB.1 + ff1Y E radix n T i AB.2) % radix ^ m))

/-- `FF1.Encrypt(K, T, X)` (Algorithm 7). -/
def ff1Enc (E : Block → Block) (radix : Nat) (T : List Byte) (X : List Nat) : List Nat :=
  let n := X.length
  let AB := (List.range 10).foldl (ff1EncRound E radix n T) (X.take (n / 2), X.drop (n / 2))
  AB.1 ++ AB.2

/-- Steps 6.v - 6.ix of Algorithm 8. -/
def ff1DecRound (E : Block → Block) (radix n : Nat) (T : List Byte) (AB : List Nat × List Nat) (i : Nat) :
    List Nat × List Nat :=
  let m := if i % 2 = 0 then n / 2 else n - n / 2
  (strRadix radix m (((numRadix radix AB.2 : Int) - ff1Y E radix n T i AB.1) % (radix : Int) ^ m).toNat, AB.1)

/-- `FF1.Decrypt(K, T, X)` (Algorithm 8). -/
def ff1Dec (E : Block → Block) (radix : Nat) (T : List Byte) (X : List Nat) : List Nat :=
  let n := X.length
  let AB := (List.range 10).reverse.foldl (ff1DecRound E radix n T) (X.take (n / 2), X.drop (n / 2))
  AB.1 ++ AB.2

/-- `P` of FF3 (step 4.ii of Algorithm 9): `W ⊕ [i]^4 || [NUM_radix(REV(B))]^12`; `T` has 8 bytes. -/
def ff3P (radix : Nat) (T : List Byte) (i : Nat) (B : List Nat) : List Byte :=
  let W := if i % 2 = 0 then (T.drop 4).take 4 else T.take 4
  List.zipWith (fun a b => a ^^^ b) W (bytesOf 4 i) ++ bytesOf 12 (numRadix radix B.reverse)

/-- `y` of FF3 (steps 4.iii, 4.iv): `NUM(REVB(CIPH(REVB(P))))`; `E` is the cipher under the
byte-reversed key. -/
def ff3Y (E : Block → Block) (radix : Nat) (T : List Byte) (i : Nat) (B : List Nat) : Nat :=
  numBytes (E (blockOf (ff3P radix T i B).reverse)).toList.reverse

/-- One round of Algorithm 9. -/
def ff3EncRound (E : Block → Block) (radix n : Nat) (T : List Byte) (AB : List Nat × List Nat) (i : Nat) :
    List Nat × List Nat :=
  let m := if i % 2 = 0 then (n + 1) / 2 else n - (n + 1) / 2
  (AB.2, (strRadix radix m ((numRadix radix AB.1.reverse + ff3Y E radix T i AB.2) % radix ^ m)).reverse)

/-- `FF3.Encrypt` (Algorithm 9). -/
def ff3Enc (E : Block → Block) (radix : Nat) (T : List Byte) (X : List Nat) : List Nat :=
  let n := X.length
  let AB := (List.range 8).foldl (ff3EncRound E radix n T) (X.take ((n + 1) / 2), X.drop ((n + 1) / 2))
  AB.1 ++ AB.2

/-- One round of Algorithm 10. -/
def ff3DecRound (E : Block → Block) (radix n : Nat) (T : List Byte) (AB : List Nat × List Nat) (i : Nat) :
    List Nat × List Nat :=
  let m := if i % 2 = 0 then (n + 1) / 2 else n - (n + 1) / 2
  ((strRadix radix m
    (((numRadix radix AB.2.reverse : Int) - ff3Y E radix T i AB.1) % (radix : Int) ^ m).toNat).reverse, AB.1)

/-- `FF3.Decrypt` (Algorithm 10). -/
def ff3Dec (E : Block → Block) (radix : Nat) (T : List Byte) (X : List Nat) : List Nat :=
  let n := X.length
  let AB := (List.range 8).reverse.foldl (ff3DecRound E radix n T) (X.take ((n + 1) / 2), X.drop ((n + 1) / 2))
  AB.1 ++ AB.2

end Verif.Spec
