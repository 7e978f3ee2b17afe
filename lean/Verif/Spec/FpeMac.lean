import Verif.Spec.Fpe
import Verif.Spec.Gcm

/-! Tags of the authenticated FPE variants, written over the rounds of NIST SP 800-38G. -/
set_option autoImplicit false

namespace Verif.Spec

/-- Exclusive or of a list of blocks. -/
def xorBlocks (l : List Block) : Block := l.foldl (fun a b => a ^^^ b) zeroBlock

/-- Doubling of the CMAC subkey generation (NIST SP 800-38B, section 6.1). -/
def cmacDbl (x : BitVec 128) : BitVec 128 := if x.msb then (x <<< 1) ^^^ 0x87#128 else x <<< 1

/-- `K1` of CMAC (NIST SP 800-38B, section 6.1). -/
def cmacKey1 (E : Block → Block) : Block := ofBV (cmacDbl (toBV (E zeroBlock)))

/-- The two FF1 halves before round `i` of the encryption of `X`. -/
def ff1Half (E : Block → Block) (radix : Nat) (T : List Byte) (X : List Nat) (i : Nat) : List Nat × List Nat :=
  (List.range i).foldl (ff1EncRound E radix X.length T) (X.take (X.length / 2), X.drop (X.length / 2))

/-- What round `i` adds to the FF1-CMAC tag: byte `i` of the CBC-MAC of `P || Q` xor byte `i` of the
CBC-MAC without the last block, in all sixteen positions, masked with `K1` and encrypted. -/
def ff1CmacPart (E : Block → Block) (radix n : Nat) (T : List Byte) (i : Nat) (B : List Nat) : Block :=
  let X := ff1P radix n T.length ++ ff1Q radix n T i B
  E (cmacKey1 E ^^^
    Vector.replicate 16 ((prf E X).toList.getD i 0 ^^^ (prf E (X.take (X.length - 16))).toList.getD i 0))

/-- The FF1-CMAC tag of the numeral string `X`. -/
def ff1CmacTag (E : Block → Block) (radix : Nat) (T : List Byte) (X : List Nat) : Block :=
  xorBlocks ((List.range 10).map fun i => ff1CmacPart E radix X.length T i (ff1Half E radix T X i).2)

/-- The two FF3 halves before round `i` of the encryption of `X`. -/
def ff3Half (E : Block → Block) (radix : Nat) (T : List Byte) (X : List Nat) (i : Nat) : List Nat × List Nat :=
  (List.range i).foldl (ff3EncRound E radix X.length T) (X.take ((X.length + 1) / 2), X.drop ((X.length + 1) / 2))

/-- `S = REVB(CIPH(REVB(P)))` of FF3 (step 4.iii). -/
def ff3S (E : Block → Block) (radix : Nat) (T : List Byte) (i : Nat) (B : List Nat) : Block :=
  blockOf (E (blockOf (ff3P radix T i B).reverse)).toList.reverse

/-- The FF3-GMAC tag of `X` with a tweak of 16 bytes: `(T ⊕ S_0 ⊕ … ⊕ S_7) • H`. -/
def ff3GmacTag (E : Block → Block) (radix : Nat) (T : List Byte) (X : List Nat) : BitVec 128 :=
  gfMul (toBV (blockOf T ^^^
    xorBlocks ((List.range 8).map fun i => ff3S E radix (T.take 8) i (ff3Half E radix (T.take 8) X i).2)))
    (hashKey E)

end Verif.Spec
