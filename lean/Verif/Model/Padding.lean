import Verif.Basic

/-!
Model of `/repo/src/utils/padding.c`.
`none` is undefined behaviour of the C function.
-/
set_option autoImplicit false

namespace Verif.Model

/-- `pad_len` of `WBCRYPTO_padding_pkcs7_merge` / `_merge_length`
(padding.c lines 48 and 76), before conversion to `int`. -/
def padLen (srclen : Nat) : Nat :=
  if srclen % 16 = 0 then srclen else (srclen / 16 + 1) * 16

/-- `WBCRYPTO_padding_pkcs7_merge` (padding.c lines 46-61).
`pad_len` is a C `int`; when it does not fit, the sizes passed to `realloc`/`memset` are wrong and
the copy loop runs out of bounds, so the result is undefined.  The result is the content of the
(re)allocated destination; its length is the returned `pad_len`. The byte loops at lines 51-53 and
56-58 fill positions `0..srclen-1` and `srclen..pad_len-1`. -/
def pkcs7Merge (src : List Byte) : Option (List Byte) :=
  let pad_len := padLen src.length
  if pad_len < 2 ^ 31 then
    let dst := List.replicate pad_len (0 : Byte)
    let dst := src ++ dst.drop src.length
    if pad_len > src.length then
      let pad_num := pad_len - src.length
      some (dst.take src.length ++ List.replicate (pad_len - src.length) (BitVec.ofNat 8 pad_num))
    else some dst
  else none

/-- `WBCRYPTO_padding_pkcs7_merge_length` (padding.c lines 74-78): `int` conversion of `pad_len`,
returned as `size_t`. -/
def mergeLength (srclen : Nat) : BitVec 64 :=
  (BitVec.ofNat 32 (padLen srclen)).signExtend 64

/-- `pad_num` computation shared by `separate` and `separate_length`
(padding.c lines 64-67 and 81-84): last byte, replaced by 0 when above 16. -/
def stripNum (last : Byte) : Nat :=
  let pad_num := last.toNat
  if pad_num > 16 then 0 else pad_num

/-- `WBCRYPTO_padding_pkcs7_separate` (padding.c lines 63-72). Reading `src[srclen-1]` of an empty
source is undefined; so is a negative `afpad_len` (line 68) which would be passed to `memcpy`;
lengths from `2^31` do not fit the `int`. The result is the destination content. -/
def pkcs7Separate (src : List Byte) : Option (List Byte) :=
  if h : src ≠ [] then
    let pad_num := stripNum (src.getLast h)
    if pad_num ≤ src.length ∧ src.length < 2 ^ 31 then some (src.take (src.length - pad_num)) else none
  else none

/-- `WBCRYPTO_padding_pkcs7_separate_length` (padding.c lines 80-87): `int` result converted to
`size_t`. -/
def separateLength (src : List Byte) : Option (BitVec 64) :=
  if h : src ≠ [] then
    let pad_num := stripNum (src.getLast h)
    some (((BitVec.ofNat 32 src.length) - BitVec.ofNat 32 pad_num).signExtend 64)
  else none

/-- `WBCRYPTO_key_padding_pkcs7` (padding.c lines 3-23); result: the 16 destination bytes. -/
def keyPaddingPkcs7 (src : List Byte) : List Byte :=
  if src.length > 16 then src.take 16
  else if src.length < 16 then
    src ++ List.replicate (16 - src.length) (BitVec.ofNat 8 (16 - src.length))
  else src

/-- `WBCRYPTO_key_padding_zeros` (padding.c lines 25-44). -/
def keyPaddingZeros (src : List Byte) : List Byte :=
  if src.length > 16 then src.take 16
  else if src.length < 16 then src ++ List.replicate (16 - src.length) 0
  else src

end Verif.Model
