import Verif.Model.Sm4Tables
import Verif.Model.Padding

/-! Model of `/repo/src/sm4/sm4.c`. -/
set_option autoImplicit false

namespace Verif.Model

/-- `rotl` (sm4.c lines 87-90). -/
def rotl (a : BitVec 32) (n : Nat) : BitVec 32 := (a <<< n) ||| (a >>> (32 - n))

/-- `load_u32_be(b, n)` (lines 92-98). -/
def loadU32 (b : Block) (n : Nat) (h : n < 4 := by decide) : BitVec 32 :=
  (b[4 * n].zeroExtend 32 <<< 24) ||| (b[4 * n + 1].zeroExtend 32 <<< 16) |||
    (b[4 * n + 2].zeroExtend 32 <<< 8) ||| b[4 * n + 3].zeroExtend 32

/-- The bytes written by `store_u32_be` (lines 100-106). -/
def storeU32 (v : BitVec 32) : Vector Byte 4 :=
  #v[(v >>> 24).truncate 8, (v >>> 16).truncate 8, (v >>> 8).truncate 8, v.truncate 8]

def sBox (x : Byte) : Byte := SM4_S[x.toFin]
def sBoxT (x : Byte) : BitVec 32 := SM4_SBOX_T[x.toFin]

/-- The four S-box lookups of lines 110-115 and 178-183. -/
def subWord (x : BitVec 32) : BitVec 32 :=
  ((sBox ((x >>> 24).truncate 8)).zeroExtend 32 <<< 24) ||| ((sBox ((x >>> 16).truncate 8)).zeroExtend 32 <<< 16) |||
    ((sBox ((x >>> 8).truncate 8)).zeroExtend 32 <<< 8) ||| (sBox (x.truncate 8)).zeroExtend 32

/-- `SM4_T_slow` (lines 108-121). -/
def tSlow (x : BitVec 32) : BitVec 32 :=
  let t := subWord x
  t ^^^ rotl t 2 ^^^ rotl t 10 ^^^ rotl t 18 ^^^ rotl t 24

/-- `SM4_T` (lines 123-129). -/
def tFast (x : BitVec 32) : BitVec 32 :=
  sBoxT ((x >>> 24).truncate 8) ^^^ rotl (sBoxT ((x >>> 16).truncate 8)) 24 ^^^
    rotl (sBoxT ((x >>> 8).truncate 8)) 16 ^^^ rotl (sBoxT (x.truncate 8)) 8

/-- `struct sm4_context`. -/
abbrev Sm4Ctx := Vector (BitVec 32) 32

/-- `encmode`: `WBCRYPTO_ENCRYPT_MODE` or `WBCRYPTO_DECRYPT_MODE`. -/
inductive EncMode where
  | encrypt | decrypt
  deriving DecidableEq

/-- Body of the key schedule loop (lines 177-195) for index `i`. -/
def keyStep (mode : EncMode) (s : Vector (BitVec 32) 4 × Sm4Ctx) (i : Fin 32) : Vector (BitVec 32) 4 × Sm4Ctx :=
  let K := s.1
  let x := K[(i.1 + 1) % 4]'(Nat.mod_lt _ (by decide)) ^^^ K[(i.1 + 2) % 4]'(Nat.mod_lt _ (by decide)) ^^^
    K[(i.1 + 3) % 4]'(Nat.mod_lt _ (by decide)) ^^^ SM4_CK[i]
  let t := subWord x
  let t := t ^^^ rotl t 13 ^^^ rotl t 23
  let k := K[i.1 % 4]'(Nat.mod_lt _ (by decide)) ^^^ t
  let K := K.set (i.1 % 4) k (Nat.mod_lt _ (by decide))
  match mode with
  | .encrypt => (K, s.2.set i.1 k)
  | .decrypt => (K, s.2.set (31 - i.1) k)

/-- The 16 bytes of `padkey`. -/
def padKey (key : List Byte) : Block := Vector.ofFn fun i => (keyPaddingPkcs7 key).getD i.1 0

/-- `aux_sm4_init_key` (lines 146-201) on a zeroed context. -/
def sm4InitKey (key : List Byte) (mode : EncMode) : Sm4Ctx :=
  let padkey := padKey key
  let K : Vector (BitVec 32) 4 := #v[loadU32 padkey 0 ^^^ SM4_FK[0], loadU32 padkey 1 ^^^ SM4_FK[1],
    loadU32 padkey 2 ^^^ SM4_FK[2], loadU32 padkey 3 ^^^ SM4_FK[3]]
  ((List.finRange 32).foldl (keyStep mode) (K, Vector.replicate 32 0)).2

/-- The four local words `B0 .. B3`. -/
structure B4 where
  b0 : BitVec 32
  b1 : BitVec 32
  b2 : BitVec 32
  b3 : BitVec 32

/-- `SM4_RNDS(k0, k1, k2, k3, F)` (lines 207-213). -/
def sm4Rnds (F : BitVec 32 → BitVec 32) (rk : Sm4Ctx) (k0 k1 k2 k3 : Fin 32) (s : B4) : B4 :=
  let b0 := s.b0 ^^^ F (s.b1 ^^^ s.b2 ^^^ s.b3 ^^^ rk[k0])
  let b1 := s.b1 ^^^ F (b0 ^^^ s.b2 ^^^ s.b3 ^^^ rk[k1])
  let b2 := s.b2 ^^^ F (b0 ^^^ b1 ^^^ s.b3 ^^^ rk[k2])
  let b3 := s.b3 ^^^ F (b0 ^^^ b1 ^^^ b2 ^^^ rk[k3])
  ⟨b0, b1, b2, b3⟩

def B4.load (x : Block) : B4 := ⟨loadU32 x 0, loadU32 x 1, loadU32 x 2, loadU32 x 3⟩
def B4.store (s : B4) : Block := storeU32 s.b3 ++ storeU32 s.b2 ++ storeU32 s.b1 ++ storeU32 s.b0

/-- `WBCRYPTO_sm4_encrypt` (lines 215-242). -/
def sm4Encrypt (rk : Sm4Ctx) (x : Block) : Block :=
  let s := B4.load x
  let s := sm4Rnds tSlow rk 0 1 2 3 s
  let s := sm4Rnds tFast rk 4 5 6 7 s
  let s := sm4Rnds tFast rk 8 9 10 11 s
  let s := sm4Rnds tFast rk 12 13 14 15 s
  let s := sm4Rnds tFast rk 16 17 18 19 s
  let s := sm4Rnds tFast rk 20 21 22 23 s
  let s := sm4Rnds tFast rk 24 25 26 27 s
  let s := sm4Rnds tSlow rk 28 29 30 31 s
  s.store

/-- `WBCRYPTO_sm4_decrypt` (lines 244-267). -/
def sm4Decrypt (rk : Sm4Ctx) (x : Block) : Block :=
  let s := B4.load x
  let s := sm4Rnds tSlow rk 31 30 29 28 s
  let s := sm4Rnds tFast rk 27 26 25 24 s
  let s := sm4Rnds tFast rk 23 22 21 20 s
  let s := sm4Rnds tFast rk 19 18 17 16 s
  let s := sm4Rnds tFast rk 15 14 13 12 s
  let s := sm4Rnds tFast rk 11 10 9 8 s
  let s := sm4Rnds tFast rk 7 6 5 4 s
  let s := sm4Rnds tSlow rk 3 2 1 0 s
  s.store

end Verif.Model
