import Verif.Model.Sm4

/-!
`/repo/src/sm4/sm4.c` with a record of its table lookups: which table, which entry. What the caches of the machine show of it is
left to the properties.
-/
set_option autoImplicit false

namespace Verif.Model

/-- `SM4_S` (sm4.c lines 14-37) and `SM4_SBOX_T` (lines 42-85). -/
inductive LookTab where
  | s | t
  deriving DecidableEq

/-- A lookup. -/
structure Look where
  tab : LookTab
  idx : Byte
  deriving DecidableEq

/-- A result with the lookups made for it, in order. -/
structure Traced (α : Type) where
  val : α
  log : List Look

instance : Monad Traced where
  pure a := ⟨a, []⟩
  bind m f := ⟨(f m.val).val, m.log ++ (f m.val).log⟩

def lookS (x : Byte) : Traced Byte := ⟨sBox x, [⟨.s, x⟩]⟩
def lookT (x : Byte) : Traced (BitVec 32) := ⟨sBoxT x, [⟨.t, x⟩]⟩

/-- The four S-box lookups of lines 110-115 and 178-183. -/
def subWordTr (x : BitVec 32) : Traced (BitVec 32) := do
  let a ← lookS ((x >>> 24).truncate 8)
  let b ← lookS ((x >>> 16).truncate 8)
  let c ← lookS ((x >>> 8).truncate 8)
  let d ← lookS (x.truncate 8)
  pure ((a.zeroExtend 32 <<< 24) ||| (b.zeroExtend 32 <<< 16) ||| (c.zeroExtend 32 <<< 8) ||| d.zeroExtend 32)

/-- `SM4_T_slow` (lines 108-121). -/
def tSlowTr (x : BitVec 32) : Traced (BitVec 32) := do
  let t ← subWordTr x
  pure (t ^^^ rotl t 2 ^^^ rotl t 10 ^^^ rotl t 18 ^^^ rotl t 24)

/-- `SM4_T` (lines 123-129). The order of the operands of `^` is that of the text. -/
def tFastTr (x : BitVec 32) : Traced (BitVec 32) := do
  let a ← lookT ((x >>> 24).truncate 8)
  let b ← lookT ((x >>> 16).truncate 8)
  let c ← lookT ((x >>> 8).truncate 8)
  let d ← lookT (x.truncate 8)
  pure (a ^^^ rotl b 24 ^^^ rotl c 16 ^^^ rotl d 8)

/-- Body of the key schedule loop (lines 177-195). -/
def keyStepTr (mode : EncMode) (s : Vector (BitVec 32) 4 × Sm4Ctx) (i : Fin 32) : Traced (Vector (BitVec 32) 4 × Sm4Ctx) := do
  let K := s.1
  let x := K[(i.1 + 1) % 4]'(Nat.mod_lt _ (by decide)) ^^^ K[(i.1 + 2) % 4]'(Nat.mod_lt _ (by decide)) ^^^
    K[(i.1 + 3) % 4]'(Nat.mod_lt _ (by decide)) ^^^ SM4_CK[i]
  let t ← subWordTr x
  let t := t ^^^ rotl t 13 ^^^ rotl t 23
  let k := K[i.1 % 4]'(Nat.mod_lt _ (by decide)) ^^^ t
  let K := K.set (i.1 % 4) k (Nat.mod_lt _ (by decide))
  match mode with
  | .encrypt => pure (K, s.2.set i.1 k)
  | .decrypt => pure (K, s.2.set (31 - i.1) k)

/-- `aux_sm4_init_key` (lines 146-201) on a zeroed context. -/
def sm4InitKeyTr (key : List Byte) (mode : EncMode) : Traced Sm4Ctx := do
  let padkey := padKey key
  let K : Vector (BitVec 32) 4 := #v[loadU32 padkey 0 ^^^ SM4_FK[0], loadU32 padkey 1 ^^^ SM4_FK[1],
    loadU32 padkey 2 ^^^ SM4_FK[2], loadU32 padkey 3 ^^^ SM4_FK[3]]
  let s ← (List.finRange 32).foldlM (keyStepTr mode) (K, Vector.replicate 32 0)
  pure s.2

/-- `SM4_RNDS(k0, k1, k2, k3, F)` (lines 207-213). -/
def sm4RndsTr (F : BitVec 32 → Traced (BitVec 32)) (rk : Sm4Ctx) (k0 k1 k2 k3 : Fin 32) (s : B4) : Traced B4 := do
  let f0 ← F (s.b1 ^^^ s.b2 ^^^ s.b3 ^^^ rk[k0])
  let b0 := s.b0 ^^^ f0
  let f1 ← F (b0 ^^^ s.b2 ^^^ s.b3 ^^^ rk[k1])
  let b1 := s.b1 ^^^ f1
  let f2 ← F (b0 ^^^ b1 ^^^ s.b3 ^^^ rk[k2])
  let b2 := s.b2 ^^^ f2
  let f3 ← F (b0 ^^^ b1 ^^^ b2 ^^^ rk[k3])
  let b3 := s.b3 ^^^ f3
  pure ⟨b0, b1, b2, b3⟩

/-- `WBCRYPTO_sm4_encrypt` (lines 215-242). -/
def sm4EncryptTr (rk : Sm4Ctx) (x : Block) : Traced Block := do
  let s := B4.load x
  let s ← sm4RndsTr tSlowTr rk 0 1 2 3 s
  let s ← sm4RndsTr tFastTr rk 4 5 6 7 s
  let s ← sm4RndsTr tFastTr rk 8 9 10 11 s
  let s ← sm4RndsTr tFastTr rk 12 13 14 15 s
  let s ← sm4RndsTr tFastTr rk 16 17 18 19 s
  let s ← sm4RndsTr tFastTr rk 20 21 22 23 s
  let s ← sm4RndsTr tFastTr rk 24 25 26 27 s
  let s ← sm4RndsTr tSlowTr rk 28 29 30 31 s
  pure s.store

/-- `WBCRYPTO_sm4_decrypt` (lines 244-267). -/
def sm4DecryptTr (rk : Sm4Ctx) (x : Block) : Traced Block := do
  let s := B4.load x
  let s ← sm4RndsTr tSlowTr rk 31 30 29 28 s
  let s ← sm4RndsTr tFastTr rk 27 26 25 24 s
  let s ← sm4RndsTr tFastTr rk 23 22 21 20 s
  let s ← sm4RndsTr tFastTr rk 19 18 17 16 s
  let s ← sm4RndsTr tFastTr rk 15 14 13 12 s
  let s ← sm4RndsTr tFastTr rk 11 10 9 8 s
  let s ← sm4RndsTr tFastTr rk 7 6 5 4 s
  let s ← sm4RndsTr tSlowTr rk 3 2 1 0 s
  pure s.store

end Verif.Model
