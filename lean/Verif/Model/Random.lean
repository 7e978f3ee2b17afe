import Verif.Basic

/-!
# Model of the pseudo random generator (`WBMatrix/src/random.c`)

The two global variables `m_index` and `m_intermediateOffset` are an explicit state.
-/

set_option autoImplicit false

namespace Verif.Model

/-- The constant `prime` (random.c line 8). -/
def qprPrime : Nat := 4294967291

/-- `permuteQPR` (random.c lines 6-13).  The square is computed in 64 bits, the subtraction in 32 bits. -/
def permuteQPR (x : BitVec 32) : BitVec 32 :=
  if qprPrime ≤ x.toNat then x
  else
    let residue : BitVec 32 := BitVec.ofNat 32 ((x.toNat * x.toNat % 2 ^ 64) % qprPrime)
    if x.toNat ≤ qprPrime / 2 then residue else BitVec.ofNat 32 qprPrime - residue

/-- `m_index` and `m_intermediateOffset` (random.c lines 3-4). -/
structure RandSt where
  index : BitVec 32
  offset : BitVec 32

/-- `InitRandom` (random.c lines 15-20). -/
def initRandom (seedBase : BitVec 32) : RandSt :=
  let seedOffset := seedBase + 1
  ⟨permuteQPR (permuteQPR seedBase + 0x682f0161), permuteQPR (permuteQPR seedOffset + 0x46790905)⟩

/-- `cus_random` (random.c lines 22-25): the value returned and the next state. -/
def cusRandom (s : RandSt) : BitVec 32 × RandSt :=
  (permuteQPR ((permuteQPR s.index + s.offset) ^^^ 0x5bf03635), { s with index := s.index + 1 })

/-- The state after `n` calls of `cus_random`. -/
def randAfter (s : RandSt) : Nat → RandSt
  | 0 => s
  | n + 1 => (cusRandom (randAfter s n)).2

/-- The value returned by call number `n` (from 0). -/
def randNth (s : RandSt) (n : Nat) : BitVec 32 := (cusRandom (randAfter s n)).1

end Verif.Model
