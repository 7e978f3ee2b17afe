import Verif.Basic

/-! Model of the number generators of `/repo/src/utils/wrandom.c`. A call of `rand()` is an argument: 31 bits, as
`RAND_MAX` is 2^31 - 1 in the C library of the platform. -/
set_option autoImplicit false

namespace Verif.Model

/-- `wRand32` (lines 25-28): `wRand31() ^ (wRand31() << 1)` on `uint32_t`. The order of the two calls is unspecified in C; `a`
is the value of the left one. -/
def wRand32 (a b : BitVec 31) : BitVec 32 := a.zeroExtend 32 ^^^ (b.zeroExtend 32 <<< 1)

/-- `wRand64` (lines 30-37): three 31-bit numbers at distance 21 on `uint64_t`. -/
def wRand64 (a b c : BitVec 31) : BitVec 64 := a.zeroExtend 64 ^^^ (b.zeroExtend 64 <<< 21) ^^^ (c.zeroExtend 64 <<< 42)

end Verif.Model
