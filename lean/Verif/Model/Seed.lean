import Verif.Model.Random
import Verif.Model.Matrix
import Verif.Model.Wbsm4
import Verif.Model.SeWbsm4
import Verif.Model.Wbaes
import Verif.Model.WbGcm

/-!
Where the random numbers of the white-box generators come from: `/repo/WBMatrix/src/random.c`, the calls
`InitRandom((randseed++) ^ time(NULL))` in `/repo/WBMatrix/src/WBMatrix.c`, and the order in which the generators draw. The
clock is an argument: `clock k` is what call number `k` of `time(NULL)` returns, converted to `unsigned int`.
-/
set_option autoImplicit false

namespace Verif.Model

/-- `m_index`, `m_intermediateOffset` (random.c lines 3-4), `randseed` (WBMatrix.c line 3), the calls of `time` so far. -/
structure Rng where
  st : RandSt
  seed : BitVec 32
  now : Nat

/-- A process that has not called the library: the variables are zero. -/
def rngFresh : Rng := ⟨⟨0, 0⟩, 0, 0⟩

/-- `SetRandSeed` (WBMatrix.c lines 52-54). -/
def setRandSeed (s : BitVec 32) (g : Rng) : Rng := { g with seed := s }

/-- `InitRandom(time(NULL))` (wbaes.c line 82, mask_init.c lines 6 and 101, ee_init.c line 76, wbsm4_gen.c line 130, se_wbsm4.c
line 34). -/
def rngTime (clock : Nat → BitVec 32) (g : Rng) : Rng := { g with st := initRandom (clock g.now), now := g.now + 1 }

/-- `InitRandom((randseed++) ^ time(NULL))` (WBMatrix.c lines 139-291 and 1612-2302). -/
def rngTick (clock : Nat → BitVec 32) (g : Rng) : Rng := ⟨initRandom (g.seed ^^^ clock g.now), g.seed + 1, g.now + 1⟩

/-- `cus_random()`. -/
def draw1 (g : Rng) : BitVec 32 × Rng := ((cusRandom g.st).1, { g with st := (cusRandom g.st).2 })

/-- The numbers to come. -/
abbrev RStream := Nat → BitVec 32

/-- `genMatpairMn`: it seeds (lines 1612, 1750, ..), and the call of `randMn` seeds again before anything is drawn. -/
def drawMat (n : Nat) [WSize n] (clock : Nat → BitVec 32) (g : Rng) : RStream × Rng :=
  let g := rngTick clock (rngTick clock g)
  (randNth g.st, { g with st := randAfter g.st (genMatpair n (randNth g.st) 0).pos })

/-- The first `k` numbers from `s`, then those of `s'`. -/
def splice (k : Nat) (s s' : RStream) : RStream := fun i => if i < k then s i else s' (i - k)

/-- `genaffinepairMn` (lines 2584-2617): the matrix, then `randVn`, which seeds. -/
def drawAff (n : Nat) [WSize n] (clock : Nat → BitVec 32) (g : Rng) : RStream × Rng :=
  let m := drawMat n clock g
  let g := rngTick clock m.2
  (splice (genMatpair n m.1 0).pos m.1 (randNth g.st), { g with st := randAfter g.st (randV n (randNth g.st) 0).2 })

/-- `genPermutation4` (`N = 16`), `genPermutation8` (`N = 256`): `N - 1` numbers (lines 3286-3287, 3303-3304). -/
def drawPerm (N : Nat) (g : Rng) : RStream × Rng := (randNth g.st, { g with st := randAfter g.st (N - 1) })

/-- Two draws in turn. -/
def drawPair {α β : Type} (a : Rng → α × Rng) (b : Rng → β × Rng) (g : Rng) : (α × β) × Rng :=
  let x := a g
  let y := b x.2
  ((x.1, y.1), y.2)

/-- The state after `k` draws. -/
def rngIter {α : Type} (a : Rng → α × Rng) : Nat → Rng → Rng
  | 0, g => g
  | k + 1, g => rngIter a k (a g).2

/-- `k` draws in a loop; nested loops count through. -/
def drawN {α : Type} (k : Nat) (a : Rng → α × Rng) (g : Rng) : (Nat → α) × Rng := (fun j => (a (rngIter a j g)).1, rngIter a k g)

/-- The numbers used by `WBCRYPTO_wbaes_gen_table` (wbaes.c lines 33-46 and 82-137), by
`WBCRYPTO_wbaes_wbgcm_mask_gen_aes_table` (mask_init.c lines 44-63 and 101-170) and by `WBCRYPTO_wbaes_wbgcm_ee_gen_table`
(ee_init.c lines 18-35 and 76-145), all but the encodings of the input. -/
def roundDraw (clock : Nat → BitVec 32) (junkPerm : Vector (Fin 16) 16) (junkKey : Nat → Byte) (g : Rng) : WbaesRnd × Rng :=
  let L := drawN 144 (drawMat 8 clock) g
  let MB := drawN 36 (drawMat 32 clock) L.2
  let ex := drawN 16 (drawPair (drawMat 8 clock) (drawMat 8 clock)) MB.2
  let g := rngTime clock ex.2
  let o := drawN 1152 (drawPair (drawPerm 16) (drawPerm 16)) g
  let o1 := drawN 576 (drawPair (drawPerm 16) (drawPerm 16)) o.2
  let o2 := drawN 288 (drawPair (drawPerm 16) (drawPerm 16)) o1.2
  ({ L := fun i j => L.1 (16 * i.1 + j.1)
     MB := fun i j => MB.1 (4 * i.1 + j.1)
     exIn := fun i => (ex.1 i.1).1
     exOut := fun i => (ex.1 i.1).2
     outII := fun i j k => (o.1 (8 * (16 * i.1 + j.1) + k.1)).1
     outIII := fun i j k => (o.1 (8 * (16 * i.1 + j.1) + k.1)).2
     outIVII1 := fun i j k => (o1.1 (8 * (8 * i.1 + j.1) + k.1)).1
     outIVIII1 := fun i j k => (o1.1 (8 * (8 * i.1 + j.1) + k.1)).2
     outIVII2 := fun i j k => (o2.1 (8 * (4 * i.1 + j.1) + k.1)).1
     outIVIII2 := fun i j k => (o2.1 (8 * (4 * i.1 + j.1) + k.1)).2
     inII := fun _ _ _ => 0
     junkPerm := junkPerm
     junkKey := junkKey }, o2.2)

/-- Then `TypeII_ex_in` and `TypeIII_ex_out` in turn (wbaes.c lines 139-153, mask_init.c lines 172-190). -/
def wbaesDraw (clock : Nat → BitVec 32) (junkPerm : Vector (Fin 16) 16) (junkKey : Nat → Byte) (g : Rng) :
    (WbaesRnd × (Fin 16 → Fin 2 → RStream)) × Rng :=
  let r := roundDraw clock junkPerm junkKey g
  let x := drawN 32 (drawPair (drawPerm 16) (drawPerm 16)) r.2
  (({ r.1 with inII := fun i j => (x.1 (2 * i.1 + j.1)).1 }, fun i j => (x.1 (2 * i.1 + j.1)).2), x.2)

/-- Then `TypeII_ex_in`, after it `TypeIII_ex_out1` and `TypeIII_ex_out2` in turn (ee_init.c lines 147-177). -/
def eeDraw (clock : Nat → BitVec 32) (junkPerm : Vector (Fin 16) 16) (junkKey : Nat → Byte) (g : Rng) :
    (WbaesRnd × (Fin 16 → RStream) × (Fin 16 → RStream)) × Rng :=
  let r := roundDraw clock junkPerm junkKey g
  let x := drawN 32 (drawPerm 16) r.2
  let y := drawN 16 (drawPair (drawPerm 256) (drawPerm 256)) x.2
  (({ r.1 with inII := fun i j => x.1 (2 * i.1 + j.1) }, fun i => (y.1 i.1).1, fun i => (y.1 i.1).2), y.2)

/-- `WBCRYPTO_wbaes_wbgcm_ee_gen_table` with the clock. -/
def wbEeSeeded (clock : Nat → BitVec 32) (junkPerm : Vector (Fin 16) 16) (junk : Vector (Fin 256) 256) (junkKey : Nat → Byte)
    (g : Rng) (key : Block) : WbEeKey × Rng :=
  let r := eeDraw clock junkPerm junkKey g
  (wbEeGenTable r.1.1 r.1.2.1 r.1.2.2 junk key, r.2)

/-- `WBCRYPTO_wbaes_gen_table` with the clock. -/
def wbaesSeeded (clock : Nat → BitVec 32) (junkPerm : Vector (Fin 16) 16) (junkKey : Nat → Byte) (g : Rng) (key : Block) :
    WbaesCtx × Rng :=
  let r := wbaesDraw clock junkPerm junkKey g
  (wbaesGenTable r.1.1 r.1.2 key, r.2)

/-- `genRandomMask` (mask_init.c lines 4-10): the low bytes of 16 numbers. -/
def drawMask (clock : Nat → BitVec 32) (g : Rng) : Block × Rng :=
  let g := rngTime clock g
  (Vector.ofFn fun i => (randNth g.st i.1).truncate 8, { g with st := randAfter g.st 16 })

/-- The numbers used by `WBCRYPTO_wbaes_wbgcm_mask_gen_gcm_table` (mask_init.c lines 329-365, 369, 424). -/
def maskDraw (clock : Nat → BitVec 32) (junk : Vector (Fin 256) 256) (g : Rng) : WbMaskRnd × Rng :=
  let l := drawN 16 (drawPair (drawMat 8 clock) (drawPair (drawMat 8 clock) (drawMat 8 clock))) g
  let p := drawN 16 (drawPair (drawPair (drawPerm 256) (drawPerm 256)) (drawPair (drawPerm 256) (drawPerm 256))) l.2
  let e := drawMask clock p.2
  let d := drawMask clock e.2
  ({ L1 := fun i => (l.1 i.1).1
     L2 := fun i => (l.1 i.1).2.1
     L3 := fun i => (l.1 i.1).2.2
     N1 := fun i => (p.1 i.1).1.1
     N2 := fun i => (p.1 i.1).1.2
     N3 := fun i => (p.1 i.1).2.1
     N4 := fun i => (p.1 i.1).2.2
     junk := junk
     maskEnc := e.1
     maskDec := d.1 }, d.2)

/-- `WBCRYPTO_wbaes_wbgcm_mask_gen_table` (mask_init.c lines 468-473) with the clock. -/
def wbMaskSeeded (clock : Nat → BitVec 32) (junkPerm : Vector (Fin 16) 16) (junk : Vector (Fin 256) 256) (junkKey : Nat → Byte)
    (g : Rng) (key : Block) : (WbMaskKey × WbMaskKey) × Rng :=
  let e := wbaesDraw clock junkPerm junkKey g
  let d := wbaesDraw clock junkPerm junkKey e.2
  let m := maskDraw clock junk d.2
  (wbMaskGenTable e.1.1 d.1.1 e.1.2 d.1.2 m.1 key, m.2)

/-- The numbers used by `WBCRYPTO_se_wbsm4_gen_table` (se_wbsm4.c lines 34, 40-43, 47-50, 73). -/
def seDraw (clock : Nat → BitVec 32) (g : Rng) : SeRnd × Rng :=
  let p := drawN 36 (drawAff 32 clock) (rngTime clock g)
  let q := drawN 32 (drawN 5 draw1) p.2
  ({ p := p.1
     a := fun i j => (q.1 i) j.1
     t := fun i => (q.1 i) 4 }, q.2)

/-- `WBCRYPTO_se_wbsm4_gen_table` with the clock. -/
def seSeeded (clock : Nat → BitVec 32) (g : Rng) (mode : EncMode) (key : List Byte) : SeCtx × Rng :=
  let r := seDraw clock g
  (seGenTable r.1 mode key, r.2)

/-- The numbers used by `WBCRYPTO_wbsm4_gen_table` (wbsm4_gen.c lines 130, 134-165, 171-217, 251-254) for the dummy array `da`
(empty if the array could not be made); `shuf` comes from `rand()`. Only rounds that are no dummies draw. -/
def wbsm4Draw (clock : Nat → BitVec 32) (shuf : RStream) (da : List Byte) (g : Rng) : Wbsm4Rnd × Rng :=
  let p := drawN 36 (drawAff 32 clock) (rngTime clock g)
  let l := drawN 32 (drawPair (drawN 4 (drawAff 8 clock)) (drawPair (drawAff 32 clock) draw1)) p.2
  let n := da.count 0
  let c := drawN (9 * n + 3) draw1 l.2
  ({ shuf := shuf
     p := p.1
     e := fun i j => (l.1 i).1 j.1
     q := fun i => (l.1 i).2.1
     t := fun i => (l.1 i).2.2
     q1 := fun i j => c.1 (9 * (da.take i).count 0 + j.1)
     q2 := fun i j => c.1 (9 * (da.take i).count 0 + 3 + j.1)
     q3 := fun i j => c.1 (9 * (da.take i).count 0 + 6 + j.1)
     qx := fun j => c.1 (9 * n + j.1) }, c.2)

/-- `WBCRYPTO_wbsm4_gen_table` with the clock. -/
def wbsm4Seeded (clock : Nat → BitVec 32) (shuf : RStream) (junk : Nat → WbRound) (g : Rng) (mode : EncMode) (d : Nat)
    (key : List Byte) : Option Wbsm4Ctx × Rng :=
  let r := wbsm4Draw clock shuf ((dummyArray shuf d).getD []) g
  (wbsm4GenTable r.1 junk mode d key, r.2)

end Verif.Model
