import Verif.Model.Sm3Prog

/-! Model of `/repo/src/sm3/sm3.c`, `sm3_local.h` and `md32_common.h`. -/
set_option autoImplicit false

namespace Verif.Model

/-- `ROTATE` (md32_common.h line 94). -/
def rotate32 (a : BitVec 32) (n : Nat) : BitVec 32 := (a <<< n) ||| ((a &&& 0xffffffff) >>> (32 - n))

/-- `P0`, `P1` (sm3_local.h lines 43-44). -/
def p0 (x : BitVec 32) : BitVec 32 := x ^^^ rotate32 x 9 ^^^ rotate32 x 17
def p1 (x : BitVec 32) : BitVec 32 := x ^^^ rotate32 x 15 ^^^ rotate32 x 23

/-- `FF0`/`FF1` (lines 46, 49). -/
def ff (r2 : Bool) (x y z : BitVec 32) : BitVec 32 := if r2 then (x &&& y) ||| ((x ||| y) &&& z) else x ^^^ y ^^^ z

/-- `GG0`/`GG1` (lines 47, 50). -/
def gg (r2 : Bool) (x y z : BitVec 32) : BitVec 32 := if r2 then z ^^^ (x &&& (y ^^^ z)) else x ^^^ y ^^^ z

abbrev Regs := Vector (BitVec 32) 8
abbrev WBuf := Vector (BitVec 32) 16

/-- `RND` (sm3_local.h lines 55-66) on the registers named by the arguments. -/
def rnd (i : Sm3Instr) (r : Regs) (w : WBuf) : Regs :=
  let A := i.regs[0]
  let B := i.regs[1]
  let C := i.regs[2]
  let D := i.regs[3]
  let E := i.regs[4]
  let F := i.regs[5]
  let G := i.regs[6]
  let H := i.regs[7]
  let a12 := rotate32 r[A] 12
  let a12sm := a12 + r[E] + i.tj
  let ss1 := rotate32 a12sm 7
  let tt1 := ff i.r2 r[A] r[B] r[C] + r[D] + (ss1 ^^^ a12) + (w[i.wj1] ^^^ w[i.wj2])
  let tt2 := gg i.r2 r[E] r[F] r[G] + r[H] + ss1 + w[i.wi]
  let r := r.set B (rotate32 r[B] 9)
  let r := r.set D tt1
  let r := r.set F (rotate32 r[F] 19)
  r.set H (p0 tt2)

/-- `EXPAND` (sm3_local.h line 52) and the assignment of its result. -/
def expandW (i : Sm3Instr) (w : WBuf) : WBuf :=
  match i.expand with
  | none => w
  | some e => w.set e[0] (p1 (w[e[1]] ^^^ w[e[2]] ^^^ rotate32 w[e[3]] 15) ^^^ rotate32 w[e[4]] 7 ^^^ w[e[5]])

def sm3Exec (s : Regs × WBuf) (i : Sm3Instr) : Regs × WBuf := (rnd i s.1 s.2, expandW i s.2)

/-- `HOST_c2l` (md32_common.h lines 98-101) on bytes `k .. k+3` of the block; the result is stored in an
`unsigned int`. -/
def hostC2l (blk : List Byte) (k : Nat) : BitVec 32 :=
  ((blk.getD k 0).zeroExtend 32 <<< 24) ||| ((blk.getD (k + 1) 0).zeroExtend 32 <<< 16) |||
    ((blk.getD (k + 2) 0).zeroExtend 32 <<< 8) ||| (blk.getD (k + 3) 0).zeroExtend 32

/-- One iteration of `sm3_block_data_order` (sm3.c lines 37-194) for a block of 64 bytes. -/
def sm3Block (st : Regs) (blk : List Byte) : Regs :=
  let w : WBuf := Vector.ofFn fun i => hostC2l blk (4 * i.1)
  let s := sm3Prog.foldl sm3Exec (st, w)
  Vector.ofFn fun i => st[i] ^^^ s.1[i]

/-- `sm3_block_data_order(ctx, data, num)`: `num` blocks. -/
def sm3Blocks (st : Regs) (data : List Byte) : Nat → Regs
  | 0 => st
  | n + 1 => sm3Blocks (sm3Block st (data.take 64)) (data.drop 64) n

/-- `struct sm3_context` (sm3.h); `data` is its 64-byte buffer. -/
structure Sm3Ctx where
  st : Regs
  nl : BitVec 32
  nh : BitVec 32
  data : List Byte
  num : Nat

/-- `WBCRYPTO_sm3_init` (sm3.c lines 15-27). -/
def sm3Init : Sm3Ctx :=
  { st := #v[0x7380166f, 0x4914b2b9, 0x172442d7, 0xda8a0600, 0xa96f30bc, 0x163138aa, 0xe38dee4d, 0xb0fb0e4e]
    nl := 0, nh := 0, data := List.replicate 64 0, num := 0 }

/-- `memcpy(p + n, src, src.length)` into a buffer. -/
def putAt (buf : List Byte) (n : Nat) (src : List Byte) : List Byte :=
  buf.take n ++ src ++ buf.drop (n + src.length)

/-- The length counter (md32_common.h lines 140-146). -/
def sm3Count (c : Sm3Ctx) (len : Nat) : Sm3Ctx :=
  let l := c.nl + (BitVec.ofNat 32 len <<< 3)
  let nh := if l < c.nl then c.nh + 1 else c.nh
  { c with nl := l, nh := nh + BitVec.ofNat 32 (len >>> 29) }

/-- The part of `HASH_UPDATE` after the partial block (lines 172-185), with `num` possibly still set. -/
def sm3Tail (c : Sm3Ctx) (data : List Byte) : Sm3Ctx :=
  let n := data.length / 64
  let c := if n > 0 then { c with st := sm3Blocks c.st data n } else c
  let data := data.drop (n * 64)
  if data.length ≠ 0 then { c with num := data.length, data := putAt c.data 0 data } else c

/-- `HASH_UPDATE` (md32_common.h lines 130-186). -/
def sm3Update (c : Sm3Ctx) (data : List Byte) : Sm3Ctx :=
  let len := data.length
  if len = 0 then c
  else
    let c := sm3Count c len
    let n := c.num
    if n ≠ 0 then
      if len ≥ 64 ∨ len + n ≥ 64 then
        let buf := putAt c.data n (data.take (64 - n))
        let c := { c with st := sm3Blocks c.st buf 1, num := 0, data := List.replicate 64 0 }
        sm3Tail c (data.drop (64 - n))
      else { c with data := putAt c.data n data, num := c.num + len }
    else sm3Tail c data

/-- `HOST_l2c` (md32_common.h lines 102-106). -/
def hostL2c (w : BitVec 32) : List Byte :=
  [((w >>> 24) &&& 0xff).truncate 8, ((w >>> 16) &&& 0xff).truncate 8, ((w >>> 8) &&& 0xff).truncate 8,
    (w &&& 0xff).truncate 8]

/-- `HASH_FINAL` (md32_common.h lines 193-229) up to its last call of `sm3_block_data_order` (line 217): the chaining value. -/
def sm3FinalSt (c : Sm3Ctx) : Regs :=
  let p := putAt c.data c.num [0x80]
  let n := c.num + 1
  let (st, p, n) :=
    if n > 64 - 8 then
      let p := putAt p n (List.replicate (64 - n) 0)
      (sm3Blocks c.st p 1, p, 0)
    else (c.st, p, n)
  let p := putAt p n (List.replicate (64 - 8 - n) 0)
  let p := putAt p 56 (hostL2c c.nh)
  let p := putAt p 60 (hostL2c c.nl)
  sm3Blocks st p 1

/-- `HASH_FINAL`: the digest, made of the chaining value by `HASH_MAKE_STRING` (sm3_local.h lines 25-36). -/
def sm3Final (c : Sm3Ctx) : List Byte := ((sm3FinalSt c).toList.map hostL2c).flatten

/-- The context after `HASH_FINAL`: `num` and the buffer are cleared (md32_common.h lines 218-220), the chaining value and
the length stay. -/
def sm3FinalCtx (c : Sm3Ctx) : Sm3Ctx := { c with st := sm3FinalSt c, num := 0, data := List.replicate 64 0 }

/-- `HASH_TRANSFORM`, that is `WBCRYPTO_sm3_transform` (md32_common.h lines 188-191): one block of 64 bytes, not counted. -/
def sm3Transform (c : Sm3Ctx) (data : List Byte) : Sm3Ctx := { c with st := sm3Blocks c.st data 1 }

/-- `WBCRYPTO_sm3` (sm3.c lines 197-202); the function has no return statement, only the digest is meaningful. -/
def sm3Hash (msg : List Byte) : List Byte := sm3Final (sm3Update sm3Init msg)

end Verif.Model
