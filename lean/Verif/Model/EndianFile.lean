import Verif.Model.Endian
import Verif.Model.WbGcmFile
import Verif.Model.Wbsm4File
import Verif.Model.Fpe

/-!
The parts of the library outside the matrices that depend on the machine: the headers of encrypted files (`/repo/src/modes/gcmfile.c`,
`/repo/src/wbaes/wbaes_wbgcm_ee_file.c`, `wbaes_wbgcm_mask_file.c`), the white-box SM4 key files
(`/repo/src/wbsm4/wbsm4_exkey.c`) and the two branches on `is_endian.little` in `/repo/src/fpe/ff1.c` and `ff1_cmac.c`.
`int` and `unsigned int` have four bytes on all machines considered.
-/
set_option autoImplicit false

namespace Verif.Model

/-- The four bytes of a word at the addresses `+0 .. +3`. -/
def ByteOrder.bytes (o : ByteOrder) (w : BitVec 32) : List Byte :=
  match o with
  | .little => wordLE w
  | .big => (wordLE w).reverse

/-- A machine: the order of its bytes, and whether `size_t` has eight bytes (otherwise four). -/
structure Machine where
  order : ByteOrder
  wide : Bool
  deriving DecidableEq

/-- `sizeof(size_t)`. -/
def Machine.sizeT (m : Machine) : Nat := if m.wide then 8 else 4

/-- The machine of all other models: 64 bits, little-endian. -/
def pc : Machine := ⟨.little, true⟩

/-! ### encrypted files -/

/-- `memcpy(size_buf, &file_size, sizeof(size_t))` (gcmfile.c lines 61-64, wbaes_wbgcm_ee_file.c and wbaes_wbgcm_mask_file.c lines
30-33): the `int` in memory order and, where `size_t` is wider, the four bytes behind it. -/
def sizeBufOn (m : Machine) (n : Nat) (junk : Vector Byte 4) : List Byte :=
  m.order.bytes (BitVec.ofNat 32 n) ++ junk.toList.take (m.sizeT - 4)

/-- `WBCRYPTO_gcmfile_encrypt` (gcmfile.c lines 35-109). -/
def gcmfileEncryptOn (m : Machine) (c : GcmCtx) (junk : Vector Byte 4) (fs : FS) (inp out : Path) : Option FileResult := do
  let tmp := tmpPath out
  let _ ← fs inp
  let log := [FsOp.trunc tmp, FsOp.trunc out]
  let data ← applyOps fs log inp
  let size := sizeBufOn m data.length junk
  let (ct, c) ← fileLoop gcmEncrypt c (fpieces data)
  let (tag, c) ← gcmFinish c 16
  return { ret := 1, ctx := c, log := log ++ ct.map (FsOp.put tmp) ++
    (tag ++ size ++ (fpieces ct).flatten).map (FsOp.put out) ++ [FsOp.remove tmp] }

/-- `WBCRYPTO_gcmfile_decrypt` (gcmfile.c lines 111-172): `sizeof(size_t)` bytes are read and the first four taken as a number,
lowest byte first, on every machine (lines 129-137). -/
def gcmfileDecryptOn (m : Machine) (c : GcmCtx) (fs : FS) (inp out : Path) : Option FileResult := do
  let content ← fs inp
  if inp = out then none
  else if content.take 16 = [] then none
  else
    let size := (content.drop 16).take m.sizeT
    if size = [] then none
    else
      let body := content.drop (16 + m.sizeT)
      let (_, c) ← gcmFinish c 16
      let (pt, c) ← fileLoop gcmDecrypt c (fpieces body)
      if 2 ^ 31 ≤ body.length then none
      else
        let log := FsOp.trunc out :: pt.map (FsOp.put out)
        return { ret := if (body.length : Int) = fileSize size then 1 else 0, ctx := c, log := log }

/-- `WBCRYPTO_wbaes_wbgcmfile_ee_encrypt`, `..._mask_encrypt` (lines 3-78). -/
def wbgcmfileEncryptOn (m : Machine) (c : WbGcmCtx) (junk : Vector Byte 4) (fs : FS) (inp out : Path) : Option WbFileResult := do
  let tmp := tmpPath out
  let _ ← fs inp
  let log := [FsOp.trunc tmp, FsOp.trunc out]
  let data ← applyOps fs log inp
  let size := sizeBufOn m data.length junk
  let (ct, c) ← wbFileLoop wbgcmEncrypt c (fpieces data)
  let (tag, c) ← wbgcmFinish c 16
  return { ret := 1, ctx := c, log := log ++ ct.map (FsOp.put tmp) ++
    (tag ++ size ++ (fpieces ct).flatten).map (FsOp.put out) ++ [FsOp.remove tmp] }

/-- `WBCRYPTO_wbaes_wbgcmfile_ee_decrypt`, `..._mask_decrypt` (lines 80-141, the size in lines 98-106). -/
def wbgcmfileDecryptOn (m : Machine) (c : WbGcmCtx) (fs : FS) (inp out : Path) : Option WbFileResult := do
  let content ← fs inp
  if inp = out then none
  else if content.take 16 = [] then none
  else
    let size := (content.drop 16).take m.sizeT
    if size = [] then none
    else
      let body := content.drop (16 + m.sizeT)
      let (_, c) ← wbgcmFinish c 16
      let (pt, c) ← wbFileLoop wbgcmDecrypt c (fpieces body)
      if 2 ^ 31 ≤ body.length then none
      else
        let log := FsOp.trunc out :: pt.map (FsOp.put out)
        return { ret := if (body.length : Int) = fileSize size then 1 else 0, ctx := c, log := log }

/-! ### white-box SM4 key files -/

/-- `WBCRYPTO_wbsm4_key2file` (wbsm4_exkey.c lines 3-48): every `fwrite(&w, 4, 1, wkey)` writes the word in memory order. -/
def key2fileOn (o : ByteOrder) (c : Wbsm4Mem) : List Byte :=
  wbsm4Name ++ o.bytes c.rounds ++ o.bytes c.encmode ++ (slots (loopBound c.rounds)).flatMap fun s => o.bytes (c.mem s)

/-- `fread(&w, 4, 1, rkey)`. -/
def freadWordOn (o : ByteOrder) : List Byte → Option (BitVec 32 × List Byte)
  | a :: b :: c :: d :: r => some (o.word a b c d, r)
  | _ => none

/-- The reading loops (wbsm4_exkey.c lines 69-94), as `readSlots`. -/
def readSlotsOn (o : ByteOrder) (alloc : Nat) :
    List Slot → (Slot → BitVec 32) → List Byte → Option (Bool × (Slot → BitVec 32))
  | [], m, _ => some (true, m)
  | s :: ss, m, file =>
    if s.inside alloc then
      match freadWordOn o file with
      | none => some (false, m)
      | some (w, rest) => readSlotsOn o alloc ss (fun t => if t = s then w else m t) rest
    else none

/-- `WBCRYPTO_wbsm4_file2key` (wbsm4_exkey.c lines 50-100) on a context allocated for `alloc` rounds. -/
def file2keyOn (o : ByteOrder) (alloc : Nat) (c : Wbsm4Mem) (file : List Byte) : Option (Bool × Wbsm4Mem) :=
  let line := fgets16 file
  if line.takeWhile (· ≠ 0) ≠ wbsm4Name then some (false, c)
  else
    match freadWordOn o (file.drop line.length) with
    | none => some (false, c)
    | some (rounds, rest) =>
      match freadWordOn o rest with
      | none => some (false, { c with rounds := rounds })
      | some (encmode, rest) =>
        (readSlotsOn o alloc (slots (loopBound rounds)) c.mem rest).map fun x => (x.1, ⟨rounds, encmode, x.2⟩)

/-! ### FF1 -/

/-- `is_endian.little` of the union `{ long one; char little; } is_endian = {1}` (ff1.c lines 14-17 and 166-169, ff1_cmac.c
lines 40-43 and 212-215): the byte of the number 1 at the lowest address (it is the same whether `long` has four or eight
bytes). -/
def isLittle (o : ByteOrder) : Bool := (o.bytes 1).getD 0 0 ≠ 0

/-- The four bytes that the two branches leave at a position of `P` or `tmp`: shifts on a machine that is found to be
little-endian, otherwise a store of the word. -/
def storeWord (o : ByteOrder) (x : Nat) : Vector Byte 4 :=
  if isLittle o then #v[BitVec.ofNat 8 (x >>> 24), BitVec.ofNat 8 (x >>> 16), BitVec.ofNat 8 (x >>> 8), BitVec.ofNat 8 x]
  else Vector.ofFn fun i => (o.bytes (BitVec.ofNat 32 x)).getD i.1 0

/-- `P` (ff1.c lines 38-61 and 189-212, ff1_cmac.c lines 64-87 and 235-258). The store at `P + 3` is not aligned; it is
taken to work. -/
def ff1PBlockOn (o : ByteOrder) (radix u n t : Nat) : Block :=
  let r := storeWord o (radix * 256 + 10)
  let l := storeWord o n
  let k := storeWord o t
  #v[1, 2, 1, r[0], r[1], r[2], r[3], BitVec.ofNat 8 (u % 256), l[0], l[1], l[2], l[3], k[0], k[1], k[2], k[3]]

/-- `tmp` of the key stream loop before the xor (ff1.c lines 104-113 and 254-263, ff1_cmac.c lines 149-158 and 319-328). -/
def ff1CtrOn (o : ByteOrder) (j : Nat) : Block :=
  let w := storeWord o j
  #v[0, 0, 0, 0, 0, 0, 0, 0, 0, 0, 0, 0, w[0], w[1], w[2], w[3]]

/-- `S` (ff1.c lines 98-121). -/
def ff1SBytesOn (o : ByteOrder) (E : Block → Block) (R : Block) (cnt : Nat) : List Byte :=
  R.toList ++ (List.range cnt).flatMap fun j => (E (ff1CtrOn o (j + 1) ^^^ R)).toList

/-- `BN_bin2bn(S, d, y)` (ff1.c line 124). -/
def ff1YOfOn (o : ByteOrder) (E : Block → Block) (R : Block) (d : Nat) : Option Nat :=
  let S := ff1SBytesOn o E R (ceil2 d 4 - 1)
  if d ≤ S.length then some (bin2bn (S.take d)) else none

/-- Steps i-iv of one FF1 round for the number `num` (ff1.c lines 76-124 and 227-273). -/
def ff1RoundYOn (o : ByteOrder) (ctx : FpeCtx) (lg : Nat → Nat → Nat) (n i num : Nat) : Option Nat :=
  let u := floor2 n 1
  let v := n - u
  let b := ff1B lg ctx.radix v
  (ff1QBytes ctx.tweak b i num).bind fun Q =>
  let R := ff1MacLoop ctx.E (Q.length / 16) (ctx.E (ff1PBlockOn o ctx.radix u n ctx.tweak.length)) Q
  ff1YOfOn o ctx.E R (ff1D b)

/-- One round of `WBCRYPTO_ff1_encrypt` (ff1.c lines 72-138). -/
def ff1EncryptRoundOn (o : ByteOrder) (ctx : FpeCtx) (lg : Nat → Nat → Nat) (n : Nat) (s : FpeSt) (i : Nat) : Option FpeSt :=
  let u := floor2 n 1
  let v := n - u
  let q := powUv ctx.radix u v
  let m := if i % 2 = 1 then v else u
  (rdDigits s.out s.b (n - m)).bind fun B =>
  (ff1RoundYOn o ctx lg n i (str2num B ctx.radix)).bind fun y =>
  (rdDigits s.out s.a m).bind fun A =>
  let c := (str2num A ctx.radix + y) % (if m = u then q.1 else q.2)
  (swapPtrs s).bind fun s =>
  (wrDigits s.out s.b (num2str c ctx.radix m)).bind fun out =>
  some { s with out := out }

/-- One round of `WBCRYPTO_ff1_decrypt` (ff1.c lines 223-286). -/
def ff1DecryptRoundOn (o : ByteOrder) (ctx : FpeCtx) (lg : Nat → Nat → Nat) (n : Nat) (s : FpeSt) (i : Nat) : Option FpeSt :=
  let u := floor2 n 1
  let v := n - u
  let q := powUv ctx.radix u v
  let m := if i % 2 = 1 then v else u
  (rdDigits s.out s.a (n - m)).bind fun A =>
  (ff1RoundYOn o ctx lg n i (str2num A ctx.radix)).bind fun y =>
  (rdDigits s.out s.b m).bind fun B =>
  let c := bnModSub (str2num B ctx.radix) y (if m = u then q.1 else q.2)
  (swapPtrs s).bind fun s =>
  (wrDigits s.out s.a (num2str c ctx.radix m)).bind fun out =>
  some { s with out := out }

/-- `WBCRYPTO_ff1_encrypt` (ff1.c lines 4-154): the output buffer afterwards; the result is always 1. -/
def ff1EncryptOn (o : ByteOrder) (ctx : FpeCtx) (lg : Nat → Nat → Nat) (input output : List Byte) : Option (List Byte) :=
  (cstr input).bind fun str =>
  let n := str.length
  (ff1Assert ctx.tweak.length (ff1B lg ctx.radix (n - floor2 n 1))).bind fun _ =>
  ((List.range 10).foldlM (ff1EncryptRoundOn o ctx lg n) (fpeStart (str.map mapChar) (floor2 n 1))).bind fun s =>
  invMapChars s.out output

/-- `WBCRYPTO_ff1_decrypt` (ff1.c lines 156-302). -/
def ff1DecryptOn (o : ByteOrder) (ctx : FpeCtx) (lg : Nat → Nat → Nat) (input output : List Byte) : Option (List Byte) :=
  (cstr input).bind fun str =>
  let n := str.length
  (ff1Assert ctx.tweak.length (ff1B lg ctx.radix (n - floor2 n 1))).bind fun _ =>
  ((List.range 10).reverse.foldlM (ff1DecryptRoundOn o ctx lg n)
    (fpeStart (str.map mapChar) (floor2 n 1))).bind fun s =>
  invMapChars s.out output

/-- Steps i-iv of a round with the MAC contribution (ff1_cmac.c lines 107-169): `(y, M_mac)`.
`junk` is the content of the uninitialised array `cn_1` in this round. -/
def cmacRoundYOn (o : ByteOrder) (ctx : FpeCtx) (lg : Nat → Nat → Nat) (junk : Block) (n i num : Nat) : Option (Nat × Block) :=
  let u := floor2 n 1
  let v := n - u
  let b := ff1B lg ctx.radix v
  (ff1QBytes ctx.tweak b i num).bind fun Q =>
  let rc := cmacLoop ctx.E (Q.length / 16) (ctx.E (ff1PBlockOn o ctx.radix u n ctx.tweak.length)) junk Q
  let mac := ctx.E (cmacLast (cmacK1 ctx.E) rc.1 rc.2 i)
  (ff1YOfOn o ctx.E rc.1 (ff1D b)).bind fun y => some (y, mac)

/-- One round of `WBCRYPTO_ff1_cmac_encrypt` (ff1_cmac.c lines 103-183); the second component is `mac`. -/
def cmacEncryptRoundOn (o : ByteOrder) (ctx : FpeCtx) (lg : Nat → Nat → Nat) (junk : Nat → Block) (n : Nat)
    (sm : FpeSt × Block) (i : Nat) : Option (FpeSt × Block) :=
  let s := sm.1
  let u := floor2 n 1
  let v := n - u
  let q := powUv ctx.radix u v
  let m := if i % 2 = 1 then v else u
  (rdDigits s.out s.b (n - m)).bind fun B =>
  (cmacRoundYOn o ctx lg (junk i) n i (str2num B ctx.radix)).bind fun yt =>
  (rdDigits s.out s.a m).bind fun A =>
  let c := (str2num A ctx.radix + yt.1) % (if m = u then q.1 else q.2)
  (swapPtrs s).bind fun s =>
  (wrDigits s.out s.b (num2str c ctx.radix m)).bind fun out =>
  some ({ s with out := out }, sm.2 ^^^ yt.2)

/-- One round of `WBCRYPTO_ff1_cmac_decrypt` (ff1_cmac.c lines 274-351). -/
def cmacDecryptRoundOn (o : ByteOrder) (ctx : FpeCtx) (lg : Nat → Nat → Nat) (junk : Nat → Block) (n : Nat)
    (sm : FpeSt × Block) (i : Nat) : Option (FpeSt × Block) :=
  let s := sm.1
  let u := floor2 n 1
  let v := n - u
  let q := powUv ctx.radix u v
  let m := if i % 2 = 1 then v else u
  (rdDigits s.out s.a (n - m)).bind fun A =>
  (cmacRoundYOn o ctx lg (junk i) n i (str2num A ctx.radix)).bind fun yt =>
  (rdDigits s.out s.b m).bind fun B =>
  let c := bnModSub (str2num B ctx.radix) yt.1 (if m = u then q.1 else q.2)
  (swapPtrs s).bind fun s =>
  (wrDigits s.out s.a (num2str c ctx.radix m)).bind fun out =>
  some ({ s with out := out }, sm.2 ^^^ yt.2)

/-- `WBCRYPTO_ff1_cmac_encrypt` (ff1_cmac.c lines 30-200): the output buffer and `ctx->tag`
(which `WBCRYPTO_ff1_cmac_finish`, lines 370-374, copies out). -/
def cmacEncryptOn (o : ByteOrder) (ctx : FpeCtx) (lg : Nat → Nat → Nat) (junk : Nat → Block) (input output : List Byte) :
    Option (List Byte × Block) :=
  (cstr input).bind fun str =>
  let n := str.length
  (ff1Assert ctx.tweak.length (ff1B lg ctx.radix (n - floor2 n 1))).bind fun _ =>
  ((List.range 10).foldlM (cmacEncryptRoundOn o ctx lg junk n)
    (fpeStart (str.map mapChar) (floor2 n 1), zeroBlock)).bind fun sm =>
  (invMapChars sm.1.out output).bind fun o => some (o, sm.2)

/-- `WBCRYPTO_ff1_cmac_decrypt` (ff1_cmac.c lines 202-368). -/
def cmacDecryptOn (o : ByteOrder) (ctx : FpeCtx) (lg : Nat → Nat → Nat) (junk : Nat → Block) (input output : List Byte) :
    Option (List Byte × Block) :=
  (cstr input).bind fun str =>
  let n := str.length
  (ff1Assert ctx.tweak.length (ff1B lg ctx.radix (n - floor2 n 1))).bind fun _ =>
  ((List.range 10).reverse.foldlM (cmacDecryptRoundOn o ctx lg junk n)
    (fpeStart (str.map mapChar) (floor2 n 1), zeroBlock)).bind fun sm =>
  (invMapChars sm.1.out output).bind fun o => some (o, sm.2)

end Verif.Model
