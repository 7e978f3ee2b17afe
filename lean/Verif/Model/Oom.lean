import Verif.Model.Api
import Verif.Model.GcmFile
import Verif.Model.WbGcmFile
import Verif.Model.GcmParallel
import Verif.Model.SeWbsm4
import Verif.Model.Wbsm4Bytes
import Verif.Model.FpeAppInit
import Verif.Model.Udf

/-!
Running out of memory. The functions below are those of the other modules with the requests for memory they make, in order.
`ok i` says whether request number `i` of the process is granted. `none`: a null pointer is used. Requests that OpenSSL makes by
itself (`BN_new`, `BN_CTX_new`) are not followed. `realloc` counts as a request; one that is granted does not move the object
(for that case see `cbcEncrypt`, `sm4InitKeyH`). A null pointer given to `memcpy`, `memset` or `BN_bn2bin` is undefined also when
nothing is copied.
-/
set_option autoImplicit false

namespace Verif.Model

/-- A computation that asks for memory: the answers, the number of requests made before it, its result and the number of requests
made after it. -/
def Oom (α : Type) := (Nat → Bool) → Nat → Option (α × Nat)

instance : Monad Oom where
  pure a := fun _ k => some (a, k)
  bind x f := fun ok k => (x ok k).bind fun r => f r.1 ok r.2

/-- `malloc`, `realloc`, `OPENSSL_malloc`: whether the result is a pointer to an object, not `NULL`. -/
def ask : Oom Bool := fun ok k => some (ok k, k + 1)

/-- The pointer is used. -/
def use (p : Bool) : Oom Unit := fun _ k => if p then some ((), k) else none

/-- A computation without requests. -/
def oomLift {α : Type} (x : Option α) : Oom α := fun _ k => x.map fun a => (a, k)

/-- A loop from index `i` on: the results in order. -/
def loopO {α : Type} (f : Nat → Oom α) : Nat → Nat → Oom (List α)
  | 0, _ => pure []
  | n + 1, i => do
    let a ← f i
    let l ← loopO f n (i + 1)
    pure (a :: l)

/-- `n` requests in a row. -/
def asks (n : Nat) : Oom (List Bool) := loopO (fun _ => ask) n 0

/-! ### contexts -/

/-- `WBCRYPTO_sm4_context_init` (sm4.c lines 131-140), `WBCRYPTO_aes_context_init` (aes.c lines 3-13),
`WBCRYPTO_wbaes_context_init` (wbaes.c lines 4-14), `WBCRYPTO_se_wbsm4_context_init` (se_wbsm4.c lines 3-14): tested. -/
def ctxInitO : Oom Bool := ask

/-- `WBCRYPTO_gcm_init` (gcm128.c lines 41-95): tested; `none` is `NULL`. -/
def gcmInitO (E : Block → Block) : Oom (Option GcmCtx) := do
  let ctx ← ask
  pure (if ctx then some (gcmInit E) else none)

/-- `aux_sm4_init_key` (sm4.c lines 146-201) into the context `ctx`: `padkey` (line 148), then the `realloc` of padding.c line 5,
whose result is cleared at once (line 6); `padkey` is read at line 175 and the context written at lines 190-194. When `padkey` is
`NULL`, `realloc` makes another object, which is lost. -/
def sm4InitKeyO (ctx : Bool) (key : List Byte) (mode : EncMode) : Oom Sm4Ctx := do
  let padkey ← ask
  let dst ← ask
  use dst
  use padkey
  use ctx
  pure (sm4InitKey key mode)

/-- `WBCRYPTO_se_wbsm4_gen_table` (se_wbsm4.c lines 20-91): the SM4 context of line 28 is not tested. -/
def seGenTableO (r : SeRnd) (mode : EncMode) (key : List Byte) : Oom SeCtx := do
  let sm4 ← ctxInitO
  let _ ← sm4InitKeyO sm4 key mode
  pure (seGenTable r mode key)

/-! ### white-box SM4 -/

/-- The pointers to tables in a white-box SM4 context: `mm[i][j][k]` is `MM[i][j][k]`; `rest[i][j]` are `CC[i][j]`, `DD[i][j]`,
`Table[i][j]`. -/
structure WbLeaves where
  mm : List (List (List Bool))
  rest : List (List (List Bool))

/-- `WBCRYPTO_wbsm4_context_init` (wbsm4.c lines 3-45): only the structure is tested. -/
def wbsm4ContextInitO (dummyrounds : Nat) : Oom (Option WbLeaves) := do
  let ctx ← ask
  if ctx then
    let rounds := 32 + 4 * dummyrounds
    let top ← asks 4
    let row ← loopO (fun _ => do
      use (top.all id)
      asks 4) rounds 0
    let mid ← loopO (fun i => do
      use ((row.getD i []).getD 0 false)
      asks 3) rounds 0
    let mm ← loopO (fun i => loopO (fun j => do
      use ((mid.getD i []).getD j false)
      asks 4) 3 0) rounds 0
    let rest ← loopO (fun i => loopO (fun _ => do
      use (((row.getD i []).drop 1).all id)
      asks 3) 4 0) rounds 0
    pure (some ⟨mm, rest⟩)
  else pure none

/-- All tables of round `i` are there. -/
def WbLeaves.full (L : WbLeaves) (i : Nat) : Bool :=
  ((L.mm.getD i []).all fun l => l.all id) && (L.rest.getD i []).all fun l => l.all id

/-- `CC[i][j]` and `Table[i][j]` are there for all `j`. -/
def WbLeaves.ccTable (L : WbLeaves) (i : Nat) : Bool := (L.rest.getD i []).all fun l => l.getD 0 false && l.getD 2 false

/-- The tables that `WBCRYPTO_wbsm4_gen_table` writes: all of a round (wbsm4_gen.c lines 171-232), `Table` and `CC` of a dummy
round (lines 235-246). -/
def WbLeaves.written (L : WbLeaves) (arr : List Byte) : Bool :=
  (List.range arr.length).all fun i => if arr.getD i 0 = 0 then L.full i else L.ccTable i

/-- `WBCRYPTO_wbsm4_gen_table` (wbsm4_gen.c lines 105-279), with `wbsm4_gen_dummyround_array` (lines 82-103) and
`wRandomShuffleU8` (wrandom.c lines 57-72). -/
def wbsm4GenTableO (L : WbLeaves) (r : Wbsm4Rnd) (junk : Nat → WbRound) (mode : EncMode) (dummyrounds : Nat)
    (key : List Byte) : Oom Wbsm4Ctx := do
  let sm4 ← ctxInitO
  let _ ← sm4InitKeyO sm4 key mode
  let da ← ask
  use da
  let randNumbers ← ask
  use randNumbers
  let result ← ask
  use result
  let arr ← oomLift (dummyArray r.shuf dummyrounds)
  use (L.written arr)
  oomLift (genTableWith r junk mode key arr)

/-- `WBCRYPTO_wbsm4_encrypt` (wbsm4.c lines 51-96): every round reads from all its tables. -/
def wbsm4EncryptO (L : WbLeaves) (ctx : Wbsm4Ctx) (x : Block) : Oom Block := do
  use ((List.range ctx.rnds.length).all L.full)
  pure (wbsm4Encrypt ctx x)

/-- `WBCRYPTO_wbsm4_key2bytes` (wbsm4_exkey.c lines 102-116). -/
def key2bytesO (s : Wbsm4Struct) : Oom (List Byte) := do
  let kstream ← ask
  use kstream
  pure (key2bytes s)

/-! ### masked white-box GCM -/

/-- `WBCRYPTO_wbaes_wbgcm_mask_init_table` (wbaes_wbgcm_mask_init.c lines 12-28): the pointers `GBOX_TypeIII[i][j]`. -/
def maskInitTableO : Oom (Option (List (List Bool))) := do
  let ctx ← ask
  if ctx then
    let top ← ask
    let row ← loopO (fun _ => do
      use top
      ask) 16 0
    let leaves ← loopO (fun i => do
      use (row.getD i false)
      asks 256) 16 0
    pure (some leaves)
  else pure none

/-- `WBCRYPTO_wbaes_wbgcm_mask_gen_table` (lines 468-473) into two contexts: all entries are written. -/
def wbMaskGenTableO (enc dec : List (List Bool)) (re rd : WbaesRnd) (roe rod : Fin 16 → Fin 2 → Nat → BitVec 32)
    (r : WbMaskRnd) (key : Block) : Oom (WbMaskKey × WbMaskKey) := do
  use (enc.all fun l => l.all id)
  use (dec.all fun l => l.all id)
  pure (wbMaskGenTable re rd roe rod r key)

/-! ### modes -/

/-- `WBCRYPTO_cbc128_encrypt` (cbc128.c lines 3-44): `afin` (line 8), the `realloc` of padding.c line 49, whose result is cleared
(line 50); `afin` is read from line 20 on, not in a call that is refused (line 10). Nothing is read or cleared for the empty
message. -/
def cbcEncryptO (E : Block → Block) (inp out : List Byte) (maxOlen : Nat) (ivec : Block) : Oom CbcResult := do
  let afin ← ask
  let dst ← ask
  use (dst || inp.isEmpty)
  let p ← oomLift (pkcs7Merge inp)
  use (afin || inp.isEmpty || decide (maxOlen < p.length))
  oomLift (cbcEncrypt E false inp out maxOlen ivec)

/-- The loop of gcm_parallel.c lines 22-30 and 89-97: each counter block is written at once. -/
def yArrO (y : Block) : Nat → Oom (List Block × Block)
  | 0 => pure ([], y)
  | n + 1 => do
    let p ← ask
    let y' := incCtr y 4 (by decide)
    use p
    let r ← yArrO y' n
    pure (y' :: r.1, r.2)

/-- The preparations of `WBCRYPTO_gcm_parallel_encrypt`, `..._decrypt` (gcm_parallel.c lines 4-30, 71-97) for an accepted call
with `len` bytes; there is always at least one counter block. -/
def gcmParallelO (y : Block) (len : Nat) : Oom (List Block × Block) := do
  let arr ← ask
  use arr
  yArrO y (parBlocks len)

/-- `WBCRYPTO_gcmfile_init` (gcmfile.c lines 3-13): the inner context is not tested. The outer `none` is `NULL`. -/
def gcmfileInitO (E : Block → Block) : Oom (Option (Option GcmCtx)) := do
  let ctx ← ask
  if ctx then
    let gcm ← gcmInitO E
    pure (some gcm)
  else pure none

/-- `WBCRYPTO_gcmfile_setiv`, `..._aad` (gcmfile.c lines 15-33). -/
def gcmfileSetivO (gcm : Option GcmCtx) (iv : List Byte) : Oom GcmCtx := oomLift (gcm.map fun c => gcmSetiv c iv)
def gcmfileAadO (gcm : Option GcmCtx) (aad : List Byte) : Oom GcmCtx := oomLift (gcm.map fun c => gcmAad c aad)

/-- `WBCRYPTO_gcmfile_encrypt` (gcmfile.c lines 35-104): `tmp_file_path` (line 42) is written at once. -/
def gcmfileEncryptO (gcm : Option GcmCtx) (junk : Vector Byte 4) (fs : FS) (inp out : Path) : Oom FileResult := do
  let tmp ← ask
  use tmp
  let c ← oomLift gcm
  oomLift (gcmfileEncrypt c junk fs inp out)

/-! ### format preserving encryption -/

/-- `WBCRYPTO_fpe_init` (fpe/init.c lines 5-24); the copy of the tweak (line 19) is not tested. -/
def fpeInitO (tweak : List Byte) (radix : Nat) (E : Block → Block) : Oom (Option FpeCtx) := do
  let ctx ← ask
  if ctx = false ∨ radix < 2 ∨ radix > 36 then pure none
  else
    let t ← ask
    use t
    pure (some { E := E, radix := radix, tweak := tweak })

/-- `WBCRYPTO_fpe_mac_init` (lines 35-48): the inner context is not tested. The outer `none` is `NULL`. -/
def fpeMacInitO (tweak : List Byte) (radix : Nat) (E : Block → Block) : Oom (Option (Option FpeCtx)) := do
  let ctx ← ask
  if ctx = false ∨ radix < 2 ∨ radix > 36 then pure none
  else
    let f ← fpeInitO tweak radix E
    pure (some f)

/-- The frame of `WBCRYPTO_ff1_encrypt`, `..._decrypt` (ff1.c lines 36, 71; 188, 222) and of `WBCRYPTO_ff1_cmac_encrypt`,
`..._decrypt` (ff1_cmac.c lines 62, 102; 234, 273): `Q`, `Bytes`, then `S` after `Q` has been written; all are used in the first
round. A null context is used before (ff1.c line 26). -/
def ff1FrameO {α : Type} (ctx : Option FpeCtx) (f : FpeCtx → Option α) : Oom α := do
  let c ← oomLift ctx
  let Q ← ask
  let Bytes ← ask
  use Q
  let S ← ask
  use Bytes
  use S
  oomLift (f c)

/-- The frame of `WBCRYPTO_ff3_encrypt`, `..._decrypt` (ff3.c lines 27, 108) and of `WBCRYPTO_ff3_gmac_encrypt`, `..._decrypt`
(ff3_gmac.c lines 105, 209): `Bytes`. -/
def ff3FrameO {α : Type} (ctx : Option FpeCtx) (f : FpeCtx → Option α) : Oom α := do
  let c ← oomLift ctx
  let Bytes ← ask
  use Bytes
  oomLift (f c)

/-! ### applications -/

/-- `WBCRYPTO_fpe_app_init` (fpe_app/init.c lines 4-36): no result of an `..._init` is tested. -/
def fpeAppInitO (mem : AppInitMem) (key : List Byte) (keylen : Nat) (cipher ffx : String) : Oom FpeApp := do
  let k ← oomLift (appInputKey mem key keylen)
  if cipher = "sm4" then
    let p ← ctxInitO
    let rk ← sm4InitKeyO p k.toList .encrypt
    pure ⟨sm4Encrypt rk, ffxOf ffx⟩
  else if cipher = "wbsm4" then
    let L ← wbsm4ContextInitO 1
    let L ← oomLift L
    let ctx ← wbsm4GenTableO L mem.sm4 mem.sm4Junk .encrypt 1 k.toList
    pure ⟨wbsm4Encrypt ctx, ffxOf ffx⟩
  else if cipher = "wbaes" then
    let p ← ctxInitO
    use p
    pure ⟨wbaesEncrypt (wbaesGenTable mem.aes mem.aesOut k), ffxOf ffx⟩
  else
    let p ← ctxInitO
    use p
    let ctx ← oomLift (aesInitKey k.toList 16)
    pure ⟨aesEncrypt ctx, ffxOf ffx⟩

/-- The requests of `aux_fpe_phone` (phone.c lines 5-56), `aux_fpe_idcard` (idcard.c lines 8-65) and `aux_fpe_cn_utf8` (cn_utf8.c
lines 9-96): those of `WBCRYPTO_fpe_init` with a radix in range, whose result is not tested, and those of the engine. `call` is
the function with memory enough (`encryptPhone` etc.). -/
def appCallO (ffx : Ffx) (call : Option (List Byte)) : Oom (List Byte) := do
  let ctx ← fpeInitO [] 10 id
  match ffx with
  | .ff1 => ff1FrameO ctx fun _ => call
  | .ff3 => ff3FrameO ctx fun _ => call

end Verif.Model
