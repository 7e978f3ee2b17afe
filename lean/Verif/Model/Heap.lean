import Verif.Model.Padding
import Verif.Model.Sm4
import Verif.Model.Gcm
import Verif.Model.GcmParallel
import Verif.Model.AesWrap
import Verif.Model.Cbc

/-!
The heap as the library uses it: which objects are allocated, cleared and freed by the functions that make and release
contexts, by the key schedule of SM4, by CBC encryption and by the parallel mode. `malloc` always succeeds and never gives an
address twice; a freed object keeps its contents. Only the contents named in `Cell` are followed.
-/
set_option autoImplicit false

namespace Verif.Model

/-- What an object holds. -/
inductive Cell where
  /-- contents that are not followed: fresh memory, arrays of pointers, lookup tables -/
  | other
  /-- a structure after `memset(ctx, 0, sizeof ..)` -/
  | zeros
  | bytes (b : List Byte)
  | sm4 (c : Sm4Ctx)
  | aes (c : AesSched)
  | gcm (c : GcmCtx)
  /-- `struct gcmfile_context` (modes.h lines 195-198) -/
  | gcmfile (gcm : Nat) (tag : List Byte)
  /-- `struct fpe_ctx`: the pointer to the tweak, its length, the radix -/
  | fpe (tweak twklen radix : Nat)
  /-- `struct fpe_mac_ctx` -/
  | fpeMac (fpe : Option Nat)

/-- An object: contents, and whether it is allocated. -/
structure Obj where
  cell : Cell
  live : Bool

/-- A pointer is the number of an object. -/
abbrev Heap := List Obj

/-- `malloc`. -/
def hAlloc (h : Heap) (c : Cell) : Nat × Heap := (h.length, h ++ [⟨c, true⟩])

/-- `free`: undefined unless the object is allocated. -/
def hFree (h : Heap) (p : Nat) : Option Heap :=
  match h[p]? with
  | some ⟨c, true⟩ => some (h.set p ⟨c, false⟩)
  | _ => none

/-- Reading an object. -/
def hLoad (h : Heap) (p : Nat) : Option Cell :=
  match h[p]? with
  | some ⟨c, true⟩ => some c
  | _ => none

/-- Overwriting an object. -/
def hStore (h : Heap) (p : Nat) (c : Cell) : Option Heap :=
  match h[p]? with
  | some ⟨_, true⟩ => some (h.set p ⟨c, true⟩)
  | _ => none

/-- `n` objects. -/
def hAllocs (h : Heap) (n : Nat) : Heap := h ++ List.replicate n ⟨.other, true⟩

/-! ### format preserving encryption (`/repo/src/fpe/init.c`) -/

/-- `WBCRYPTO_fpe_init` (lines 5-24): `none` is `NULL`. The structure is allocated before the radix is looked at. -/
def fpeInitH (h : Heap) (tweak : List Byte) (radix : Nat) : Option Nat × Heap :=
  let (ctx, h) := hAlloc h .other
  if radix < 2 ∨ 36 < radix then (none, h)
  else
    let (t, h) := hAlloc h (.bytes tweak)
    (some ctx, h.set ctx ⟨.fpe t tweak.length radix, true⟩)

/-- `WBCRYPTO_fpe_free` (lines 26-33). -/
def fpeFreeH (h : Heap) : Option Nat → Option Heap
  | none => some h
  | some p =>
    match hLoad h p with
    | some (.fpe t _ _) => (hFree h t).bind fun h => hFree h p
    | _ => none

/-- `WBCRYPTO_fpe_mac_init` (lines 35-48). -/
def fpeMacInitH (h : Heap) (tweak : List Byte) (radix : Nat) : Option Nat × Heap :=
  let (ctx, h) := hAlloc h .other
  if radix < 2 ∨ 36 < radix then (none, h)
  else
    let (f, h) := fpeInitH h tweak radix
    (some ctx, h.set ctx ⟨.fpeMac f, true⟩)

/-- `WBCRYPTO_fpe_mac_free` (lines 50-57). -/
def fpeMacFreeH (h : Heap) : Option Nat → Option Heap
  | none => some h
  | some p =>
    match hLoad h p with
    | some (.fpeMac f) => (fpeFreeH h f).bind fun h => hFree h p
    | _ => none

/-! ### contexts that are one structure -/

/-- `WBCRYPTO_sm4_context_init` (sm4.c lines 131-140), `WBCRYPTO_aes_context_init` (aes.c lines 3-13),
`WBCRYPTO_wbaes_context_init` (wbaes.c lines 4-14), `WBCRYPTO_se_wbsm4_context_init` (se_wbsm4.c lines 3-14; the field
`encmode` is not followed). -/
def ctxInitH (h : Heap) : Nat × Heap := hAlloc h .zeros

/-- `WBCRYPTO_sm4_context_free` (sm4.c lines 142-144), `WBCRYPTO_aes_context_free` (aes.c lines 15-17),
`WBCRYPTO_wbaes_context_free` (wbaes.c lines 16-18), `WBCRYPTO_se_wbsm4_context_free` (se_wbsm4.c lines 16-18),
`WBCRYPTO_gcm_free` (gcm128.c lines 287-289), `WBCRYPTO_gcmfile_free` (gcmfile.c lines 174-176) and
`WBCRYPTO_wbsm4_context_free` (wbsm4.c lines 47-49): only `memset`. -/
def ctxFreeH (h : Heap) (p : Nat) : Option Heap := hStore h p .zeros

/-- `WBCRYPTO_wbaes_wbgcm_ee_free` (wbaes_wbgcm_ee_mode.c lines 286-292) and `WBCRYPTO_wbaes_wbgcm_mask_free`
(wbaes_wbgcm_mask_mode.c lines 309-315): `memset`, then `free`; the test for `NULL` comes after the `memset`. -/
def wbgcmFreeH (h : Heap) : Option Nat → Option Heap
  | none => none
  | some p => (hStore h p .zeros).bind fun h => hFree h p

/-- `aux_sm4_init_key` (sm4.c lines 146-201) into the context `ctx`. `moved`: the `realloc` of padding.c line 5 returns another
address; the function then goes on with the old pointer (undefined). -/
def sm4InitKeyH (h : Heap) (moved : Bool) (ctx : Nat) (key : List Byte) (mode : EncMode) : Option Heap :=
  let (padkey, h) := hAlloc h .other
  if moved then none
  else
    (hStore h padkey (.bytes (keyPaddingPkcs7 key))).bind fun h =>
    (hStore h ctx (.sm4 (sm4InitKey key mode))).bind fun h => hFree h padkey

/-- `WBCRYPTO_aes_init_key` (aes.c lines 19-25). -/
def aesInitKeyH (h : Heap) (ctx : Nat) (key : List Byte) (keylen : Nat) : Option Heap :=
  (aesInitKey key keylen).bind fun k => hStore h ctx (.aes k)

/-! ### GCM -/

/-- `WBCRYPTO_gcm_init` (gcm128.c lines 41-95). -/
def gcmInitH (h : Heap) (E : Block → Block) : Nat × Heap := hAlloc h (.gcm (gcmInit E))

/-- `WBCRYPTO_gcmfile_init` (gcmfile.c lines 3-13). `sizeof(WBCRYPTO_GCM_FILE_TAG_LEN)` is 4: only four bytes of the tag are
cleared. -/
def gcmfileInitH (h : Heap) (junk : Vector Byte 12) (E : Block → Block) : Nat × Heap :=
  let (f, h) := hAlloc h .other
  let (g, h) := gcmInitH h E
  (f, h.set f ⟨.gcmfile g ([0, 0, 0, 0] ++ junk.toList), true⟩)

/-- Allocations of `WBCRYPTO_gcm_parallel_encrypt`, `..._decrypt` (gcm_parallel.c lines 21-30, 88-97): the array `y_arr` and one
counter block for each piece. Nothing is freed. -/
def gcmParallelH (h : Heap) (y : Block) (len : Nat) : Heap :=
  (hAlloc h .other).2 ++ (yArr y (parBlocks len)).1.map fun b => ⟨.bytes b.toList, true⟩

/-! ### CBC -/

/-- `WBCRYPTO_cbc128_encrypt` (cbc128.c lines 3-44) for non-empty input: `afin` holds the padded message and is not freed on any
path. If `realloc` moves it, the old block is freed and the new one is lost; a call that is refused (line 10) never reads
it. -/
def cbcEncryptH (h : Heap) (E : Block → Block) (moved : Bool) (inp out : List Byte) (maxOlen : Nat) (ivec : Block) :
    Option (CbcResult × Heap) :=
  let (_, h) := hAlloc h (if moved then .other else .bytes ((pkcs7Merge inp).getD []))
  (if moved then (hFree h (h.length - 1)).map fun h => (hAlloc h (.bytes ((pkcs7Merge inp).getD []))).2 else some h).bind fun h =>
  (cbcEncrypt E moved inp out maxOlen ivec).map fun r => (r, h)

/-! ### white-box SM4 -/

/-- `WBCRYPTO_wbsm4_context_init` (wbsm4.c lines 3-45): the structure, four arrays, and for each of the `n` rounds four arrays,
three arrays, twelve tables, twelve tables. -/
def wbsm4ContextInitH (h : Heap) (n : Nat) : Nat × Heap :=
  let (ctx, h) := hAlloc h .other
  (ctx, hAllocs (hAllocs (hAllocs (hAllocs (hAllocs h 4) (4 * n)) (3 * n)) (12 * n)) (12 * n))

/-- The objects made and freed by `WBCRYPTO_wbsm4_gen_table` (wbsm4_gen.c lines 105-279), `WBCRYPTO_se_wbsm4_gen_table`
(se_wbsm4.c lines 20-91): the SM4 context `sm4_key` (never cleared or freed), and for `temps = 3` the arrays `da`, `result`
(wbsm4_gen.c lines 84-101, 277) and `randNumbers` (wrandom.c lines 60-70), all freed. The contexts' own tables are not
followed. -/
def genTableH (h : Heap) (temps : Nat) (key : List Byte) (mode : EncMode) : Option Heap :=
  let (k, h) := ctxInitH h
  (sm4InitKeyH h false k key mode).bind fun h =>
    (List.range temps).foldl (fun h i => h.bind fun h' => hFree h' (k + 2 + i)) (some (hAllocs h temps))

/-! ### applications -/

/-- `WBCRYPTO_fpe_app_init` with cipher "sm4" (fpe_app/init.c lines 11-14): the context. No function releases it. -/
def appInitSm4H (h : Heap) (key : Block) : Option (Nat × Heap) :=
  let (p, h) := ctxInitH h
  (sm4InitKeyH h false p key.toList .encrypt).map fun h => (p, h)

/-- One row of the MySQL function `fpe` (mysql8.cpp lines 57-116) whose arguments are accepted: `fpe_app_init`, then in
`aux_fpe_phone` etc. (phone.c lines 5-56, idcard.c lines 8-65, cn_utf8.c lines 9-96) `fpe_init` and `fpe_free`; the radix
is 10 or 12. -/
def udfRowH (h : Heap) (key : Block) (tweak : List Byte) (radix : Nat) : Option Heap :=
  (appInitSm4H h key).bind fun (_, h) =>
    let (f, h) := fpeInitH h tweak radix
    fpeFreeH h f

end Verif.Model
