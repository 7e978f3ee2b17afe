import Verif.Model.SeWbsm4

/-!
The encryption functions of `/repo/src/wbsm4/wbsm4.c` and `/repo/src/se_wbsm4/se_wbsm4.c` with a record of their table lookups:
which table, which entry. What the caches of the machine show of it is left to the properties. The multiplications by matrices of
se_wbsm4.c look up nothing that depends on data; that they branch on data (WBMatrix.c line 1524) is not recorded.
-/
set_option autoImplicit false

namespace Verif.Model

/-- The groups of four tables of a context (wbsm4.h lines 12-24); `i` is the number of the round. -/
inductive WbTab where
  | se (k : Fin 4)
  | mm (i : Nat) (k : Fin 3)
  | table (i : Nat)
  | cc (i : Nat)
  | dd (i : Nat)
  | fe (k : Fin 4)
  deriving DecidableEq

/-- A lookup: the table for byte `j` of the word, and the entry. -/
structure WbLook where
  tab : WbTab
  j : Fin 4
  idx : Byte
  deriving DecidableEq

/-- A result with the lookups made for it, in order. -/
structure WithLog (ε α : Type) where
  val : α
  log : List ε

instance (ε : Type) : Monad (WithLog ε) where
  pure a := ⟨a, []⟩
  bind m f := ⟨(f m.val).val, m.log ++ (f m.val).log⟩

/-- The four lookups of `Tab4.look`, from left to right. -/
def lookTr (t : WbTab) (T : Tab4) (x : BitVec 32) : WithLog WbLook (BitVec 32) :=
  ⟨T.look x, [⟨t, 0, (x >>> 24).truncate 8⟩, ⟨t, 1, (x >>> 16).truncate 8⟩, ⟨t, 2, (x >>> 8).truncate 8⟩, ⟨t, 3, x.truncate 8⟩]⟩

/-- Body of the loop of `WBCRYPTO_wbsm4_encrypt` (wbsm4.c lines 67-82). -/
def wbRoundStepTr (s : B4) (T : WbRound × Nat) : WithLog WbLook B4 := do
  let xt1 ← lookTr (.mm T.2 0) (T.1.mm 0) s.b1
  let xt2 ← lookTr (.mm T.2 1) (T.1.mm 1) s.b2
  let xt3 ← lookTr (.mm T.2 2) (T.1.mm 2) s.b3
  let x4 ← lookTr (.table T.2) T.1.table (xt1 ^^^ xt2 ^^^ xt3)
  let xt0 ← lookTr (.cc T.2) T.1.cc s.b0
  let xt4 ← lookTr (.dd T.2) T.1.dd x4
  pure ⟨s.b1, s.b2, s.b3, xt0 ^^^ xt4⟩

/-- `WBCRYPTO_wbsm4_encrypt` (wbsm4.c lines 51-96). -/
def wbsm4EncryptTr (ctx : Wbsm4Ctx) (x : Block) : WithLog WbLook Block := do
  let x0 ← lookTr (.se 0) (ctx.se 0) (get32 x 0)
  let x1 ← lookTr (.se 1) (ctx.se 1) (get32 x 1)
  let x2 ← lookTr (.se 2) (ctx.se 2) (get32 x 2)
  let x3 ← lookTr (.se 3) (ctx.se 3) (get32 x 3)
  let s ← ctx.rnds.zipIdx.foldlM wbRoundStepTr ⟨x0, x1, x2, x3⟩
  let x3 ← lookTr (.fe 0) (ctx.fe 0) s.b3
  let x2 ← lookTr (.fe 1) (ctx.fe 1) s.b2
  let x1 ← lookTr (.fe 2) (ctx.fe 2) s.b1
  let x0 ← lookTr (.fe 3) (ctx.fe 3) s.b0
  pure (storeU32 x3 ++ storeU32 x2 ++ storeU32 x1 ++ storeU32 x0)

/-- The four lookups in `sm4_sbox` (se_wbsm4.c lines 113-114); there is one table only. -/
def seSubTr (x : BitVec 32) : WithLog Byte (BitVec 32) :=
  ⟨seSub x, [(x >>> 24).truncate 8, (x >>> 16).truncate 8, (x >>> 8).truncate 8, x.truncate 8]⟩

/-- Body of the loop of `WBCRYPTO_se_wbsm4_encrypt` (se_wbsm4.c lines 108-122). -/
def seStepTr (ctx : SeCtx) (s : B4) (i : Fin 32) : WithLog Byte B4 := do
  let xt1 := affineU (ctx.M i 0) s.b1
  let xt2 := affineU (ctx.M i 1) s.b2
  let xt3 := affineU (ctx.M i 2) s.b3
  let x4 ← seSubTr (xt1 ^^^ xt2 ^^^ xt3)
  let x4 := affineU (ctx.C i) s.b0 ^^^ affineU (ctx.D i) x4
  pure ⟨s.b1, s.b2, s.b3, x4⟩

/-- `WBCRYPTO_se_wbsm4_encrypt` (se_wbsm4.c lines 93-135). -/
def seEncryptTr (ctx : SeCtx) (x : Block) : WithLog Byte Block := do
  let s : B4 := ⟨affineU (ctx.SE 0) (get32 x 0), affineU (ctx.SE 1) (get32 x 1), affineU (ctx.SE 2) (get32 x 2),
    affineU (ctx.SE 3) (get32 x 3)⟩
  let s ← (List.finRange 32).foldlM (seStepTr ctx) s
  pure (storeU32 (affineU (ctx.FE 0) s.b3) ++ storeU32 (affineU (ctx.FE 1) s.b2) ++ storeU32 (affineU (ctx.FE 2) s.b1) ++
    storeU32 (affineU (ctx.FE 3) s.b0))

end Verif.Model
