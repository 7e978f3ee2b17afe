import Verif.Model.FpeApp

/-!
Model of the FPE engines and of `/repo/src/fpe_app` when the text and the result are parts of one buffer `buf`, at offsets `p` and
`q`, so that they may overlap. The sample is another object. The splitting loops store only into local arrays, so they are
those of `FpeApp.lean`.
-/
set_option autoImplicit false

namespace Verif.Model

/-- `WBCRYPTO_ff1_encrypt`, `..._decrypt`, `WBCRYPTO_ff3_encrypt`, `..._decrypt` with `input = buf + p` and `output = buf + q`
(ff1.c lines 19-21, 139; 171-173, 287; ff3.c lines 14-16, 69; 95-97, 152): `in` is a copy of the input, and `output` is stored
by `inverse_map_chars` after the last round. `f` is the engine on separate buffers. -/
def engineMem (f : List Byte → List Byte → Option (List Byte)) (buf : List Byte) (p q : Nat) : Option (List Byte) :=
  (f (buf.drop p) (buf.drop q)).map fun o => buf.take q ++ o

/-- One step of the merging loop (phone.c lines 45-49, idcard.c lines 51-55): the buffer and `j`. -/
def mergeStepMem (p q : Nat) (sample ans : List Byte) (s : List Byte × Nat) (i : Nat) : Option (List Byte × Nat) :=
  (maskShown sample i).bind fun shown =>
  if shown then (rdByte s.1 (p + i)).bind fun c => (wrByte s.1 (q + i) c).bind fun o => some (o, s.2)
  else (rdByte ans s.2).bind fun c => (wrByte s.1 (q + i) c).bind fun o => some (o, s.2 + 1)

/-- `aux_fpe_phone` (phone.c lines 5-56). -/
def auxPhoneMem (app : FpeApp) (mem : AppMem) (buf : List Byte) (p q : Nat) (sample : List Byte) (block : FpeFn) :
    Option (List Byte) :=
  (cstr (buf.drop p)).bind fun str =>
  let len := str.length
  (maskCount sample len).bind fun tweakLen =>
  (wrByte (vla mem.input (len - tweakLen + 1)) (len - tweakLen) 0).bind fun input =>
  (wrByte (vla mem.tweak (tweakLen + 1)) tweakLen 0).bind fun tweak =>
  ((List.range len).foldlM (splitStep (buf.drop p) sample) ⟨tweak, input, 0, 0⟩).bind fun s =>
  (fpeInit s.tweak 10 app.E).bind fun ctx =>
  (block ctx s.input (vla mem.ans (len - tweakLen + mem.slack))).bind fun ans =>
  ((List.range len).foldlM (mergeStepMem p q sample ans) (buf, 0)).bind fun o => some o.1

/-- `aux_fpe_idcard` (idcard.c lines 8-65): `idcard[len]` is read after the merging loop (line 57). -/
def auxIdcardMem (app : FpeApp) (mem : AppMem) (buf : List Byte) (p q : Nat) (sample : List Byte) (block : FpeFn) :
    Option (List Byte) :=
  (cstr (buf.drop p)).bind fun str =>
  (if str.length = 0 then none else rdByte (buf.drop p) (str.length - 1)).bind fun last =>
  let len := if last = 0x58 then str.length - 1 else str.length
  (maskCount sample len).bind fun tweakLen =>
  ((List.range len).foldlM (splitStep (buf.drop p) sample)
    ⟨vla mem.tweak (tweakLen + 1), vla mem.input (len - tweakLen + 1), 0, 0⟩).bind fun s =>
  (wrByte s.input (len - tweakLen) 0).bind fun input =>
  (wrByte s.tweak tweakLen 0).bind fun tweak =>
  (fpeInit tweak 10 app.E).bind fun ctx =>
  (block ctx input (vla mem.ans (len - tweakLen + mem.slack))).bind fun ans =>
  ((List.range len).foldlM (mergeStepMem p q sample ans) (buf, 0)).bind fun o =>
  (rdByte o.1 (p + len)).bind fun c =>
  if c = 0x58 then wrByte o.1 (q + len) 0x58 else some o.1

/-- Write an encrypted character (cn_utf8.c lines 72-75, 80-83). -/
def cnPutMem (q : Nat) (ans : List Byte) (s : CnMerge) : Option CnMerge :=
  (duoDecode (ans.drop s.ap)).bind fun uc =>
  (wrBytes s.out (q + s.op) (utf8OfU32 (utf8IntToU32 uc))).bind fun o => some ⟨o, s.ap + 4, s.op + 3⟩

/-- Copy a visible character (cn_utf8.c line 86) with `memcpy`, which is undefined for objects that overlap. -/
def cnCopyMem (p q : Nat) (s : CnMerge) : Option CnMerge :=
  if p < q + 3 ∧ q < p + 3 then none
  else
    (rd3 s.out (p + s.op)).bind fun abc =>
    (wrBytes s.out (q + s.op) [abc.1, abc.2.1, abc.2.2]).bind fun o => some ⟨o, s.ap, s.op + 3⟩

/-- The second loop with a sample (cn_utf8.c lines 78-89). -/
def cnMergeLoopMem (p q : Nat) (ans : List Byte) (smp : List Byte) (s : CnMerge) : Option CnMerge :=
  match smp with
  | [] => some s
  | c :: rest =>
    if c = 0x2a then (cnPutMem q ans s).bind fun s => cnMergeLoopMem p q ans rest s
    else (cnCopyMem p q s).bind fun s => cnMergeLoopMem p q ans (rest.drop 2) s
  termination_by smp.length
  decreasing_by all_goals simp [List.length_drop]; try omega

/-- `aux_fpe_cn` (cn_utf8.c lines 9-96). -/
def auxCnMem (app : FpeApp) (mem : AppMem) (buf : List Byte) (p q : Nat) (sample : List Byte) (block : FpeFn) :
    Option (List Byte) :=
  (cstr (buf.drop p)).bind fun str =>
  (cstr sample).bind fun smp =>
  let len := str.length / 3
  let stars := smp.count 0x2a
  (if smp = [] then some 0 else if stars ≤ len then some (len - stars) else none).bind fun tweakLen =>
  let s0 : CnSplit := ⟨vla mem.input ((len - tweakLen) * 4 + 1), vla mem.tweak (tweakLen * 4 + 1), 0, 0, 0⟩
  (if smp = [] then cnSplitAll (buf.drop p) len s0 else cnSplitLoop (buf.drop p) smp s0).bind fun s =>
  (wrByte s.input ((len - tweakLen) * 4) 0).bind fun input =>
  (wrByte s.tweak (tweakLen * 4) 0).bind fun tweak =>
  (fpeInit tweak 12 app.E).bind fun ctx =>
  (block ctx input (vla mem.ans ((len - tweakLen) * 4 + mem.slack))).bind fun ans =>
  (if smp = [] then (List.range len).foldlM (fun s _ => cnPutMem q ans s) ⟨buf, 0, 0⟩
    else cnMergeLoopMem p q ans smp ⟨buf, 0, 0⟩).bind fun o =>
  some o.out

end Verif.Model
