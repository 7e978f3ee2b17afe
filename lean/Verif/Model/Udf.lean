import Verif.Model.FpeAppInit

/-! Model of the MySQL functions `/repo/udf/mysql8.cpp` and `/repo/udf/mysql5.cpp`.

An argument is the memory from its pointer to the end of the object it points into, and the length MySQL gives; MySQL
passes `NULL` as a null pointer and does not promise a terminator behind the string. `result` and `error` are buffers of
MySQL; their sizes are parameters (MySQL provides 255 bytes for `result` and one for `error`). Lengths are below `2^31`, so
`int plain_len` holds them. -/
set_option autoImplicit false

namespace Verif.Model

/-- `args->args[i]`, `args->lengths[i]`. -/
structure UdfArg where
  mem : Option (List Byte)
  len : Nat

/-- What a call returns: `NULL`, or `result` with `*length` bytes. -/
inductive UdfOut where
  | null
  | value (bytes : List Byte)

/-- The key of mysql8.cpp and mysql5.cpp lines 8-11. -/
def udfKey : Block := #v[0x2b, 0x7e, 0x15, 0x16, 0x28, 0xae, 0xd2, 0xa6, 0xab, 0xf7, 0x15, 0x88, 0x09, 0xcf, 0x4f, 0x3c]

/-- `fpe_init` (mysql8.cpp lines 24-51): `isString` for each argument and the length of the first; the size of the buffer
`initid->ptr` if the call is accepted. -/
def udfInit (isString : List Bool) (len0 : Nat) : Option Nat :=
  if isString.length < 2 ∨ 3 < isString.length then none
  else if isString[0]? ≠ some true ∨ isString[1]? ≠ some true then none
  else if isString.length = 3 ∧ isString[2]? ≠ some true then none
  else some (len0 + 1)

/-- Whether `strcmp(s, lit) == 0` for a terminated literal; `none` if `s` is read past its end before a difference is seen. -/
def strEq : List Byte → List Byte → Option Bool
  | [], _ => none
  | _ :: _, [] => none
  | a :: s, b :: l => if a ≠ b then some false else if a = 0 then some true else strEq s l

/-- A literal with its terminator. -/
def lit (s : String) : List Byte := s.toList.map (fun c => BitVec.ofNat 8 c.toNat) ++ [0]

/-- `strcpy(error, msg); return NULL` for a message of `n` characters. -/
def udfFail (errCap n : Nat) : Option UdfOut := if n + 1 ≤ errCap then some .null else none

/-- Lines 65-70 of mysql8.cpp: `none` also if the message does not fit in `msg[200]`. -/
def udfSampleFail (errCap : Nat) (plain sample : List Byte) : Option UdfOut :=
  (cstr plain).bind fun p => (cstr sample).bind fun s =>
    let n := "sample should be as long as plain, plain: ".length + p.length + ", sample: ".length + s.length
    if n + 1 ≤ 200 then udfFail errCap n else none

/-- Lines 112-113 of mysql8.cpp, 106-107 of mysql5.cpp. -/
def udfReturn (resCap len : Nat) (buf : List Byte) : Option UdfOut := if len ≤ resCap then some (.value (buf.take len)) else none

/-- The three-way choice of lines 78-110 (mysql5.cpp lines 72-104) on the buffer `initid->ptr`; `sample = [0]` stands for a call
without sample. -/
def udfModes (app : FpeApp) (lg : Nat → Nat → Nat) (amem : AppMem) (resCap errCap : Nat) (plain mode sample buf : List Byte)
    (len : Nat) : Option UdfOut :=
  (strEq mode (lit "phone")).bind fun isPhone =>
  if isPhone then
    if len ≠ 11 then udfFail errCap "the length of phone should be 11".length
    else (encryptPhone app lg amem plain sample buf).bind (udfReturn resCap len)
  else (strEq mode (lit "idcard")).bind fun isCard =>
  if isCard then
    if len ≠ 18 then udfFail errCap "the length of id-card should be 18".length
    else (encryptIdcard app lg amem plain sample buf).bind (udfReturn resCap len)
  else (strEq mode (lit "name")).bind fun isName =>
  (if isName then some true else strEq mode (lit "address")).bind fun isText =>
  if isText then (encryptCn app lg amem plain sample buf).bind (udfReturn resCap len)
  else udfFail errCap "requires optional mode: phone or idcard or address".length

/-- `fpe` (mysql8.cpp lines 57-116; mysql5.cpp lines 57-110 for `v8 = false`) on the buffer `ptr` made by `fpe_init`. Any
null pointer is undefined: the mode goes to `strcmp`, the plain text to `memcpy`; a null sample is treated in the same way, although
it is not looked at when the mode is unknown. -/
def udfCall (v8 : Bool) (imem : AppInitMem) (lg : Nat → Nat → Nat) (amem : AppMem) (resCap errCap : Nat) (ptr : List Byte)
    (plain mode : UdfArg) (sample : Option UdfArg) : Option UdfOut :=
  mode.mem.bind fun m =>
  plain.mem.bind fun p =>
  (match sample with
    | none => some [0]
    | some s => s.mem).bind fun smp =>
  (match sample with
    | none => some false
    | some s => if v8 ∧ plain.len ≠ s.len then (strEq m (lit "address")).map (fun b => !b) else some false).bind fun bad =>
  if bad then udfSampleFail errCap p smp
  else if plain.len ≤ p.length ∧ plain.len < ptr.length then
    let buf := p.take plain.len ++ 0 :: ptr.drop (plain.len + 1)
    (fpeAppInit imem udfKey.toList 16 "sm4" "ff1").bind fun app => udfModes app lg amem resCap errCap p m smp buf plain.len
  else none

end Verif.Model
