import Verif.Basic

/-!
# Model of `src/utils/keystore.c`

A path is modelled by what `fopen` finds there: `none` if the file cannot be opened, else its content.  The key
object `ctx` is a byte list of the size of the C object.
-/
set_option autoImplicit false

namespace Verif.Model

/-- `fread(ctx, ctx_len, 1, f)`: the library copies what the file has, at most `ctxLen` bytes; writing outside the
object is undefined.  (The C standard calls the value of a partly read element indeterminate; the usual
implementations leave the rest of the object as it was, which is what is modelled.) -/
def freadOne (ctx : List Byte) (ctxLen : Nat) (file : List Byte) : Option (List Byte) :=
  let got := file.take ctxLen
  if got.length ≤ ctx.length then some (got ++ ctx.drop got.length) else none

/-- `WBCRYPTO_keystore_file_to_key` (keystore.c lines 3-15): return value and key object.  If the file cannot be opened the
macro jumps to `cleanup`, where `fclose(NULL)` is undefined (lines 7-9, 12-13).  The result of `fread` (line 10) is
not looked at. -/
def fileToKey (ctx : List Byte) (ctxLen : Nat) (path : Option (List Byte)) : Option (Nat × List Byte) :=
  match path with
  | none => none
  | some file => (freadOne ctx ctxLen file).bind fun c => some (1, c)

/-- `WBCRYPTO_keystore_key_to_file` (keystore.c lines 17-28): return value and file content.  `opened` says whether `fopen`
succeeds, `room` is the number of bytes the device still takes.  The result of `fwrite` (line 24) is not looked
at. -/
def keyToFile (ctx : List Byte) (ctxLen : Nat) (opened : Bool) (room : Nat) : Option (Nat × List Byte) :=
  if opened then
    if ctxLen ≤ ctx.length then some (1, (ctx.take ctxLen).take room) else none
  else none

end Verif.Model
