import Verif.Model.Keystore

/-!
# C60: key files

Storing and loading works when everything fits; no failure is ever reported.
-/
set_option autoImplicit false

namespace Verif.Props
open Verif Model

/-- C60, defect: loading a file shorter than requested reports success, and exactly the missing bytes of the key
object keep their old value. -/
theorem C60_short_file (ctx file : List Byte) (ctxLen : Nat) (h : file.length < ctxLen) (hc : ctxLen ≤ ctx.length) :
    ∃ c, fileToKey ctx ctxLen (some file) = some (1, c) ∧ c.length = ctx.length ∧
      (∀ i, i < file.length → c[i]? = file[i]?) ∧ (∀ i, file.length ≤ i → c[i]? = ctx[i]?) := by
  have ht : file.take ctxLen = file := List.take_of_length_le (by omega)
  refine ⟨file ++ ctx.drop file.length, ?_, ?_, ?_, ?_⟩
  · simp only [fileToKey, freadOne, ht]
    rw [if_pos (by omega)]
    rfl
  · simp; omega
  · intro i hi
    rw [List.getElem?_append_left hi]
  · intro i hi
    rw [List.getElem?_append_right hi, List.getElem?_drop]
    congr 1
    omega

/-- C60: every file that can be opened is accepted, also the empty one. -/
theorem C60_always_success (ctx file : List Byte) (ctxLen : Nat) (hc : ctxLen ≤ ctx.length) :
    ∃ c, fileToKey ctx ctxLen (some file) = some (1, c) := by
  simp only [fileToKey, freadOne]
  rw [if_pos (by simp; omega)]
  exact ⟨_, rfl⟩

/-- C60: a stored key is loaded back, whatever the loading object held before, and nothing behind it changes. -/
theorem C60_store_load (key ctx : List Byte) (n room : Nat) (hk : n ≤ key.length) (hc : n ≤ ctx.length) (hr : n ≤ room) :
    ∃ f c, keyToFile key n true room = some (1, f) ∧ fileToKey ctx n (some f) = some (1, c) ∧
      c.take n = key.take n ∧ c.drop n = ctx.drop n := by
  have hl : (key.take n).length = n := by simp; omega
  refine ⟨key.take n, key.take n ++ ctx.drop n, ?_, ?_, ?_, ?_⟩
  · simp only [keyToFile, if_true]
    rw [if_pos hk, List.take_of_length_le (by omega : (key.take n).length ≤ room)]
  · simp only [fileToKey, freadOne]
    rw [List.take_of_length_le (Nat.le_of_eq hl), if_pos (by omega), hl]
    rfl
  · rw [List.take_append_of_le_length (by omega), List.take_of_length_le (by omega)]
  · rw [List.drop_append_of_le_length (by omega), List.drop_of_length_le (by omega), List.nil_append]

/-- C60, defect: on a full device storing reports success although the file is cut, and the key loaded from it
differs from the stored one in any byte behind the cut in which the loading object differs from the key. -/
theorem C60_full_device (key ctx : List Byte) (n room i : Nat) (hk : n ≤ key.length) (hc : n ≤ ctx.length) (hr : room ≤ i)
    (hi : i < n) (hd : ctx[i]? ≠ key[i]?) :
    ∃ f c, keyToFile key n true room = some (1, f) ∧ f.length = room ∧ fileToKey ctx n (some f) = some (1, c) ∧
      c[i]? ≠ key[i]? := by
  have hl : ((key.take n).take room).length = room := by simp; omega
  obtain ⟨c, h1, _, _, h2⟩ := C60_short_file ctx ((key.take n).take room) n (by omega) hc
  refine ⟨_, c, ?_, hl, h1, ?_⟩
  · simp only [keyToFile, if_true]
    rw [if_pos hk]
  · rw [h2 i (by omega)]; exact hd

/-- A path that cannot be opened is not reported by the return value: both calls close a null stream. -/
example (ctx : List Byte) (n room : Nat) : fileToKey ctx n none = none ∧ keyToFile ctx n false room = none := ⟨rfl, rfl⟩

/-- A four-byte key, the loading object all zero, and a file cut after two bytes. -/
example : fileToKey [0, 0, 0, 0] 4 (some [0xaa, 0xbb]) = some (1, [0xaa, 0xbb, 0, 0]) ∧
    keyToFile [0xaa, 0xbb, 0xcc, 0xdd] 4 true 2 = some (1, [0xaa, 0xbb]) := by decide

end Verif.Props
