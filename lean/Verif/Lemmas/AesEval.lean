import Verif.Lemmas.Wbaes

/-! An equivalent form of `aes128` that the kernel can evaluate. -/
set_option autoImplicit false

namespace Verif
open Spec Model

def kword (k : Block) (j : Fin 4) : AesWord := #v[k[4 * j.1], k[4 * j.1 + 1], k[4 * j.1 + 2], k[4 * j.1 + 3]]

def ofKwords (w : Fin 4 → AesWord) : Block := Vector.ofFn fun m => (w ⟨m.1 / 4, by omega⟩)[m.1 % 4]'(by omega)

def sboxTab (x : Byte) : Byte := WBAES_SBOX[x.toFin]

def subRotTab (w : AesWord) : AesWord := #v[sboxTab w[1], sboxTab w[2], sboxTab w[3], sboxTab w[0]]

/-- Round key `i + 1` from round key `i`. -/
def keyStep (k : Block) (i : Nat) : Block :=
  let w0 := (kword k 0).xor ((subRotTab (kword k 3)).xor (aesRcon (i + 1)))
  let w1 := (kword k 1).xor w0
  let w2 := (kword k 2).xor w1
  let w3 := (kword k 3).xor w2
  ofKwords fun j => match j with
    | 0 => w0 | 1 => w1 | 2 => w2 | 3 => w3

theorem kword_get (k : Block) (j : Fin 4) (t : Nat) (ht : t < 4) : (kword k j)[t] = k[4 * j.1 + t] := by
  have : t = 0 ∨ t = 1 ∨ t = 2 ∨ t = 3 := by omega
  rcases this with rfl | rfl | rfl | rfl <;> rfl

theorem kword_roundKey (key : Block) (i : Nat) (j : Fin 4) : kword (roundKey key i) j = aesWord key (4 * i + j.1) := by
  apply Vector.ext
  intro t ht
  have hd : (4 * j.1 + t) / 4 = j.1 := by omega
  have hm : (4 * j.1 + t) % 4 = t := by omega
  rw [kword_get _ _ _ ht, roundKey, Vector.getElem_ofFn]
  simp only [hd, hm]

theorem subRotTab_eq (w : AesWord) : subRotTab w = subRot w := by
  simp only [subRotTab, subRot, sboxTab, wbaesSbox_eq]

theorem keyStep_eq (key : Block) (i : Nat) : keyStep (roundKey key i) i = roundKey key (i + 1) := by
  have e0 : aesWord key (4 * (i + 1)) = (aesWord key (4 * i)).xor ((subRot (aesWord key (4 * i + 3))).xor (aesRcon (i + 1))) := by
    rw [aesWord_high key (4 * (i + 1)) (by omega), if_pos (by omega)]
    rw [show 4 * (i + 1) - 4 = 4 * i by omega, show 4 * (i + 1) - 1 = 4 * i + 3 by omega, show 4 * (i + 1) / 4 = i + 1 by omega]
  have e : ∀ j, 1 ≤ j → j ≤ 3 → aesWord key (4 * (i + 1) + j) = (aesWord key (4 * i + j)).xor (aesWord key (4 * (i + 1) + (j - 1))) := by
    intro j h1 h3
    rw [aesWord_high key (4 * (i + 1) + j) (by omega), if_neg (by omega)]
    rw [show 4 * (i + 1) + j - 4 = 4 * i + j by omega, show 4 * (i + 1) + j - 1 = 4 * (i + 1) + (j - 1) by omega]
  unfold keyStep
  simp only [kword_roundKey, subRotTab_eq]
  rw [show 4 * i + ((0 : Fin 4) : Nat) = 4 * i from rfl, show 4 * i + ((3 : Fin 4) : Nat) = 4 * i + 3 from rfl,
    show 4 * i + ((1 : Fin 4) : Nat) = 4 * i + 1 from rfl, show 4 * i + ((2 : Fin 4) : Nat) = 4 * i + 2 from rfl, ← e0]
  rw [show 4 * (i + 1) = 4 * (i + 1) + (1 - 1) from rfl, ← e 1 (by omega) (by omega)]
  rw [show 4 * (i + 1) + 1 = 4 * (i + 1) + (2 - 1) from rfl, ← e 2 (by omega) (by omega)]
  rw [show 4 * (i + 1) + 2 = 4 * (i + 1) + (3 - 1) from rfl, ← e 3 (by omega) (by omega)]
  unfold ofKwords roundKey
  congr 1
  funext m
  have : m.1 / 4 = 0 ∨ m.1 / 4 = 1 ∨ m.1 / 4 = 2 ∨ m.1 / 4 = 3 := by omega
  rcases this with h | h | h | h <;> simp only [h] <;> rfl

/-- State and round key after `n` full rounds. -/
def evalRounds (key x : Block) : Nat → Block × Block
  | 0 => (x ^^^ key, key)
  | n + 1 =>
    let s := evalRounds key x n
    let k := keyStep s.2 n
    (mixColumns (aesShiftRows (Vector.ofFn fun i => sboxTab s.1[i])) ^^^ k, k)

def aesEval (key x : Block) : Block :=
  let s := evalRounds key x 9
  aesShiftRows (Vector.ofFn fun i => sboxTab s.1[i]) ^^^ keyStep s.2 9

theorem roundKey_zero (key : Block) : roundKey key 0 = key := by
  apply Vector.ext
  intro m hm
  rw [roundKey, Vector.getElem_ofFn]
  have : m / 4 = 0 ∨ m / 4 = 1 ∨ m / 4 = 2 ∨ m / 4 = 3 := by omega
  have h2 : m % 4 = 0 ∨ m % 4 = 1 ∨ m % 4 = 2 ∨ m % 4 = 3 := by omega
  rcases this with h | h | h | h <;> rcases h2 with h' | h' | h' | h' <;>
    (obtain rfl : m = _ := (Nat.div_add_mod m 4).symm.trans (by rw [h, h'])
     simp only [h, h', aesWord_low key 0 (by decide), aesWord_low key 1 (by decide), aesWord_low key 2 (by decide),
       aesWord_low key 3 (by decide)]
     rfl)

theorem sub_eq (s : Block) : (Vector.ofFn fun i : Fin 16 => sboxTab s[i]) = subBytes s := by
  simp only [subBytes, sboxTab, wbaesSbox_eq]

theorem evalRounds_eq (key x : Block) (n : Nat) : evalRounds key x n = (aesRounds key x n, roundKey key n) := by
  induction n with
  | zero => rw [evalRounds, aesRounds, roundKey_zero]
  | succ n ih => rw [evalRounds, ih, aesRounds]; simp only [keyStep_eq, sub_eq]

theorem aesEval_eq (key x : Block) : aesEval key x = aes128 key x := by
  rw [aesEval, evalRounds_eq, aes128]
  simp only [keyStep_eq, sub_eq]

/- FIPS 197 appendix B. -/
example : aes128 #v[0x2b, 0x7e, 0x15, 0x16, 0x28, 0xae, 0xd2, 0xa6, 0xab, 0xf7, 0x15, 0x88, 0x09, 0xcf, 0x4f, 0x3c]
    #v[0x32, 0x43, 0xf6, 0xa8, 0x88, 0x5a, 0x30, 0x8d, 0x31, 0x31, 0x98, 0xa2, 0xe0, 0x37, 0x07, 0x34] =
    #v[0x39, 0x25, 0x84, 0x1d, 0x02, 0xdc, 0x09, 0xfb, 0xdc, 0x11, 0x85, 0x97, 0x19, 0x6a, 0x0b, 0x32] := by
  rw [← aesEval_eq]
  decide +kernel

end Verif
