import Verif.Lemmas.Endian
import Verif.Props.WbGcm

/-! C119: white-box AES and the white-box GCM modes on a big-endian machine. -/
set_option autoImplicit false
set_option linter.unusedSimpArgs false

namespace Verif.Props
open Verif Spec Model

theorem flip_at4 (s : Block) (j t : Fin 4) : (flipColumns s)[at4 j t] = s[at4 j (3 - t)] := by
  rw [flipColumns, Fin.getElem_fin, Vector.getElem_ofFn]
  have h4 : ∀ t : Fin 4, t = 0 ∨ t = 1 ∨ t = 2 ∨ t = 3 := by decide
  rcases h4 j with rfl | rfl | rfl | rfl <;> rcases h4 t with rfl | rfl | rfl | rfl <;> rfl

/-- The two halves of a round on column `j`: the column comes out upside down. -/
theorem big_column (E : WbaesEnc) (hE : EncOk E) (ek : Nat → Byte) (last : Fin 16 → Byte → Byte) (i : Fin 9) (j : Fin 4)
    (s : Fin 4 → Byte) (y : Block)
    (hy : ∀ k : Fin 4, WBAES_SBOX[(E.dec i.1 shiftTab[at4 j k] (s k) ^^^ ek (16 * i.1 + (at4 j k).1)).toFin] = y[at4 j k]) (t : Fin 4) :
    E.decMid i (at4 j t)
      (lookCombine (fun k => (E.tablesOn .big ek last).typeIII i (at4 j k)) ((E.tablesOn .big ek last).typeIVIII i j)
        (lookCombine (fun k => (E.tablesOn .big ek last).typeII i (at4 j k)) ((E.tablesOn .big ek last).typeIVII i j) s) t) =
      (flipColumns (mixColumns y))[at4 j t] := by
  have hII := lookCombine_spec (fun k => (E.tablesOn .big ek last).typeII i (at4 j k)) ((E.tablesOn .big ek last).typeIVII i j) s
    (fun k => E.outII i (at4 j k)) (fun k => E.outIVII1 i (at2 j k)) (E.outIVII2 i j)
    (fun k => matMulNum (E.MB i j).mat (tyi k y[at4 j k]))
    (fun _ _ => hE.outII _ _ _) (fun _ _ => hE.outIVII1 _ _ _)
    (by intro k; simp only [WbaesEnc.tablesOn, WbaesEnc.tables, hy, colOf_at4, rowOf_at4])
    (fun _ _ _ => rfl) (fun _ _ _ => rfl) (fun _ _ _ => rfl)
  rw [← matMulNum_xor, ← matMulNum_xor, ← matMulNum_xor] at hII
  generalize hW : matMulNum (E.MB i j).mat (tyi 0 y[at4 j 0] ^^^ tyi 1 y[at4 j 1] ^^^ tyi 2 y[at4 j 2] ^^^ tyi 3 y[at4 j 3]) = W at hII
  generalize lookCombine (fun k => (E.tablesOn .big ek last).typeII i (at4 j k)) ((E.tablesOn .big ek last).typeIVII i j) s = u at hII
  have hIII := lookCombine_spec (fun k => (E.tablesOn .big ek last).typeIII i (at4 j k)) ((E.tablesOn .big ek last).typeIVIII i j) u
    (fun k => E.outIII i (at4 j k)) (fun k => E.outIVIII1 i (at2 j k)) (E.outIVIII2 i j)
    (fun k => matMulNum (E.outLOn .big i j) (matMulNum (E.MB i j).inv ((wbyte W k).zeroExtend 32 <<< (24 - 8 * k.1))))
    (fun _ _ => hE.outIII _ _ _) (fun _ _ => hE.outIVIII1 _ _ _)
    (by
      intro k
      simp only [WbaesEnc.tablesOn, hII, colOf_at4, rowOf_at4, hiNib_join, loNib_join, (hE.outIVII2 _ _ _).1, join_nib_byte])
    (fun _ _ _ => rfl) (fun _ _ _ => rfl) (fun _ _ _ => rfl) t
  rw [← matMulNum_xor, ← matMulNum_xor, ← matMulNum_xor, ← matMulNum_xor, ← matMulNum_xor, ← matMulNum_xor, wbyte_sum, ← hW,
    (hE.MB i j).1] at hIII
  rw [hIII, WbaesEnc.decMid, hiNib_join, loNib_join, colOf_at4, rowOf_at4, (hE.outIVIII2 _ _ _).1, (hE.outIVIII2 _ _ _).1, join_nib_byte,
    WbaesEnc.outLOn, comBig_wbyte (fun k => (E.L i (at4 j k)).mat), (hE.L _ _).1, tyi_mix, flip_at4]

/-- One round on states whose bytes decode to `X`. -/
theorem big_round (E : WbaesEnc) (hE : EncOk E) (junk : Nat → Byte) (key : Block) (last : Fin 16 → Byte → Byte) (i : Fin 9)
    (s X : Block) (h : ∀ m : Fin 16, E.dec i.1 m s[m] = X[m]) (m : Fin 16) :
    E.dec (i.1 + 1) m (wbaesRound (E.tablesOn .big (shiftKeys (expandKey junk key)) last) s i)[m] =
      (flipColumns (mixColumns (aesShiftRows (subBytes (X ^^^ roundKey key i.1)))))[m] := by
  rw [WbaesEnc.dec, dif_pos ⟨by omega, by omega⟩]
  obtain ⟨j, t, rfl⟩ : ∃ j t, m = at4 j t := ⟨_, _, (at4_cr m).symm⟩
  have hsub : ∀ a : Fin 16, WBAES_SBOX[(E.dec i.1 shiftTab[a] (wbShiftRows s)[a] ^^^
      shiftKeys (expandKey junk key) (16 * i.1 + a.1)).toFin] = (aesShiftRows (subBytes (X ^^^ roundKey key i.1)))[a] := by
    intro a
    rw [wbaesSbox_eq, shiftKeys_spec _ _ _ (by omega), aesShiftRows_get, wbShiftRows]
    simp only [Fin.getElem_fin, Vector.getElem_ofFn, subBytes]
    have := h shiftTab[a]
    simp only [Fin.getElem_fin] at this
    rw [this, Vec.getElem_xor]
  have hc := big_column E hE (shiftKeys (expandKey junk key)) last i j (fun k => (wbShiftRows s)[at4 j k])
    (aesShiftRows (subBytes (X ^^^ roundKey key i.1))) (fun k => hsub _) t
  rw [← hc, wbaesRound, Fin.getElem_fin, Vector.getElem_ofFn]
  simp only [Nat.add_sub_cancel, Fin.eta, colOf_at4, rowOf_at4]

theorem big_rounds_aes (E : WbaesEnc) (hE : EncOk E) (junk : Nat → Byte) (key : Block) (last : Fin 16 → Byte → Byte)
    (s x : Block) (h : ∀ m : Fin 16, E.dec 0 m s[m] = x[m]) (n : Nat) (hn : n ≤ 9) (m : Fin 16) :
    E.dec n m (((List.finRange 9).take n).foldl (wbaesRound (E.tablesOn .big (shiftKeys (expandKey junk key)) last)) s)[m] ^^^
      (roundKey key n)[m] = (aesRoundsFlip key x n)[m] := by
  induction n generalizing m with
  | zero => rw [List.take_zero, List.foldl_nil, h, aesRoundsFlip]; exact (Vec.getElem_xor _ _ _ _).symm
  | succ n ih =>
    have hl : (List.finRange 9).take (n + 1) = (List.finRange 9).take n ++ [⟨n, by omega⟩] := by
      rw [List.take_add_one, List.getElem?_eq_getElem (by simpa using by omega)]
      simp
    rw [hl, List.foldl_append, List.foldl_cons, List.foldl_nil]
    replace ih := ih (by omega)
    generalize List.foldl _ s ((List.finRange 9).take n) = u at ih ⊢
    have := big_round E hE junk key last ⟨n, by omega⟩ u (Vector.ofFn fun m => E.dec n m u[m]) (by intro m; simp) m
    rw [this, aesRoundsFlip]
    have hx : (Vector.ofFn fun m => E.dec n m u[m]) ^^^ roundKey key n = aesRoundsFlip key x n := by
      apply Vector.ext
      intro k hk
      rw [Vec.getElem_xor]
      have := ih ⟨k, hk⟩
      simpa using this
    simp only [hx]
    exact (Vec.getElem_xor _ _ _ _).symm

theorem big_aux (E : WbaesEnc) (hE : EncOk E) (junk : Nat → Byte) (key : Block) (last : Fin 16 → Byte → Byte)
    (s x : Block) (h : ∀ m : Fin 16, E.dec 0 m s[m] = x[m]) (m : Fin 16) :
    (auxWbaesEncrypt (E.tablesOn .big (shiftKeys (expandKey junk key)) last) s)[m] =
      last m (matMulNum (E.exOut m).mat (aes128Flip key x)[m]) := by
  have hr := big_rounds_aes E hE junk key last s x h 9 (by omega)
  rw [List.take_of_length_le (by simp)] at hr
  rw [auxWbaesEncrypt, Fin.getElem_fin, Vector.getElem_ofFn]
  generalize List.foldl _ s (List.finRange 9) = u at hr ⊢
  have ht : ∀ b : Byte, (b.zeroExtend 32 : BitVec 32).truncate 8 = b := by
    intro b; ext i hi; simp
  simp only [WbaesEnc.tablesOn, WbaesEnc.tables, ht]
  rw [wbaesSbox_eq, show 16 * 10 + m.1 = 160 + m.1 from rfl, shiftKeys_last, shiftKeys_spec _ _ 9 (by omega)]
  have := hr shiftTab[m]
  simp only [wbShiftRows, Fin.getElem_fin, Vector.getElem_ofFn] at this ⊢
  rw [this, aes128Flip, Vec.getElem_xor]
  have h2 := aesShiftRows_get (subBytes (aesRoundsFlip key x 9)) m
  simp only [Fin.getElem_fin] at h2
  rw [h2, subBytes, Vector.getElem_ofFn]
  rfl

theorem tablesOn_typeIa (o : ByteOrder) (E : WbaesEnc) (ek : Nat → Byte) (last : Fin 16 → Byte → Byte) (m : Fin 16) (x : Byte) :
    (E.tablesOn o ek last).typeIa m x = (E.tables ek last).typeIa m x := by
  simp only [WbaesEnc.tablesOn]

theorem big_core (r : WbaesRnd) (key : Block) (last : Fin 16 → Byte → Byte) (x : Block) (m : Fin 16) :
    let t := r.enc.tablesOn .big (shiftKeys (expandKey r.junkKey key)) last
    (auxWbaesEncrypt t (Vector.ofFn fun i => t.typeIa i x[i]))[m] =
      last m (matMulNum (r.enc.exOut m).mat (aes128Flip key x)[m]) := by
  intro t
  apply big_aux r.enc (enc_ok r)
  intro m
  rw [Fin.getElem_fin, Vector.getElem_ofFn, tablesOn_typeIa]
  exact typeIa_dec r.enc (enc_ok r) _ _ m _

/-- C119: white-box AES on a big-endian machine computes, whatever the random encodings, AES in which the columns are turned upside
down after every MixColumns. -/
theorem C119_wbaes (r : WbaesRnd) (ro : Fin 16 → Fin 2 → Nat → BitVec 32) (key x : Block) :
    wbaesEncrypt (wbaesGenTableOn .big r ro key) x = aes128Flip key x := by
  apply Vector.ext
  intro m hm
  rw [wbaesEncrypt, Vector.getElem_ofFn]
  have h := big_core r key (outNibs fun j k => genNib (ro j k) r.junkPerm) x ⟨m, hm⟩
  simp only [Fin.getElem_fin] at h
  simp only [wbaesGenTableOn, wbaesGenTable, Fin.getElem_fin]
  rw [h]
  simp only [outNibs, hiNib_join, loNib_join, (genNib_ok _ _).1, join_nibs]
  exact ((enc_ok r).exOut _).1 _

/-! ### not AES -/

/-- State and round key after `n` full rounds, for evaluation. -/
def evalFlip (key x : Block) : Nat → Block × Block
  | 0 => (x ^^^ key, key)
  | n + 1 =>
    let s := evalFlip key x n
    let k := keyStep s.2 n
    (flipColumns (mixColumns (aesShiftRows (Vector.ofFn fun i => Verif.sboxTab s.1[i]))) ^^^ k, k)

def aesEvalFlip (key x : Block) : Block :=
  let s := evalFlip key x 9
  aesShiftRows (Vector.ofFn fun i => Verif.sboxTab s.1[i]) ^^^ keyStep s.2 9

theorem evalFlip_eq (key x : Block) (n : Nat) : evalFlip key x n = (aesRoundsFlip key x n, roundKey key n) := by
  induction n with
  | zero => rw [evalFlip, aesRoundsFlip, roundKey_zero]
  | succ n ih => rw [evalFlip, ih, aesRoundsFlip]; simp only [keyStep_eq, sub_eq]

theorem aesEvalFlip_eq (key x : Block) : aesEvalFlip key x = aes128Flip key x := by
  rw [aesEvalFlip, evalFlip_eq, aes128Flip]
  simp only [keyStep_eq, sub_eq]

/-- C119: this is not AES: the zero block under the zero key, for every outcome of the random choices. -/
theorem C119_wbaes_not_aes (r : WbaesRnd) (ro : Fin 16 → Fin 2 → Nat → BitVec 32) :
    wbaesEncrypt (wbaesGenTableOn .big r ro zeroBlock) zeroBlock ≠ aes128 zeroBlock zeroBlock := by
  rw [C119_wbaes, ← aesEvalFlip_eq, ← aesEval_eq]
  decide +kernel

/-! ### white-box GCM -/

theorem big_ee_block (r : WbaesRnd) (r1 r2 : Fin 16 → Nat → BitVec 32) (junk : Vector (Fin 256) 256) (key x : Block) :
    wbEeBlock (wbEeGenTableOn .big r r1 r2 junk key) x = Vector.ofFn fun i => eeEnc r r1 junk i (aes128Flip key x)[i] := by
  apply Vector.ext
  intro m hm
  have h := big_core r key (fun j y => (genByte (r1 j) junk).fwd y) x ⟨m, hm⟩
  simp only [Fin.getElem_fin] at h
  simp only [wbEeBlock, wbEeGenTableOn, Vector.getElem_ofFn, Fin.getElem_fin]
  rw [h]; rfl

theorem big_ee_boxed (r : WbaesRnd) (r1 r2 : Fin 16 → Nat → BitVec 32) (junk : Vector (Fin 256) 256) (key : Block) :
    Boxed (wbEeInit (wbEeGenTableOn .big r r1 r2 junk key)) (aes128Flip key) (eeEnc r r1 junk) xorComb := by
  have hbox : ∀ i a e, wbEeBox (wbEeGenTableOn .big r r1 r2 junk key) i a (eeEnc r r1 junk i e) = a ^^^ e := by
    intro i a e
    rw [← ee_box r r1 r2 junk key i a e]
    simp only [wbEeBox, wbEeGenTableOn]
  refine ⟨big_ee_block r r1 r2 junk key, hbox, ?_⟩
  have : (Vector.ofFn fun i : Fin 16 => wbEeBox (wbEeGenTableOn .big r r1 r2 junk key) i 0
      (wbEeBlock (wbEeGenTableOn .big r r1 r2 junk key) zeroBlock)[i]) = aes128Flip key zeroBlock := by
    apply Vector.ext
    intro m hm
    rw [big_ee_block]
    simp only [Vector.getElem_ofFn, Fin.getElem_fin, hbox]
    simp
  exact init_tab _ _ _ _ this

/-- C119: the ee mode on a big-endian machine is GCM with the other cipher, so ciphertexts and tags are the same for all contexts of a
key made on such machines. -/
theorem C119_ee (r : WbaesRnd) (r1 r2 : Fin 16 → Nat → BitVec 32) (junk : Vector (Fin 256) 256) (key : Block)
    (iv aad p out : List Byte) (outlen n : Nat) (hn : n ≤ 16) (hiv : iv.length < 2 ^ 29) (ha : aad.length < 2 ^ 61)
    (hp : p.length < 2 ^ 31) (ho : p.length ≤ outlen) (hb : outlen ≤ out.length) :
    ∃ tag, wbSeal (wbEeInit (wbEeGenTableOn .big r r1 r2 junk key)) iv aad p out outlen n =
        some (1, gcmCipher (aes128Flip key) iv p ++ out.drop p.length, tag) ∧
      (¬(p = [] ∧ aad = []) → tag = (gcmTag (aes128Flip key) iv aad (gcmCipher (aes128Flip key) iv p)).toList.take n) := by
  have hs := wbseal_eq (big_ee_boxed r r1 r2 junk key) iv aad p out outlen n hn hiv ha hp ho hb
  rw [stream_xor, show gctr (aes128Flip key) (inc32 (j0 (aes128Flip key) iv)) p = gcmCipher (aes128Flip key) iv p from rfl] at hs
  refine ⟨_, hs, ?_⟩
  intro hne
  rw [wbTag_xor]
  rintro ⟨h1, h2⟩
  refine hne ⟨?_, h2⟩
  have := congrArg List.length h1
  rw [gcmCipher, length_gctr] at this
  exact List.length_eq_zero_iff.mp this

/-- C119: what an ee context made on a big-endian machine decrypts. -/
theorem C119_ee_open (rr : WbaesRnd) (rr1 rr2 : Fin 16 → Nat → BitVec 32) (junk : Vector (Fin 256) 256)
    (key : Block) (iv aad p out2 : List Byte) (outlen2 n : Nat) (hn : n ≤ 16) (hiv : iv.length < 2 ^ 29)
    (ha : aad.length < 2 ^ 61) (hp : p.length < 2 ^ 31) (ho2 : p.length ≤ outlen2) (hb2 : outlen2 ≤ out2.length) :
    ∃ tag, wbOpen (wbEeInit (wbEeGenTableOn .big rr rr1 rr2 junk key)) iv aad (gcmCipher (aes128Flip key) iv p) out2 outlen2 n =
        some (1, p ++ out2.drop p.length, tag) ∧
      (¬(p = [] ∧ aad = []) → tag = (gcmTag (aes128Flip key) iv aad (gcmCipher (aes128Flip key) iv p)).toList.take n) := by
  have hop := wbopen_eq (big_ee_boxed rr rr1 rr2 junk key) xorComb (fun i a e => by simp [xorComb, BitVec.xor_assoc]) iv aad p out2
      outlen2 n hn hiv ha hp ho2 hb2
  rw [stream_xor, show gctr (aes128Flip key) (inc32 (j0 (aes128Flip key) iv)) p = gcmCipher (aes128Flip key) iv p from rfl] at hop
  refine ⟨_, hop, ?_⟩
  intro hne
  rw [wbTag_xor]
  rintro ⟨h1, h2⟩
  refine hne ⟨?_, h2⟩
  have := congrArg List.length h1
  rw [gcmCipher, length_gctr] at this
  exact List.length_eq_zero_iff.mp this

theorem big_mask_aes (rk : WbaesRnd) (ro : Fin 16 → Fin 2 → Nat → BitVec 32) (key x : Block) (i : Fin 16) :
    (wbaesGenTableOn .big rk ro key).typeIb i
      ((auxWbaesEncrypt (wbaesGenTableOn .big rk ro key).tab
        (Vector.ofFn fun i => (wbaesGenTableOn .big rk ro key).tab.typeIa i x[i]))[i]) =
      (aes128Flip key x)[i] := by
  rw [← C119_wbaes rk ro key x, wbaesEncrypt]
  simp only [Fin.getElem_fin, Vector.getElem_ofFn]

theorem big_mask_enc_boxed (rk : WbaesRnd) (ro : Fin 16 → Fin 2 → Nat → BitVec 32) (r : WbMaskRnd) (key : Block) :
    Boxed (wbMaskInit (wbMaskEncKey (wbaesGenTableOn .big rk ro key) r)) (aes128Flip key)
      (maskEncEnc (wbaesGenTableOn .big rk ro key) r) (fun i a e => maskL r i (a ^^^ e)) := by
  have hb : ∀ y, wbMaskBlock (wbMaskEncKey (wbaesGenTableOn .big rk ro key) r) y =
      Vector.ofFn fun i => maskEncEnc (wbaesGenTableOn .big rk ro key) r i (aes128Flip key y)[i] := by
    intro y
    exact maskEncBlock_eq (wbaesGenTableOn .big rk ro key) r y (fun i => (aes128Flip key y)[i]) (big_mask_aes rk ro key y)
  refine ⟨hb, mask_enc_box _ r, ?_⟩
  have hh : (Vector.ofFn fun i : Fin 16 => matMulNum ((wbMaskEncKey (wbaesGenTableOn .big rk ro key) r).L1 i)
      (wbMaskBox (wbMaskEncKey (wbaesGenTableOn .big rk ro key) r) i 0
        (wbMaskBlock (wbMaskEncKey (wbaesGenTableOn .big rk ro key) r) zeroBlock)[i])) = aes128Flip key zeroBlock := by
    apply Vector.ext
    intro m hm
    rw [hb]
    simp only [Vector.getElem_ofFn, Fin.getElem_fin, mask_enc_box]
    rw [zero_xor8]
    exact maskL_inv r _ _
  exact init_tab _ _ _ _ hh

theorem big_mask_dec_boxed (rk : WbaesRnd) (ro : Fin 16 → Fin 2 → Nat → BitVec 32) (r : WbMaskRnd) (key : Block) :
    Boxed (wbMaskInit (wbMaskDecKey (wbaesGenTableOn .big rk ro key) r)) (aes128Flip key)
      (maskDecEnc (wbaesGenTableOn .big rk ro key) r) (fun i a e => maskLinv r i a ^^^ e) := by
  have hb : ∀ y, wbMaskBlock (wbMaskDecKey (wbaesGenTableOn .big rk ro key) r) y =
      Vector.ofFn fun i => maskDecEnc (wbaesGenTableOn .big rk ro key) r i (aes128Flip key y)[i] := by
    intro y
    exact maskDecBlock_eq (wbaesGenTableOn .big rk ro key) r y (fun i => (aes128Flip key y)[i]) (big_mask_aes rk ro key y)
  refine ⟨hb, mask_dec_box _ r, ?_⟩
  have hh : (Vector.ofFn fun i : Fin 16 =>
      (wbMaskBox (wbMaskDecKey (wbaesGenTableOn .big rk ro key) r) i (matMulNum ((wbMaskDecKey (wbaesGenTableOn .big rk ro key) r).L1 i) 0)
        (wbMaskBlock (wbMaskDecKey (wbaesGenTableOn .big rk ro key) r) zeroBlock)[i])) = aes128Flip key zeroBlock := by
    apply Vector.ext
    intro m hm
    rw [hb]
    simp only [Vector.getElem_ofFn, Fin.getElem_fin, mask_dec_box, maskLinv, matMulNum_zero, zero_xor8]
  exact init_tab _ _ _ _ hh

/-- C119: the masked mode on a big-endian machine: the ciphertext is that of GCM with the other cipher under the layer `L1`, and the
decryption context generated with it returns the plaintext. -/
theorem C119_mask (re rd : WbaesRnd) (roe rod : Fin 16 → Fin 2 → Nat → BitVec 32) (r : WbMaskRnd) (key : Block)
    (iv aad p out out2 : List Byte) (outlen outlen2 n n2 : Nat) (hn : n ≤ 16) (hn2 : n2 ≤ 16) (hiv : iv.length < 2 ^ 29)
    (ha : aad.length < 2 ^ 61) (hp : p.length < 2 ^ 31) (ho : p.length ≤ outlen) (hb : outlen ≤ out.length)
    (ho2 : p.length ≤ outlen2) (hb2 : outlen2 ≤ out2.length) :
    ∃ o tag tag', wbSeal (wbMaskInit (wbMaskGenTableOn .big re rd roe rod r key).1) iv aad p out outlen n = some (1, o, tag) ∧
      o = layer (maskL r) (gcmCipher (aes128Flip key) iv p) ++ out.drop p.length ∧
      wbOpen (wbMaskInit (wbMaskGenTableOn .big re rd roe rod r key).2) iv aad (o.take p.length) out2 outlen2 n2 =
        some (1, p ++ out2.drop p.length, tag') := by
  have hop := wbopen_eq (big_mask_dec_boxed rd rod r key) (fun i a e => maskL r i (a ^^^ e))
    (fun i a e => by rw [maskL_inv, BitVec.xor_assoc, BitVec.xor_self, BitVec.xor_zero]) iv aad p out2 outlen2 n2 hn2 hiv ha hp ho2 hb2
  have ht : (stream (fun i a e => maskL r i (a ^^^ e)) (aes128Flip key) (inc32 (j0 (aes128Flip key) iv)) p ++ out.drop p.length).take
      p.length = stream (fun i a e => maskL r i (a ^^^ e)) (aes128Flip key) (inc32 (j0 (aes128Flip key) iv)) p :=
    List.take_left' (length_stream _ _ _ _)
  rw [← ht] at hop
  refine ⟨_, _, _, wbseal_eq (big_mask_enc_boxed re roe r key) iv aad p out outlen n hn hiv ha hp ho hb, ?_, hop⟩
  rw [stream_layer, gcmCipher]

/-- C119: one byte under the zero key with the usual 12-byte zero IV: the ciphertext is not that of AES-GCM, whatever the random
choices. -/
theorem C119_ee_not_gcm (r : WbaesRnd) (r1 r2 : Fin 16 → Nat → BitVec 32) (junk : Vector (Fin 256) 256) :
    wbSeal (wbEeInit (wbEeGenTableOn .big r r1 r2 junk zeroBlock)) (List.replicate 12 0) [] [0] [0] 1 0 ≠
      wbSeal (wbEeInit (wbEeGenTable r r1 r2 junk zeroBlock)) (List.replicate 12 0) [] [0] [0] 1 0 := by
  obtain ⟨t, h, -⟩ := C119_ee r r1 r2 junk zeroBlock (List.replicate 12 0) [] [0] [0] 1 0 (by decide) (by decide) (by decide)
    (by decide) (by decide) (by decide)
  obtain ⟨t', h', -⟩ := C42_ee_is_gcm r r1 r2 junk zeroBlock (List.replicate 12 0) [] [0] [0] 1 0 (by decide) (by decide) (by decide)
    (by decide) (by decide) (by decide)
  rw [h, h']
  intro he
  injection he with he
  have he := (Prod.mk.inj (Prod.mk.inj he).2).1
  have hf : aes128Flip zeroBlock = aesEvalFlip zeroBlock := by funext x; rw [aesEvalFlip_eq]
  have ha : aes128 zeroBlock = aesEval zeroBlock := by funext x; rw [aesEval_eq]
  rw [hf, ha] at he
  revert he
  decide +kernel

end Verif.Props
