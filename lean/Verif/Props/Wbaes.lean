import Verif.Lemmas.Wbaes

/-! C41: white-box AES against FIPS 197. -/
set_option autoImplicit false

namespace Verif.Props
open Verif Spec Model

theorem typeIa_dec (E : WbaesEnc) (hE : EncOk E) (ek : Nat → Byte) (last : Fin 16 → Byte → Byte) (m : Fin 16) (x : Byte) :
    E.dec 0 m ((E.tables ek last).typeIa m x) = x := by
  rw [WbaesEnc.dec, dif_neg (by omega), WbaesEnc.decIn]
  simp only [WbaesEnc.tables, hiNib_join, loNib_join, (hE.inII _ _).1, join_nibs, (hE.exIn _).1]

/-- The tables for any `last` encode AES-128. -/
theorem wbaes_core (r : WbaesRnd) (key : Block) (last : Fin 16 → Byte → Byte) (x : Block) (m : Fin 16) :
    let t := r.enc.tables (shiftKeys (expandKey r.junkKey key)) last
    (auxWbaesEncrypt t (Vector.ofFn fun i => t.typeIa i x[i]))[m] =
      last m (matMulNum (r.enc.exOut m).mat (aes128 key x)[m]) := by
  intro t
  apply aux_spec r.enc (enc_ok r)
  intro m
  rw [Fin.getElem_fin, Vector.getElem_ofFn]
  exact typeIa_dec r.enc (enc_ok r) _ _ m _

/-- C41: whatever the random encodings and the previous content of the local arrays, encryption with generated tables is
AES-128 under the given key. -/
theorem C41_wbaes_is_aes (r : WbaesRnd) (ro : Fin 16 → Fin 2 → Nat → BitVec 32) (key x : Block) :
    wbaesEncrypt (wbaesGenTable r ro key) x = aes128 key x := by
  apply Vector.ext
  intro m hm
  rw [wbaesEncrypt, Vector.getElem_ofFn]
  have h := wbaes_core r key (outNibs fun j k => genNib (ro j k) r.junkPerm) x ⟨m, hm⟩
  simp only [Fin.getElem_fin] at h
  simp only [wbaesGenTable, Fin.getElem_fin]
  rw [h]
  simp only [outNibs, hiNib_join, loNib_join, (genNib_ok _ _).1, join_nibs]
  exact ((enc_ok r).exOut _).1 _

/-! FIPS 197 values: S-box entry, MixColumns column, first expanded word of the key in appendix A.1. -/
example : aesSbox 0x53 = 0xed := by decide +kernel
example : mixColumns #v[0xdb, 0x13, 0x53, 0x45, 0xf2, 0x0a, 0x22, 0x5c, 1, 1, 1, 1, 0xc6, 0xc6, 0xc6, 0xc6] =
    #v[0x8e, 0x4d, 0xa1, 0xbc, 0x9f, 0xdc, 0x58, 0x9d, 1, 1, 1, 1, 0xc6, 0xc6, 0xc6, 0xc6] := by decide +kernel
example : aesWord #v[0x2b, 0x7e, 0x15, 0x16, 0x28, 0xae, 0xd2, 0xa6, 0xab, 0xf7, 0x15, 0x88, 0x09, 0xcf, 0x4f, 0x3c] 4 =
    #v[0xa0, 0xfa, 0xfe, 0x17] := by
  rw [aesWord_high _ _ (by decide), aesWord_low _ _ (by decide), aesWord_low _ _ (by decide)]
  decide +kernel

end Verif.Props
