import Verif.Model.CipherFail
import Verif.Props.GcmFileMore
import Verif.Props.GcmLong
import Verif.Props.GcmParallel
import Verif.Props.Cbc

/-! C131: the modes of operation with a block cipher that reports failure. -/
set_option autoImplicit false

namespace Verif.Props
open Verif Spec Model

/-- Call number `k` fails, whatever its input and the content of the output buffer. -/
def FailsAt (w : Faults) (k : Nat) : Prop := ∀ x o, w k x o ≠ none

/-- Call number `k` succeeds. -/
def WorksAt (w : Faults) (k : Nat) : Prop := ∀ x o, w k x o = none

theorem callF_works {w : Faults} {k : Nat} (h : WorksAt w k) (E : Block → Block) (x o : Block) : callF E w k x o = (true, E x) := by
  rw [callF, h x o]

theorem callF_fails {w : Faults} {k : Nat} (h : FailsAt w k) (E : Block → Block) (x o : Block) : (callF E w k x o).1 = false := by
  unfold callF
  cases hw : w k x o with
  | none => exact absurd hw (h x o)
  | some b => rfl

/-- The piece function of `gcmEncrypt` or `gcmDecrypt`. -/
def dirPiece (dec : Bool) : GcmCtx → Block × Block × List Byte → List Byte → Block × Block × List Byte :=
  if dec then decPiece else encPiece

/-- `gcmEncrypt` or `gcmDecrypt`. -/
def dirCrypt (dec : Bool) : GcmCtx → List Byte → List Byte → Nat → Option GcmResult :=
  if dec then gcmDecrypt else gcmEncrypt

theorem dirCrypt_eq_crypt (dec : Bool) : dirCrypt dec = gcmCrypt (dirPiece dec) := by cases dec <;> rfl

theorem dirPiece_ctx (dec : Bool) (c : GcmCtx) (l : BitVec 64) (y b : Block) :
    dirPiece dec { c with len := l, y := y, buf := b } = dirPiece dec c := by cases dec <;> rfl

theorem dir_fold_append (dec : Bool) (c : GcmCtx) (a b : List (List Byte)) (y buf : Block) :
    ((a ++ b).foldl (dirPiece dec c) (y, buf, [])) =
      (let s := a.foldl (dirPiece dec c) (y, buf, [])
       let t := b.foldl (dirPiece dec c) (s.1, s.2.1, [])
       (t.1, t.2.1, s.2.2 ++ t.2.2)) := by
  cases dec
  · exact enc_fold_append c a b y buf
  · exact dec_fold_append c a b y buf

theorem dir_fold_out (dec : Bool) (c : GcmCtx) (d : List Byte) (y buf : Block) :
    ((chunks d).foldl (dirPiece dec c) (y, buf, [])).2.2 = gctr c.block (inc32 (toBV y)) d := by
  cases dec
  · exact (fold_enc_out c _ _ _ _).1.trans (List.nil_append _)
  · exact (fold_enc_out c _ _ _ _).2.trans (List.nil_append _)

theorem dir_fold_y (dec : Bool) (c : GcmCtx) (d : List Byte) (y buf : Block) :
    toBV ((chunks d).foldl (dirPiece dec c) (y, buf, [])).1 = incN (chunks d).length (toBV y) := by
  cases dec
  · exact (fold_y c _ _ _ _).1.trans (foldl_inc _ _)
  · exact (congrArg toBV (fold_y c _ _ _ _).2).trans ((fold_y c _ _ _ _).1.trans (foldl_inc _ _))

theorem dirCrypt_eq (dec : Bool) (c : GcmCtx) (inp out : List Byte) (outlen : Nat)
    (hl : inp.length < 2 ^ 31) (ho : inp.length ≤ outlen) (hb : outlen ≤ out.length) :
    dirCrypt dec c inp out outlen = some
      { ret := 1,
        ctx := { c with
          len := c.len + BitVec.ofNat 64 inp.length,
          y := ((chunks inp).foldl (dirPiece dec c) (c.y, c.buf, [])).1,
          buf := ((chunks inp).foldl (dirPiece dec c) (c.y, c.buf, [])).2.1 },
        out := gctr c.block (inc32 (toBV c.y)) inp ++ out.drop inp.length } := by
  cases dec
  · exact gcmEncrypt_eq c inp out outlen hl ho hb
  · exact gcmDecrypt_eq c inp out outlen hl ho hb

theorem loopF_cons_ok (dec : Bool) (w : Faults) (n : Nat) (c : GcmCtx) (e : Block) (p : List Byte) (ps : List (List Byte))
    (h : WorksAt w n) :
    cryptLoopF dec w n c e (p :: ps) =
      (let t := dirPiece dec c (c.y, c.buf, []) p
       let s := cryptLoopF dec w (n + 1) { c with y := t.1, buf := t.2.1 } (c.block t.1) ps
       { s with out := t.2.2 ++ s.out }) := by
  rw [cryptLoopF]
  simp only [callF_works h, if_true]
  cases dec <;> rfl

theorem loopF_cons_fail (dec : Bool) (w : Faults) (n : Nat) (c : GcmCtx) (e : Block) (p : List Byte) (ps : List (List Byte))
    (h : FailsAt w n) :
    cryptLoopF dec w n c e (p :: ps) =
      { ok := false, next := n + 1, ctx := { c with y := incCtr c.y 4 (by decide) }, out := [] } := by
  rw [cryptLoopF]
  simp only [callF_fails h, Bool.false_eq_true, if_false]

/-- Pieces whose calls succeed are processed as by the sequential function. -/
theorem loopF_append (dec : Bool) (w : Faults) (qs ps : List (List Byte)) : ∀ (n : Nat) (c : GcmCtx) (e : Block),
    (∀ j, j < ps.length → WorksAt w (n + j)) →
    ∃ e', cryptLoopF dec w n c e (ps ++ qs) =
      (let t := ps.foldl (dirPiece dec c) (c.y, c.buf, [])
       let s := cryptLoopF dec w (n + ps.length) { c with y := t.1, buf := t.2.1 } e' qs
       { s with out := t.2.2 ++ s.out }) := by
  induction ps with
  | nil => intro n c e _; exact ⟨e, by simp⟩
  | cons p ps ih =>
    intro n c e h
    obtain ⟨e', he⟩ := ih (n + 1) { c with y := (dirPiece dec c (c.y, c.buf, []) p).1, buf := (dirPiece dec c (c.y, c.buf, []) p).2.1 }
      (c.block (dirPiece dec c (c.y, c.buf, []) p).1)
      (fun j hj => by
        have := h (j + 1) (by rw [List.length_cons]; omega)
        rwa [show n + 1 + j = n + (j + 1) by omega])
    refine ⟨e', ?_⟩
    have hf : (p :: ps).foldl (dirPiece dec c) (c.y, c.buf, []) =
        (let s := dirPiece dec c (c.y, c.buf, []) p
         let t := ps.foldl (dirPiece dec c) (s.1, s.2.1, [])
         (t.1, t.2.1, s.2.2 ++ t.2.2)) := dir_fold_append dec c [p] ps c.y c.buf
    rw [List.cons_append, loopF_cons_ok _ _ n _ _ _ _ (by exact h 0 (by simp)), hf]
    simp only [he]
    rw [show dirPiece dec { c with y := (dirPiece dec c (c.y, c.buf, []) p).1, buf := (dirPiece dec c (c.y, c.buf, []) p).2.1 } =
      dirPiece dec c from dirPiece_ctx dec c c.len _ _]
    rw [List.length_cons, show n + 1 + ps.length = n + (ps.length + 1) by omega, List.append_assoc]

theorem chunks_at_block {d : List Byte} {i : Nat} (h : 16 * i < d.length) :
    ∃ q qs, chunks d = chunks (d.take (16 * i)) ++ q :: qs ∧ (chunks (d.take (16 * i))).length = i := by
  have h1 : d.drop (16 * i) ≠ [] := by rw [← List.length_pos_iff, List.length_drop]; omega
  refine ⟨(d.drop (16 * i)).take 16, chunks ((d.drop (16 * i)).drop 16), ?_, ?_⟩
  · rw [← chunks_of_ne_nil h1]
    conv => lhs; rw [← List.take_append_drop (16 * i) d]
    exact chunks_append_aligned _ _ (by rw [List.length_take]; omega)
  · rw [chunks_count, List.length_take]; omega

/-- All calls succeed: the function of the other properties. -/
theorem cryptF_works (dec : Bool) (w : Faults) (n : Nat) (c : GcmCtx) (e : Block) (inp out : List Byte) (outlen : Nat)
    (hl : inp.length < 2 ^ 31) (ho : inp.length ≤ outlen) (hb : outlen ≤ out.length)
    (hw : ∀ j, j < (chunks inp).length → WorksAt w (n + j)) :
    gcmCryptF dec w n c e inp out outlen =
      (dirCrypt dec c inp out outlen).map fun r => (r, n + (chunks inp).length) := by
  rw [dirCrypt_eq dec c inp out outlen hl ho hb, gcmCryptF, if_neg (by omega)]
  simp only [intLen_of_lt hl, Int.toNat_natCast, List.take_length]
  obtain ⟨e', he⟩ := loopF_append dec w [] (chunks inp) n { c with len := c.len + BitVec.ofInt 64 inp.length } e hw
  rw [List.append_nil] at he
  rw [he]
  simp only [cryptLoopF, List.append_nil, Option.map_some]
  rw [show dirPiece dec { c with len := c.len + BitVec.ofInt 64 (inp.length : Int) } = dirPiece dec c from dirPiece_ctx dec c _ c.y c.buf]
  rw [dir_fold_out, length_gctr, if_pos (by omega)]
  rfl

/-- C131 (GCM encryption and decryption): the calls for the first `i` blocks succeed, the next one fails. The function returns 0; the
output holds the first `i` blocks; `ctx->len` has nevertheless been increased by the whole length, and the counter by `i + 1`. -/
theorem C131_crypt_fails (dec : Bool) (w : Faults) (n i : Nat) (c : GcmCtx) (e : Block) (inp out : List Byte) (outlen : Nat)
    (hl : inp.length < 2 ^ 31) (ho : inp.length ≤ outlen) (hb : outlen ≤ out.length) (hi : 16 * i < inp.length)
    (hw : ∀ j, j < i → WorksAt w (n + j)) (hf : FailsAt w (n + i)) :
    ∃ r, dirCrypt dec c (inp.take (16 * i)) out outlen = some r ∧
      r.out = gctr c.block (inc32 (toBV c.y)) (inp.take (16 * i)) ++ out.drop (16 * i) ∧
      toBV (incCtr r.ctx.y 4 (by decide)) = incN (i + 1) (toBV c.y) ∧
      gcmCryptF dec w n c e inp out outlen = some
        ({ ret := 0, out := r.out,
           ctx := { r.ctx with len := c.len + BitVec.ofNat 64 inp.length, y := incCtr r.ctx.y 4 (by decide) } }, n + i + 1) := by
  have hlt : (inp.take (16 * i)).length = 16 * i := by rw [List.length_take]; omega
  obtain ⟨q, qs, hq, hqn⟩ := chunks_at_block hi
  refine ⟨_, dirCrypt_eq dec c _ out outlen (by omega) (by omega) hb, ?_, ?_, ?_⟩
  · rw [hlt]
  · simp only []
    rw [incCtr_eq, dir_fold_y, hqn]; rfl
  · rw [gcmCryptF, if_neg (by omega)]
    simp only [intLen_of_lt hl, Int.toNat_natCast, List.take_length]
    obtain ⟨e', he⟩ := loopF_append dec w (q :: qs) (chunks (inp.take (16 * i))) n { c with len := c.len + BitVec.ofInt 64 inp.length } e
      (by rw [hqn]; exact hw)
    rw [hq, he, hqn]
    simp only [loopF_cons_fail _ _ _ _ _ _ _ hf, List.append_nil]
    rw [show dirPiece dec { c with len := c.len + BitVec.ofInt 64 (inp.length : Int) } = dirPiece dec c from dirPiece_ctx dec c _ c.y c.buf]
    rw [dir_fold_out, length_gctr, if_pos (by omega), hlt]
    rfl

/-- The case `dec = false`, `i = 1`, with a message of 20 bytes: the hypotheses can be met. -/
example : (∀ j, j < 1 → WorksAt (fun k _ b => if k = 1 then some b else none) (0 + j)) ∧
    FailsAt (fun k _ b => if k = 1 then some b else none) (0 + 1) ∧ 16 * 1 < (List.replicate 20 (0 : Byte)).length :=
  ⟨fun j hj x o => if_neg (by omega), fun x o => by simp, by decide⟩

/-- C131 (retry): the rest of the message is given to a second call, which succeeds. It is encrypted with the counters that
follow the one of the failed call, and the rest is counted twice in `ctx->len`. For an injective cipher, if at least a block is left, the
ciphertext is never the one of the message. -/
theorem C131_retry (dec : Bool) (w : Faults) (n i : Nat) (c : GcmCtx) (e e2 : Block) (inp out out2 : List Byte) (outlen outlen2 : Nat)
    (hl : inp.length < 2 ^ 31) (ho : inp.length ≤ outlen) (hb : outlen ≤ out.length) (hi : 16 * i < inp.length)
    (ho2 : inp.length - 16 * i ≤ outlen2) (hb2 : outlen2 ≤ out2.length)
    (hw : ∀ j, j < i → WorksAt w (n + j)) (hf : FailsAt w (n + i)) (hw2 : ∀ k, n + i < k → WorksAt w k) :
    ∃ r k r2 k2, gcmCryptF dec w n c e inp out outlen = some (r, k) ∧ r.ret = 0 ∧
      gcmCryptF dec w k r.ctx e2 (inp.drop (16 * i)) out2 outlen2 = some (r2, k2) ∧ r2.ret = 1 ∧
      r2.ctx.len = c.len + BitVec.ofNat 64 (inp.length + (inp.length - 16 * i)) ∧
      r.out.take (16 * i) ++ r2.out.take (inp.length - 16 * i) =
        gctr c.block (incN 1 (toBV c.y)) (inp.take (16 * i)) ++ gctr c.block (incN (i + 2) (toBV c.y)) (inp.drop (16 * i)) ∧
      (Function.Injective c.block → 16 * i + 16 ≤ inp.length →
        r.out.take (16 * i) ++ r2.out.take (inp.length - 16 * i) ≠ gctr c.block (incN 1 (toBV c.y)) inp) := by
  obtain ⟨r, h1, h2, h3, h4⟩ := C131_crypt_fails dec w n i c e inp out outlen hl ho hb hi hw hf
  have hlt : (inp.take (16 * i)).length = 16 * i := by rw [List.length_take]; omega
  have hld : (inp.drop (16 * i)).length = inp.length - 16 * i := List.length_drop
  rw [dirCrypt_eq dec c _ out outlen (by omega) (by omega) hb] at h1
  obtain rfl := Option.some.inj h1
  have h5 := cryptF_works dec w (n + i + 1) (e := e2) (inp := inp.drop (16 * i)) (out := out2) (outlen := outlen2) (by omega) (by omega) hb2
    (fun j _ => hw2 _ (by omega)) (c := { c with
      len := c.len + BitVec.ofNat 64 inp.length,
      y := incCtr ((chunks (inp.take (16 * i))).foldl (dirPiece dec c) (c.y, c.buf, [])).1 4 (by decide),
      buf := ((chunks (inp.take (16 * i))).foldl (dirPiece dec c) (c.y, c.buf, [])).2.1 })
  rw [dirCrypt_eq dec _ _ out2 outlen2 (by omega) (by omega) hb2, Option.map_some] at h5
  have hct : gctr c.block (inc32 (toBV c.y)) (inp.take (16 * i)) ++ gctr c.block (inc32 (incN (i + 1) (toBV c.y))) (inp.drop (16 * i)) =
      gctr c.block (incN 1 (toBV c.y)) (inp.take (16 * i)) ++ gctr c.block (incN (i + 2) (toBV c.y)) (inp.drop (16 * i)) := rfl
  refine ⟨_, _, _, _, h4, rfl, h5, rfl, ?_, ?_, ?_⟩
  · simp only [hld]
    rw [BitVec.add_assoc, ← BitVec.ofNat_add]
  · simp only [h3]
    rw [hlt, List.take_left' (by rw [length_gctr, hlt]), List.take_left' (by rw [length_gctr, hld])]
    rfl
  · intro hE hrest heq
    simp only [h3] at heq
    rw [hlt, List.take_left' (by rw [length_gctr, hlt]), List.take_left' (by rw [length_gctr, hld]), hct] at heq
    conv at heq => rhs; rw [← List.take_append_drop (16 * i) inp, gctr_append_aligned _ _ _ _ (by omega)]
    have h6 := List.append_cancel_left heq
    have hne : inp.drop (16 * i) ≠ [] := by rw [← List.length_pos_iff, hld]; omega
    have hcn : (chunks (inp.take (16 * i))).length = i := by rw [chunks_count, hlt]; omega
    rw [hcn, gctr_step _ _ _ hne, gctr_step _ _ _ hne] at h6
    have h16 : ((inp.drop (16 * i)).take 16).length = 16 := by rw [List.length_take, hld]; omega
    have h7 := (List.append_inj h6 (by simp)).1
    have h8 : c.block (ofBV (incN (i + 2) (toBV c.y))) = c.block (ofBV (incN i (incN 1 (toBV c.y)))) := by
      apply Vector.toList_inj.mp
      apply List.ext_getElem (by simp)
      intro k hk1 hk2
      have h9 := congrArg (fun l => l[k]?) h7
      simp only [List.getElem?_zipWith] at h9
      have hk : k < 16 := by simpa using hk1
      rw [List.getElem?_eq_getElem (show k < ((inp.drop (16 * i)).take 16).length by omega), List.getElem?_eq_getElem hk1,
        List.getElem?_eq_getElem hk2] at h9
      simp only [Option.some.injEq] at h9
      exact (BitVec.xor_right_inj _).mp h9
    have h9 := congrArg toBV (hE h8)
    rw [toBV_ofBV, toBV_ofBV, ← incN_add, incN_eq_iff] at h9
    omega

end Verif.Props
