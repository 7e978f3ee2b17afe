import Verif.Lemmas.Endian
import Verif.Props.WbExtract
import Verif.Props.SeWbsm4

/-! C119: the white-box SM4 ciphers on a big-endian machine. -/
set_option autoImplicit false
set_option linter.unusedSimpArgs false

namespace Verif.Props
open Verif Spec Model

/-! ### what does not change -/

theorem halves_xor {m : Nat} (o : ByteOrder) (n : Nat) (x : BitVec m) :
    o.lowAddr n x ^^^ o.highAddr n x = x.truncate n ^^^ (x >>> n).truncate n := by
  cases o
  · rfl
  · exact BitVec.xor_comm _ _

theorem randV32_little (rnd : Nat → BitVec 32) (pos : Nat) : randV32On .little rnd pos = (randV 32 rnd pos).1 := by
  simp only [randV32On, ByteOrder.word16, randV, show ¬ 32 ≤ 16 by decide, if_false, Nat.reduceDiv, rnd16, Nat.add_zero]
  ext i hi
  have h : i < 16 ∨ 16 ≤ i := by omega
  rcases h with h | h <;> simp [h, BitVec.getElem_append] <;> grind

theorem pair32_little (rnd : Nat → BitVec 32) (pos : Nat) :
    genaffinepair32On .little rnd pos = ((genaffinepair 32 rnd pos).1, (genaffinepair 32 rnd pos).2.1) := by
  simp only [genaffinepair32On, genaffinepair, randV32_little]

theorem P_little (r : Wbsm4Rnd) : r.POn .little = r.P ∧ r.PinvOn .little = r.Pinv ∧ r.QOn .little = r.Q ∧ r.QinvOn .little = r.Qinv := by
  refine ⟨?_, ?_, ?_, ?_⟩ <;> funext i
  · show (genaffinepair32On .little (r.p i) 0).1 = _
    rw [pair32_little]; rfl
  · show (genaffinepair32On .little (r.p i) 0).2 = _
    rw [pair32_little]; rfl
  · show (genaffinepair32On .little (r.q i) 0).1 = _
    rw [pair32_little]; rfl
  · show (genaffinepair32On .little (r.q i) 0).2 = _
    rw [pair32_little]; rfl

theorem realRound_little (r : Wbsm4Rnd) (rk : Sm4Ctx) (i : Nat) (p : Fin 32) : realRoundOn .little r rk i p = realRound r rk i p := by
  obtain ⟨h1, h2, h3, h4⟩ := P_little r
  simp only [realRoundOn, realRound, Wbsm4Rnd.MOn, Wbsm4Rnd.COn, Wbsm4Rnd.DOn, h1, h2, h3, h4]
  rfl

theorem gen_all (r : Wbsm4Rnd) (rk : Sm4Ctx) (junk : Nat → WbRound) (m p : Nat) (h : p + m = 32) :
    genRounds r rk junk (List.replicate m 0) p p false =
      some (((List.finRange 32).drop p).map fun i => realRound r rk i.1 i) := by
  induction m generalizing p with
  | zero =>
    rw [List.drop_eq_nil_of_le (by simp; omega)]
    rfl
  | succ m ih =>
    have hp : p < 32 := by omega
    rw [List.replicate_succ, gen_zero r rk junk _ p p false (by simp) p (by simp) hp, ih (p + 1) (by omega)]
    have hd : (List.finRange 32).drop p = ⟨p, hp⟩ :: (List.finRange 32).drop (p + 1) := by
      rw [List.drop_eq_getElem_cons (by simpa using hp)]
      simp
    rw [hd]
    rfl

theorem wbsm4_little (r : Wbsm4Rnd) (junk : Nat → WbRound) (mode : EncMode) (key : List Byte) :
    wbsm4GenTable r junk mode 0 key = some (wbsm4GenTableOn .little r mode key) := by
  obtain ⟨da, hda, hperm⟩ := C58_shuffle r.shuf (List.replicate 32 0 ++ List.replicate 0 1)
  have hz : da = List.replicate 32 0 := by
    have hl : da.length = 32 := by rw [hperm.length_eq]; simp
    rw [← hl]
    apply List.eq_replicate_of_mem
    intro e he
    have := hperm.mem_iff.mp he
    simpa using this
  have hex : expandDummy (List.replicate 32 0) = List.replicate 32 0 := by decide
  obtain ⟨h1, h2, h3, h4⟩ := P_little r
  rw [wbsm4GenTable, dummyArray, hda, Option.map_some, Option.bind_some, hz, hex, genTableWith, gen_all r _ junk 32 0 rfl]
  simp only [Option.map_some, List.drop_zero, wbsm4GenTableOn, realRound_little, h1, h2]

theorem se_little (r : SeRnd) (mode : EncMode) (key : List Byte) : seGenTableOn .little r mode key = seGenTable r mode key := by
  have h1 : r.POn .little = r.P := by
    funext i
    show (genaffinepair32On .little (r.p i) 0).1 = _
    rw [pair32_little]; rfl
  have h2 : r.PinvOn .little = r.Pinv := by
    funext i
    show (genaffinepair32On .little (r.p i) 0).2 = _
    rw [pair32_little]; rfl
  simp only [seGenTableOn, seGenTable, h1, h2]
  rfl

/-- C119: on a little-endian machine the functions are those of the other models, and the parity of a word does not depend on
the order of its bytes. -/
theorem C119_little (r : Wbsm4Rnd) (rs : SeRnd) (ra : WbaesRnd) (ro : Fin 16 → Fin 2 → Nat → BitVec 32) (junk : Nat → WbRound)
    (mode : EncMode) (key : List Byte) (k : Block) (m1 m2 m3 m4 : Mat 8) (rnd : Nat → BitVec 32) (pos : Nat)
    (re rd : WbaesRnd) (r1 r2 : Fin 16 → Nat → BitVec 32) (junk8 : Vector (Fin 256) 256) (roe rod : Fin 16 → Fin 2 → Nat → BitVec 32)
    (rm : WbMaskRnd) :
    matrixcomOn .little m1 m2 m3 m4 = matrixcom8to32 m1 m2 m3 m4 ∧
    genaffinepair32On .little rnd pos = ((genaffinepair 32 rnd pos).1, (genaffinepair 32 rnd pos).2.1) ∧
    wbsm4GenTable r junk mode 0 key = some (wbsm4GenTableOn .little r mode key) ∧
    seGenTableOn .little rs mode key = seGenTable rs mode key ∧
    wbaesGenTableOn .little ra ro k = wbaesGenTable ra ro k ∧
    wbEeGenTableOn .little ra r1 r2 junk8 k = wbEeGenTable ra r1 r2 junk8 k ∧
    wbMaskGenTableOn .little re rd roe rod rm k = wbMaskGenTable re rd roe rod rm k ∧
    ∀ o, xorU16On o = xorU16 ∧ xorU32On o = xorU32 ∧ xorU64On o = xorU64 := by
  refine ⟨rfl, pair32_little _ _, wbsm4_little r junk mode key, se_little rs mode key, rfl, rfl, rfl, fun o => ?_⟩
  have h16 : xorU16On o = xorU16 := by
    funext n
    rw [xorU16On, halves_xor]; rfl
  have h32 : xorU32On o = xorU32 := by
    funext n
    rw [xorU32On, halves_xor, h16]; rfl
  refine ⟨h16, h32, ?_⟩
  funext n
  rw [xorU64On, halves_xor, h32]; rfl

/-- C119: pairs of affine maps are inverse to each other on both kinds of machines. -/
theorem C119_affine_pairs (o : ByteOrder) (rnd : Nat → BitVec 32) (pos : Nat) :
    Inverse (affineU (genaffinepair32On o rnd pos).1) (affineU (genaffinepair32On o rnd pos).2) := by
  have h := (genMatpair_spec (n := 32) rnd pos).1
  constructor
  · intro x
    simp only [genaffinepair32On, affineU, matMulNum_xor, h.1]
    rw [BitVec.xor_assoc, BitVec.xor_self, BitVec.xor_zero]
  · intro x
    simp only [genaffinepair32On, affineU, matMulNum_xor, h.2]
    rw [BitVec.xor_assoc, BitVec.xor_self, BitVec.xor_zero]

/-- C119: four matrices put together on a big-endian machine are not applied to the four bytes: byte `t` of the result is matrix
`t` applied to the byte at the other end of the word, and byte `t` of the vector is the other vector. -/
theorem C119_combination (a : Fin 4 → Aff 8) (x : BitVec 32) (t : Fin 4) :
    wbyte (affineU (affinecomOn .big (a 0) (a 1) (a 2) (a 3)) x) t = matMulNum (a t).mat (wbyte x (3 - t)) ^^^ (a (3 - t)).vec ∧
    wbyte (affineU (affinecomOn .little (a 0) (a 1) (a 2) (a 3)) x) t = matMulNum (a t).mat (wbyte x t) ^^^ (a t).vec := by
  refine ⟨comBig_aff a x t, ?_⟩
  obtain ⟨h0, h1, h2, h3⟩ := com_bytes a x
  have e : affinecomOn .little (a 0) (a 1) (a 2) (a 3) = affinecom8to32 (a 0) (a 1) (a 2) (a 3) := rfl
  have z : ∀ y : BitVec 32, wbyte y 3 = y.truncate 8 := fun y => congrArg _ (BitVec.ushiftRight_zero _)
  rw [e]
  rcases opp t with rfl | rfl | rfl | rfl
  · exact h0
  · exact h1
  · exact h2
  · rw [z, z]; exact h3

/-! ### generalised Feistel networks -/

theorem roundWith_rev (x : Quad) (F : Word → Word) : sm4RoundWith (sm4RoundWith x F).rev F = x.rev := by
  simp only [sm4RoundWith, Quad.rev]
  rw [show x.d ^^^ x.c ^^^ x.b = x.b ^^^ x.c ^^^ x.d by ac_rfl, BitVec.xor_assoc, BitVec.xor_self, BitVec.xor_zero]

theorem foldWith_rev (Fs : List (Word → Word)) : ∀ x : Quad, Fs.reverse.foldl sm4RoundWith (Fs.foldl sm4RoundWith x).rev = x.rev := by
  induction Fs with
  | nil => intro x; rfl
  | cons k rks ih =>
    intro x
    rw [List.reverse_cons, List.foldl_append]
    simp only [List.foldl_cons, List.foldl_nil]
    rw [ih, roundWith_rev]

theorem with_inverse (Fs : List (Word → Word)) (x : Block) : sm4With Fs.reverse (sm4With Fs x) = x := by
  rw [sm4With, sm4With, quadOf_toBlock, foldWith_rev]
  exact toBlock_quadOf x

theorem foldWith_inj (Fs : List (Word → Word)) (X Y : Quad) (h : Fs.foldl sm4RoundWith X = Fs.foldl sm4RoundWith Y) : X = Y := by
  have hx := foldWith_rev Fs X
  rw [h, foldWith_rev Fs Y] at hx
  have hinv : ∀ q : Quad, q.rev.rev = q := fun _ => rfl
  rw [← hinv X, ← hinv Y, hx]

/-- Two networks that differ in one round function, and there for every word, never give the same block. -/
theorem with_one_round (A B : List (Word → Word)) (F G : Word → Word) (h : ∀ z, F z ≠ G z) (x : Block) :
    sm4With (A ++ F :: B) x ≠ sm4With (A ++ G :: B) x := by
  intro he
  have := congrArg quadOf he
  rw [sm4With, sm4With, quadOf_toBlock, quadOf_toBlock] at this
  have := congrArg Quad.rev this
  have hinv : ∀ q : Quad, q.rev.rev = q := fun _ => rfl
  rw [hinv, hinv, List.foldl_append, List.foldl_append, List.foldl_cons, List.foldl_cons] at this
  have := foldWith_inj B _ _ this
  have := congrArg Quad.d this
  simp only [sm4RoundWith] at this
  exact h _ ((BitVec.xor_right_inj _).mp this)

theorem sm4T_inj (x y : Word) (h : sm4T x = sm4T y) : x = y := by
  have h := sm4L_inj _ _ h
  apply wbyte_ext
  intro t
  have := congrArg (wbyte · t) h
  simp only [tau_wbyte] at this
  exact sm4Sbox_inj _ _ this

theorem sm4With_keys (rks : List Word) (x : Block) :
    sm4With (rks.map fun rk z => sm4T (z ^^^ rk)) x = (sm4Crypt rks (quadOf x)).toBlock := by
  rw [sm4With, sm4Crypt, List.foldl_map]
  rfl

/-! ### white-box SM4 -/

/-- What the encodings of round `i` add to the round key on a big-endian machine: byte `j` is the matrix of `Eij[i][j]` applied to the
sum of the vectors of `Eij_inv[i][j]` and of the encoding at the other end of the word. -/
def encShift (r : Wbsm4Rnd) (i : Nat) : Word :=
  wordOf fun j => matMulNum (r.E i j).mat ((r.Einv i j).vec ^^^ (r.Einv i (3 - j)).vec)

/-- The round functions of a big-endian context with the round keys `rks`. -/
def bigRounds (r : Wbsm4Rnd) (rks : List Word) : List (Word → Word) :=
  (List.range 32).map fun i z => sm4T (mirror z ^^^ rks.getD i 0 ^^^ encShift r i)

theorem POn_inv (o : ByteOrder) (r : Wbsm4Rnd) (i : Nat) : Inverse (affineU (r.POn o i)) (affineU (r.PinvOn o i)) :=
  C119_affine_pairs o _ _
theorem QOn_inv (o : ByteOrder) (r : Wbsm4Rnd) (i : Nat) : Inverse (affineU (r.QOn o i)) (affineU (r.QinvOn o i)) :=
  C119_affine_pairs o _ _

theorem byteAt_wbyte (f : Fin 4 → Byte) : byteAt 0 (f 0) ^^^ byteAt 1 (f 1) ^^^ byteAt 2 (f 2) ^^^ byteAt 3 (f 3) = wordOf f :=
  byteAt_app _ _ _ _

/-- Lookup in `Table[i]` by the bytes of the index. -/
theorem look_sboxTab_bytes (q : Fin 3 → BitVec 32) (e : Fin 4 → Aff 8) (Q : Aff 32) (rk y : BitVec 32) :
    (sboxTab q e Q rk).look y = affineU Q (sm4L (wordOf fun j => sm4Sbox (affineU (e j) (wbyte y j) ^^^ wbyte rk j))) := by
  have w3 : wbyte y 3 = y.truncate 8 := congrArg _ (BitVec.ushiftRight_zero _)
  unfold sboxTab
  rw [look_maskTab]
  unfold Tab4.look
  rw [← w3]
  simp only [matMulNum_matMulMat, lmat_eq, wbSbox_eq]
  rw [← matMulNum_xor, ← matMulNum_xor, ← matMulNum_xor, ← sm4L_xor, ← sm4L_xor, ← sm4L_xor]
  rw [← byteAt_wbyte]
  rfl

theorem look_big (q : Fin 3 → BitVec 32) (e einv : Fin 4 → Aff 8)
    (hE : ∀ j, Inverse (affineU (e j)) (affineU (einv j))) (Q : Aff 32) (rk z : BitVec 32) :
    (sboxTab q e Q rk).look (affineU (affinecomOn .big (einv 0) (einv 1) (einv 2) (einv 3)) z) =
      affineU Q (sm4T (mirror z ^^^ rk ^^^ wordOf fun j => matMulNum (e j).mat ((einv j).vec ^^^ (einv (3 - j)).vec))) := by
  rw [look_sboxTab_bytes, sm4T]
  refine congrArg (fun w => affineU Q (sm4L w)) (wordOf_eq _ _ ?_)
  intro t
  rw [tau_wbyte, wbyte_xor, wbyte_xor, wordOf_wbyte, mirror_wbyte, comBig_aff einv]
  congr 1
  have h := (hE t).2 (wbyte z (3 - t))
  unfold affineU at h ⊢
  have e1 : matMulNum (einv t).mat (wbyte z (3 - t)) ^^^ (einv (3 - t)).vec =
      (matMulNum (einv t).mat (wbyte z (3 - t)) ^^^ (einv t).vec) ^^^ ((einv t).vec ^^^ (einv (3 - t)).vec) := by
    rw [BitVec.xor_assoc, ← BitVec.xor_assoc (einv t).vec, BitVec.xor_self, BitVec.zero_xor]
  rw [e1, matMulNum_xor _ _ ((einv t).vec ^^^ (einv (3 - t)).vec)]
  generalize matMulNum (e t).mat (matMulNum (einv t).mat (wbyte z (3 - t)) ^^^ (einv t).vec) = u at h ⊢
  generalize matMulNum (e t).mat ((einv t).vec ^^^ (einv (3 - t)).vec) = w
  rw [← h]
  ac_rfl

/-- The words of `s` are those of `X` under the encodings `P[p] .. P[p+3]`. -/
def EncBig (r : Wbsm4Rnd) (p : Nat) (X : Quad) (s : B4) : Prop :=
  s.b0 = affineU (r.POn .big p) X.a ∧ s.b1 = affineU (r.POn .big (p + 1)) X.b ∧ s.b2 = affineU (r.POn .big (p + 2)) X.c ∧
    s.b3 = affineU (r.POn .big (p + 3)) X.d

theorem big_step (r : Wbsm4Rnd) (rk : Sm4Ctx) (i : Nat) (p : Fin 32) (X : Quad) (s : B4) (h : EncBig r p.1 X s) :
    EncBig r (p.1 + 1) (sm4RoundWith X fun z => sm4T (mirror z ^^^ rk[p] ^^^ encShift r p.1)) (wbRoundStep s (realRoundOn .big r rk i p)) := by
  obtain ⟨h0, h1, h2, h3⟩ := h
  refine ⟨h1, h2, h3, ?_⟩
  simp only [wbRoundStep, realRoundOn, sm4RoundWith, look_affTab]
  have hM : affineU (r.MOn .big p.1 0) s.b1 ^^^ affineU (r.MOn .big p.1 1) s.b2 ^^^ affineU (r.MOn .big p.1 2) s.b3 =
      affineU (r.EiInvOn .big p.1) (X.b ^^^ X.c ^^^ X.d) := by
    simp only [Wbsm4Rnd.MOn, affineU_affinemix, h1, h2, h3]
    rw [show p.1 + 1 + (0 : Fin 3).1 = p.1 + 1 from rfl, show p.1 + 1 + (1 : Fin 3).1 = p.1 + 2 from rfl,
      show p.1 + 1 + (2 : Fin 3).1 = p.1 + 3 from rfl, (POn_inv _ r _).1, (POn_inv _ r _).1, (POn_inv _ r _).1, affineU_xor3]
  rw [hM]
  have hT := look_big (r.q3 i) (r.E p.1) (r.Einv p.1) (E_inv r p.1) (r.QOn .big p.1) rk[p] (X.b ^^^ X.c ^^^ X.d)
  have hE : r.EiInvOn .big p.1 = affinecomOn .big (r.Einv p.1 0) (r.Einv p.1 1) (r.Einv p.1 2) (r.Einv p.1 3) := rfl
  rw [hE, hT]
  have := cd_sum (r.POn .big (p.1 + 4)) (r.PinvOn .big p.1) (r.QinvOn .big p.1) (r.t p.1) s.b0
    (affineU (r.QOn .big p.1) (sm4T (mirror (X.b ^^^ X.c ^^^ X.d) ^^^ rk[p] ^^^ encShift r p.1)))
  rw [h0, (POn_inv _ r _).1, (QOn_inv _ r _).1] at this
  rw [h0]
  exact this

theorem big_rounds (r : Wbsm4Rnd) (rk : Sm4Ctx) (l : List (Fin 32)) (p : Nat)
    (hl : l.map Fin.val = List.range' p l.length) (X : Quad) (s : B4) (h : EncBig r p X s) :
    EncBig r (p + l.length) ((l.map fun i z => sm4T (mirror z ^^^ rk[i] ^^^ encShift r i.1)).foldl sm4RoundWith X)
      ((l.map fun i => realRoundOn .big r rk i.1 i).foldl wbRoundStep s) := by
  induction l generalizing p X s with
  | nil => exact h
  | cons i l ih =>
    rw [List.map_cons, List.length_cons, List.range'_succ, List.cons.injEq] at hl
    obtain ⟨rfl, hl⟩ := hl
    rw [List.map_cons, List.map_cons, List.foldl_cons, List.foldl_cons, List.length_cons,
      show i.1 + (l.length + 1) = i.1 + 1 + l.length by omega]
    exact ih (i.1 + 1) hl _ _ (big_step r rk i.1 i X s h)

theorem finRange_range (f : Nat → Word → Word) : (List.finRange 32).map (fun i => f i.1) = (List.range 32).map f := by
  apply List.ext_getElem
  · simp
  · intro i h1 h2; simp

theorem big_encrypt (r : Wbsm4Rnd) (mode : EncMode) (key : List Byte) (x : Block) :
    wbsm4Encrypt (wbsm4GenTableOn .big r mode key) x = sm4With (bigRounds r (sm4InitKey key mode).toList) x := by
  have hE := big_rounds r (sm4InitKey key mode) (List.finRange 32) 0 (by decide) (quadOf x)
    ⟨affineU (r.POn .big 0) (loadU32 x 0), affineU (r.POn .big 1) (loadU32 x 1), affineU (r.POn .big 2) (loadU32 x 2),
      affineU (r.POn .big 3) (loadU32 x 3)⟩ (by
      have hq := load_eq x
      simp only [B4.toQuad, B4.load] at hq
      rw [← hq]
      exact ⟨rfl, rfl, rfl, rfl⟩)
  have hl : ((List.finRange 32).map fun i z => sm4T (mirror z ^^^ (sm4InitKey key mode)[i] ^^^ encShift r i.1)) =
      bigRounds r (sm4InitKey key mode).toList := by
    rw [bigRounds, ← finRange_range]
    apply List.map_congr_left
    intro i _
    funext z
    rw [List.getD_eq_getElem?_getD, Vector.getElem?_toList, Vector.getElem?_eq_getElem i.2]
    rfl
  rw [hl, List.length_finRange] at hE
  obtain ⟨h0, h1, h2, h3⟩ := hE
  unfold wbsm4Encrypt wbsm4GenTableOn
  simp only [look_affTab, get32_eq, storeU32_eq]
  have e0 : ((0 : Fin 4) : Nat) = 0 := rfl
  have e1 : ((1 : Fin 4) : Nat) = 1 := rfl
  have e2 : ((2 : Fin 4) : Nat) = 2 := rfl
  have e3 : ((3 : Fin 4) : Nat) = 3 := rfl
  rw [e0, e1, e2, e3, h0, h1, h2, h3]
  simp only [Nat.zero_add, Nat.sub_zero, Nat.reduceSub, Nat.reduceAdd, (POn_inv .big r _).1]
  rfl

/-- C119: white-box SM4 generated on a big-endian machine, for every outcome of the random choices.  Round `i` applies `T` to the
*mirrored* sum of the three words and to a key that depends on the random encodings. -/
theorem C119_wbsm4 (r : Wbsm4Rnd) (key x : Block) :
    wbsm4Encrypt (wbsm4GenTableOn .big r .encrypt key.toList) x = sm4With (bigRounds r (sm4RoundKeys (quadOf key))) x ∧
    wbsm4Encrypt (wbsm4GenTableOn .big r .decrypt key.toList) x =
      sm4With (bigRounds r (sm4RoundKeys (quadOf key)).reverse) x := by
  rw [big_encrypt, big_encrypt, (initKey_eq _).1, (initKey_eq _).2, padKey_16]
  exact ⟨rfl, rfl⟩

/-- C119: the encodings add nothing to the key of round `i` exactly if the vectors at the two ends of the word agree. -/
theorem C119_wbsm4_shift (r : Wbsm4Rnd) (i : Nat) :
    encShift r i = 0 ↔ (r.Einv i 0).vec = (r.Einv i 3).vec ∧ (r.Einv i 1).vec = (r.Einv i 2).vec := by
  have inj : ∀ j (a : Byte), matMulNum (r.E i j).mat a = 0 → a = 0 := by
    intro j a h
    have h1 : affineU (r.E i j) a = affineU (r.E i j) 0 := by unfold affineU; rw [h, matMulNum_zero]
    rw [← (E_inv r i j).1 a, h1, (E_inv r i j).1]
  have w0 : ∀ t, wbyte 0 t = 0 := by decide
  constructor
  · intro h
    have hb : ∀ j : Fin 4, (r.Einv i j).vec = (r.Einv i (3 - j)).vec := by
      intro j
      have h1 := congrArg (wbyte · j) h
      simp only [encShift, wordOf_wbyte, w0] at h1
      have h2 := inj j _ h1
      have := congrArg (· ^^^ (r.Einv i (3 - j)).vec) h2
      simp only [BitVec.xor_assoc, BitVec.xor_self, BitVec.xor_zero] at this
      rw [this]
      exact BitVec.zero_xor
    exact ⟨hb 0, hb 1⟩
  · rintro ⟨h0, h1⟩
    apply wbyte_ext
    intro t
    rw [encShift, wordOf_wbyte, w0]
    have : (r.Einv i t).vec ^^^ (r.Einv i (3 - t)).vec = 0 := by
      rcases opp t with rfl | rfl | rfl | rfl
      · rw [h0]; exact BitVec.xor_self
      · rw [h1]; exact BitVec.xor_self
      · rw [← h1]; exact BitVec.xor_self
      · rw [← h0]; exact BitVec.xor_self
    rw [this, matMulNum_zero]

theorem range_split (i : Nat) (hi : i < 32) : List.range 32 = List.range i ++ i :: List.range' (i + 1) (31 - i) := by
  have h := List.range'_append_1 (s := 0) (m := i) (n := 32 - i)
  rw [Nat.zero_add, show i + (32 - i) = 32 by omega, show 32 - i = 31 - i + 1 by omega, List.range'_succ] at h
  rw [List.range_eq_range', List.range_eq_range', h]

/-- Contexts whose encodings agree in all rounds but one. -/
theorem big_one_round (r r' : Wbsm4Rnd) (rks rks' : List Word) (i : Nat) (hi : i < 32)
    (hs : ∀ k, k < 32 → k ≠ i → rks'.getD k 0 ^^^ encShift r' k = rks.getD k 0 ^^^ encShift r k)
    (hne : rks'.getD i 0 ^^^ encShift r' i ≠ rks.getD i 0 ^^^ encShift r i) (x : Block) :
    sm4With (bigRounds r' rks') x ≠ sm4With (bigRounds r rks) x := by
  have eA : ∀ l : List Nat, (∀ k ∈ l, k < 32 ∧ k ≠ i) →
      (l.map fun k z => sm4T (mirror z ^^^ rks'.getD k 0 ^^^ encShift r' k)) =
        l.map fun k z => sm4T (mirror z ^^^ rks.getD k 0 ^^^ encShift r k) := by
    intro l hl
    apply List.map_congr_left
    intro k hk
    funext z
    rw [BitVec.xor_assoc, hs k (hl k hk).1 (hl k hk).2, BitVec.xor_assoc]
  rw [bigRounds, bigRounds, range_split i hi, List.map_append, List.map_append, List.map_cons, List.map_cons,
    eA (List.range i) (by intro k hk; rw [List.mem_range] at hk; omega),
    eA (List.range' (i + 1) (31 - i)) (by intro k hk; rw [List.mem_range'_1] at hk; omega)]
  apply with_one_round
  intro z h
  have := sm4T_inj _ _ h
  rw [BitVec.xor_assoc, BitVec.xor_assoc] at this
  exact hne ((BitVec.xor_right_inj _).mp this)

/-- C119: two contexts of one key whose encodings agree in all rounds but one encrypt no block alike. -/
theorem C119_wbsm4_contexts (r r' : Wbsm4Rnd) (key : Block) (i : Nat) (hi : i < 32)
    (hs : ∀ k, k < 32 → k ≠ i → encShift r' k = encShift r k) (hne : encShift r' i ≠ encShift r i) (x : Block) :
    wbsm4Encrypt (wbsm4GenTableOn .big r' .encrypt key.toList) x ≠ wbsm4Encrypt (wbsm4GenTableOn .big r .encrypt key.toList) x := by
  rw [(C119_wbsm4 r' key x).1, (C119_wbsm4 r key x).1]
  exact big_one_round r r' _ _ i hi (fun k h1 h2 => by rw [hs k h1 h2]) (fun h => hne ((BitVec.xor_right_inj _).mp h)) x

theorem big_reverse (r r' : Wbsm4Rnd) (rks : List Word) (hl : rks.length = 32) (h : ∀ k, k < 32 → encShift r' k = encShift r (31 - k)) :
    bigRounds r' rks.reverse = (bigRounds r rks).reverse := by
  apply List.ext_getElem
  · simp [bigRounds]
  · intro k h1 h2
    have hk : k < 32 := by simpa [bigRounds] using h1
    simp only [bigRounds, List.getElem_map, List.getElem_range, List.getElem_reverse, List.length_map, List.length_range]
    funext z
    rw [h k hk, List.getD_eq_getElem?_getD, List.getD_eq_getElem?_getD, List.getElem?_reverse (by omega), hl]

/-- C119: a decryption context generated on a big-endian machine undoes the encryption context if the encodings of every round add
to the round key what they add in the encryption context; if this fails in exactly one round, no block is decrypted. -/
theorem C119_wbsm4_decrypt (r r' : Wbsm4Rnd) (key : Block) :
    ((∀ k, k < 32 → encShift r' k = encShift r (31 - k)) → ∀ x,
      wbsm4Decrypt (wbsm4GenTableOn .big r' .decrypt key.toList) (wbsm4Encrypt (wbsm4GenTableOn .big r .encrypt key.toList) x) = x) ∧
    (∀ i, i < 32 → (∀ k, k < 32 → k ≠ i → encShift r' k = encShift r (31 - k)) → encShift r' i ≠ encShift r (31 - i) → ∀ x,
      wbsm4Decrypt (wbsm4GenTableOn .big r' .decrypt key.toList) (wbsm4Encrypt (wbsm4GenTableOn .big r .encrypt key.toList) x) ≠ x) := by
  have hl : (sm4RoundKeys (quadOf key)).length = 32 := by simp [sm4RoundKeys]
  constructor
  · intro h x
    rw [wbsm4Decrypt, (C119_wbsm4 r' key _).2, (C119_wbsm4 r key _).1, big_reverse r r' _ hl h, with_inverse]
  · intro i hi hs hne x
    -- encodings that fit, for comparison
    have hc : ∃ r0 : Wbsm4Rnd, ∀ k, k < 32 → encShift r0 k = encShift r (31 - k) :=
      ⟨{ r with e := fun k j => r.e (31 - k) j }, fun k _ => rfl⟩
    obtain ⟨r0, h0⟩ := hc
    rw [wbsm4Decrypt, (C119_wbsm4 r' key _).2]
    intro h
    refine big_one_round r0 r' (sm4RoundKeys (quadOf key)).reverse (sm4RoundKeys (quadOf key)).reverse i hi
      (fun k h1 h2 => by rw [hs k h1 h2, h0 k h1]) (fun h => hne ?_) _ (h.trans ?_)
    · rw [← h0 i hi]; exact (BitVec.xor_right_inj _).mp h
    · rw [(C119_wbsm4 r key x).1, big_reverse r r0 _ hl h0, with_inverse]

/-! ### what the theorems say in cases -/

theorem zeroVec (pos : Nat) : (genaffinepair 8 (fun _ => 0) pos).2.1.vec = 0 := by
  have h : ∀ n, (randV 8 (fun _ => (0 : BitVec 32)) n).1 = 0 := fun _ => rfl
  simp only [genaffinepair]
  rw [h, matMulNum_zero]

/-- Streams that are zero throughout. -/
def zeroStreams : Wbsm4Rnd where
  p _ _ := 0
  e _ _ _ := 0
  q _ _ := 0
  shuf _ := 0
  q1 _ _ := 0
  q2 _ _ := 0
  q3 _ _ := 0
  qx _ := 0
  t _ := 0

theorem zeroStreams_shift (i : Nat) : encShift zeroStreams i = 0 := by
  rw [C119_wbsm4_shift]
  have h : ∀ j, (zeroStreams.Einv i j).vec = 0 := fun j => zeroVec 0
  exact ⟨by rw [h, h], by rw [h, h]⟩

theorem bigRounds_zero (rks : List Word) (r : Wbsm4Rnd) (h : ∀ i, encShift r i = 0) :
    bigRounds r rks = (List.range 32).map fun i z => sm4T (mirror z ^^^ rks.getD i 0) := by
  unfold bigRounds
  apply List.map_congr_left
  intro i _
  funext z
  rw [h]
  exact congrArg _ BitVec.xor_zero

/-- C119: even encodings that add nothing to the keys do not give SM4. -/
theorem C119_wbsm4_not_sm4 (r : Wbsm4Rnd) (h : ∀ i, encShift r i = 0) :
    wbsm4Encrypt (wbsm4GenTableOn .big r .encrypt zeroBlock.toList) zeroBlock ≠ Spec.sm4Encrypt zeroBlock zeroBlock := by
  rw [(C119_wbsm4 r zeroBlock zeroBlock).1, bigRounds_zero _ r h]
  decide +kernel

/-- Streams that are one for the first encoding of the first round and zero elsewhere. -/
def oneStream (i : Nat) : Wbsm4Rnd := { zeroStreams with e := fun k j _ => if k = i ∧ j = 0 then 1 else 0 }

theorem oneVec (pos : Nat) : (genaffinepair 8 (fun _ => 1) pos).2.1.vec ≠ 0 := by
  have h : ∀ n, (randV 8 (fun _ => (1 : BitVec 32)) n).1 = 1 := fun _ => rfl
  have hi := C33_affine_pairs 8 (fun _ => 1) pos
  intro hz
  have h0 : affineU (genaffinepair 8 (fun _ => 1) pos).1 0 = 1 := by
    have : (genaffinepair 8 (fun _ => 1) pos).1.vec = 1 := by
      simp only [genaffinepair]
      exact h _
    unfold affineU
    rw [this, matMulNum_zero]
    decide
  have h1 : affineU (genaffinepair 8 (fun _ => 1) pos).2.1 0 = 0 := by
    unfold affineU
    rw [hz, matMulNum_zero]
    decide
  have := hi.2 0
  rw [h1, h0] at this
  exact absurd this (by decide)

theorem oneStream_shift (i k : Nat) : encShift (oneStream i) k = 0 ↔ k ≠ i := by
  have z : ∀ j : Fin 4, j ≠ 0 → ((oneStream i).Einv k j).vec = 0 := by
    intro j hj
    have : (oneStream i).e k j = fun _ => 0 := by funext n; simp [oneStream, hj]
    rw [Wbsm4Rnd.Einv, this]
    exact zeroVec 0
  rw [C119_wbsm4_shift, z 3 (by decide), z 1 (by decide), z 2 (by decide)]
  constructor
  · rintro ⟨h, -⟩ rfl
    have : (oneStream k).e k 0 = fun _ => 1 := by funext n; simp [oneStream]
    rw [Wbsm4Rnd.Einv, this] at h
    exact oneVec 0 h
  · intro h
    have : (oneStream i).e k 0 = fun _ => 0 := by funext n; simp [oneStream, h]
    rw [Wbsm4Rnd.Einv, this]
    exact ⟨zeroVec 0, rfl⟩

/-- Two contexts of one key that never agree, and a decryption context that decrypts nothing. -/
example (key x : Block) :
    wbsm4Encrypt (wbsm4GenTableOn .big (oneStream 7) .encrypt key.toList) x ≠
      wbsm4Encrypt (wbsm4GenTableOn .big zeroStreams .encrypt key.toList) x ∧
    wbsm4Decrypt (wbsm4GenTableOn .big (oneStream 7) .decrypt key.toList)
      (wbsm4Encrypt (wbsm4GenTableOn .big zeroStreams .encrypt key.toList) x) ≠ x ∧
    wbsm4Decrypt (wbsm4GenTableOn .big zeroStreams .decrypt key.toList)
      (wbsm4Encrypt (wbsm4GenTableOn .big zeroStreams .encrypt key.toList) x) = x := by
  have hs : ∀ k, k < 32 → k ≠ 7 → encShift (oneStream 7) k = 0 := fun k _ h => (oneStream_shift 7 k).mpr h
  have hn : encShift (oneStream 7) 7 ≠ 0 := fun h => (oneStream_shift 7 7).mp h rfl
  refine ⟨C119_wbsm4_contexts _ _ key 7 (by decide) (fun k h1 h2 => by rw [hs k h1 h2, zeroStreams_shift])
      (by rw [zeroStreams_shift]; exact hn) x,
    (C119_wbsm4_decrypt _ _ key).2 7 (by decide) (fun k h1 h2 => by rw [hs k h1 h2, zeroStreams_shift])
      (by rw [zeroStreams_shift]; exact hn) x,
    (C119_wbsm4_decrypt _ _ key).1 (fun k _ => by rw [zeroStreams_shift, zeroStreams_shift]) x⟩

example : ∀ i, encShift zeroStreams i = 0 := zeroStreams_shift

end Verif.Props
