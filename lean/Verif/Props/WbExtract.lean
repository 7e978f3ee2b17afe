import Verif.Spec.WbExtract
import Verif.Props.Wbsm4
import Verif.Props.Wbsm4File

/-! Property C80: the tables of white-box SM4 reveal the key. -/
set_option autoImplicit false

namespace Verif.Props
open Verif Spec Model

/-- A list of real rounds for the round keys from number `p` on. -/
def RealsFrom (r : Wbsm4Rnd) (rk : Sm4Ctx) : Nat → List WbRound → Prop
  | p, [] => p = 32
  | p, T :: Ts => ∃ (h : p < 32) (i : Nat), T = realRound r rk i ⟨p, h⟩ ∧ RealsFrom r rk (p + 1) Ts

theorem byteIn_eq (j : Fin 4) (x : Byte) : byteIn j x = byteAt j x := by
  rw [byteIn, byteAt, Nat.mul_comm]

theorem isReal_dummy (j : WbRound) : isReal (dummyRound j) = false := by
  simp [isReal, dummyRound]

theorem byteAt_inj (j : Fin 4) (x y : Byte) (h : byteAt j x = byteAt j y) : x = y := by
  have hj := j.2
  apply BitVec.eq_of_getLsbD_eq
  intro i hi
  have h2 := congrArg (fun w : BitVec 32 => w.getLsbD (24 - j.1 * 8 + i)) h
  simp only [byteAt, BitVec.getLsbD_shiftLeft] at h2
  simpa [show 24 - j.1 * 8 + i < 32 by omega, show i < 32 by omega, show ¬ 24 - j.1 * 8 + i < 24 - j.1 * 8 by omega] using h2

theorem sm4L_four (x : BitVec 32) : sm4L (sm4L (sm4L (sm4L x))) = x.rotateLeft 8 := by
  refine additive_ext (fun x => sm4L (sm4L (sm4L (sm4L x)))) (fun x => x.rotateLeft 8) ?_ (fun x y => rotateLeft_xor x y 8) ?_ x
  · intro x y
    simp only [sm4L_xor]
  · decide +kernel

theorem sm4L_inj (x y : BitVec 32) (h : sm4L x = sm4L y) : x = y := by
  have h8 : x.rotateLeft 8 = y.rotateLeft 8 := by rw [← sm4L_four, ← sm4L_four, h]
  have e : ∀ z : BitVec 32, (z.rotateLeft 8).rotateLeft 24 = z := by
    refine additive_ext (fun z => (z.rotateLeft 8).rotateLeft 24) (fun z => z) ?_ (fun _ _ => rfl) ?_
    · intro x y
      simp only [rotateLeft_xor]
    · decide +kernel
  rw [← e x, h8, e]

theorem matMulNum_inj (a b : Aff 32) (hi : Inverse (affineU a) (affineU b)) (x y : BitVec 32)
    (h : matMulNum a.mat x = matMulNum a.mat y) : x = y := by
  have h2 : affineU a x = affineU a y := by unfold affineU; rw [h]
  rw [← hi.1 x, h2, hi.1]

/-- The affine map of the S-box undone. -/
def affineBack (y : Byte) : Byte :=
  let x := y ^^^ 0xD3
  x ^^^ x.rotateLeft 2 ^^^ x.rotateLeft 7

theorem sm4Sbox_inj (x y : Byte) (h : sm4Sbox x = sm4Sbox y) : x = y := by
  have e : ∀ z : BitVec 8, affineBack (sm4Inv (affineBack (sm4Sbox z))) = z := by decide +kernel
  rw [← e x, h, e]

theorem maskTab_zero (q : Fin 3 → BitVec 32) (vec : BitVec 32) (f : Tab4) (x : Byte) : maskTab q vec f 0 x = f 0 x ^^^ q 0 := rfl

/-- The S-box tables of a round are not constant. -/
theorem sboxTab_nonconst (q : Fin 3 → BitVec 32) (e einv : Fin 4 → Aff 8) (Q Qinv : Aff 32)
    (hE : Inverse (affineU (e 0)) (affineU (einv 0))) (hQ : Inverse (affineU Q) (affineU Qinv)) (rk : BitVec 32) :
    sboxTab q e Q rk 0 0 ≠ sboxTab q e Q rk 0 1 := by
  intro h
  simp only [sboxTab, maskTab_zero] at h
  have h := BitVec.xor_left_inj _ |>.1 h
  rw [matMulNum_matMulMat, matMulNum_matMulMat] at h
  have h := matMulNum_inj Q Qinv hQ _ _ h
  rw [lmat_eq, lmat_eq, wbSbox_eq, wbSbox_eq] at h
  have h := sm4Sbox_inj _ _ (byteAt_inj _ _ _ (sm4L_inj _ _ h))
  have h := BitVec.xor_left_inj _ |>.1 h
  have h01 := congrArg (affineU (einv 0)) h
  rw [hE.1, hE.1] at h01
  exact absurd h01 (by decide)

theorem isReal_real (r : Wbsm4Rnd) (rk : Sm4Ctx) (i : Nat) (p : Fin 32) : isReal (realRound r rk i p) = true := by
  cases h : isReal (realRound r rk i p) with
  | true => rfl
  | false =>
    exfalso
    have h0 : ∀ x, (realRound r rk i p).table 0 x = 0 := by
      intro x
      simp only [isReal, List.any_eq_false] at h
      have h1 := h 0 (List.mem_finRange _)
      rw [Bool.not_eq_true, List.any_eq_false] at h1
      have h2 := h1 x.toFin (List.mem_finRange _)
      rw [bne_iff_ne, ne_eq, Decidable.not_not] at h2
      exact h2
    exact sboxTab_nonconst (r.q3 i) (r.E p.1) (r.Einv p.1) (r.Q p.1) (r.Qinv p.1) (E_inv r p.1 0) (Q_inv r p.1) rk[p]
      ((h0 0).trans (h0 1).symm)

/-- Without the dummy rounds, a generated context holds the 32 real rounds in order. -/
theorem gen_reals (r : Wbsm4Rnd) (rk : Sm4Ctx) (junk : Nat → WbRound) (da : List Byte) (h01 : ∀ d ∈ da, d = 0 ∨ d = 1)
    (i point : Nat) (flag : Bool) (p : Nat) (hp : p + da.count 0 = 32)
    (hst : (0 : Byte) ∉ da ∨ (flag = false ∧ point = p) ∨ (flag = true ∧ point = p + 4)) (rs : List WbRound)
    (hrs : genRounds r rk junk (expandDummy da) i point flag = some rs) : RealsFrom r rk p (rs.filter isReal) := by
  induction da generalizing i point flag p rs with
  | nil =>
    simp only [List.count_nil, Nat.add_zero] at hp
    cases hrs
    exact hp
  | cons d da ih =>
    have h01' : ∀ d ∈ da, d = 0 ∨ d = 1 := fun d hd => h01 d (by simp [hd])
    rcases h01 d (by simp) with rfl | rfl
    · rw [List.count_cons_self] at hp
      have hp32 : p < 32 := by omega
      have hcase : (flag = true → 4 ≤ point) ∧ p = if flag then point - 4 else point := by
        rcases hst with h | ⟨rfl, rfl⟩ | ⟨rfl, rfl⟩
        · simp at h
        · simp
        · simp
      rw [expand_zero, gen_zero r rk junk _ i point flag hcase.1 p hcase.2 hp32] at hrs
      obtain ⟨rs', h', rfl⟩ := Option.map_eq_some_iff.1 hrs
      rw [List.filter_cons_of_pos (isReal_real _ _ _ _)]
      exact ⟨hp32, i, rfl, ih h01' (i + 1) (p + 1) false (p + 1) (by omega) (.inr (.inl ⟨rfl, rfl⟩)) rs' h'⟩
    · rw [List.count_cons_of_ne (by decide)] at hp
      rw [expand_one, gen_one4] at hrs
      obtain ⟨rs', h', rfl⟩ := Option.map_eq_some_iff.1 hrs
      have hf : ([dummyRound (junk i), dummyRound (junk (i + 1)), dummyRound (junk (i + 2)), dummyRound (junk (i + 3))] ++
          rs').filter isReal = rs'.filter isReal := by
        simp [isReal_dummy]
      rw [hf]
      refine ih h01' (i + 4) (point + 4) true p hp ?_ rs' h'
      rcases hst with h | ⟨rfl, rfl⟩ | ⟨rfl, rfl⟩
      · exact .inl fun h' => h (List.mem_cons_of_mem _ h')
      · exact .inr (.inr ⟨rfl, rfl⟩)
      · refine .inl fun h0 => ?_
        rw [gen_oob r rk junk da h01' _ _ true p hp h0 (by simp)] at h'
        cases h'

/-- The first real rounds follow SM4 under the encodings. -/
theorem reals_prefix (r : Wbsm4Rnd) (rk : Sm4Ctx) (l : List WbRound) (p : Nat) (hl : RealsFrom r rk p l) (n : Nat) (hn : p + n ≤ 32)
    (X : Quad) (s : B4) (h : Enc r p X s) :
    Enc r (p + n) (((rk.toList.drop p).take n).foldl sm4Round X) ((l.take n).foldl wbRoundStep s) := by
  induction n generalizing p l X s with
  | zero => simpa using h
  | succ n ih =>
    cases l with
    | nil => simp only [RealsFrom] at hl; omega
    | cons T Ts =>
      obtain ⟨h32, i, rfl, hTs⟩ := hl
      have hd : rk.toList.drop p = rk[(⟨p, h32⟩ : Fin 32)] :: rk.toList.drop (p + 1) := by
        rw [List.drop_eq_getElem_cons (by simpa using h32)]
        simp
      rw [hd, List.take_succ_cons, List.take_succ_cons, List.foldl_cons, List.foldl_cons]
      have := ih Ts (p + 1) hTs (by omega) _ _ (real_step r rk i ⟨p, h32⟩ X s h)
      rwa [show p + 1 + n = p + (n + 1) by omega] at this

theorem unround_round (rk : Word) (X : Quad) : sm4Round (sm4Unround rk X) rk = X := by
  simp only [sm4Round, sm4Unround, BitVec.xor_assoc, BitVec.xor_self, BitVec.xor_zero]

theorem unrounds (rks : List Word) (Y : Quad) : rks.foldl sm4Round (rks.foldr sm4Unround Y) = Y := by
  induction rks generalizing Y with
  | nil => rfl
  | cons k rks ih => rw [List.foldr_cons, List.foldl_cons, unround_round, ih]

/-- No difference of the S-box is constant. -/
theorem sbox_derivative (d : Byte) (hd : d ≠ 0) : ∃ v, sm4Sbox v ^^^ sm4Sbox (v ^^^ d) ≠ sm4Sbox 0 ^^^ sm4Sbox d := by
  have h : ∀ d : BitVec 8, d ≠ 0 →
      (List.range 8).any (fun v => sm4Sbox (BitVec.ofNat 8 v) ^^^ sm4Sbox (BitVec.ofNat 8 v ^^^ d) != sm4Sbox 0 ^^^ sm4Sbox d) = true := by
    decide +kernel
  obtain ⟨v, -, hv⟩ := List.any_eq_true.1 (h d hd)
  exact ⟨_, by simpa using hv⟩

/-- Byte `j` of a word. -/
def byteOf (j : Fin 4) (w : BitVec 32) : Byte := w.extractLsb' (24 - 8 * j.1) 8

theorem extract_byteAt (i j : Fin 4) (u : Byte) (w : BitVec 32) :
    (byteAt j u ^^^ w).extractLsb' (24 - 8 * i.1) 8 = (if i = j then u else 0) ^^^ w.extractLsb' (24 - 8 * i.1) 8 := by
  have hi := i.2
  have hj := j.2
  apply BitVec.eq_of_getLsbD_eq
  intro k hk
  by_cases hij : i = j
  · subst hij
    simp [byteAt, hk, show 24 - 8 * i.1 + k < 32 by omega,
      show ¬ 24 - 8 * i.1 + k < 24 - i.1 * 8 by omega, show 24 - 8 * i.1 + k - (24 - i.1 * 8) = k by omega]
  · have hne : i.1 ≠ j.1 := fun h => hij (Fin.ext h)
    have hz : (byteAt j u).getLsbD (24 - 8 * i.1 + k) = false := by
      rw [byteAt, BitVec.getLsbD_shiftLeft]
      by_cases hlt : 24 - 8 * i.1 + k < 24 - j.1 * 8
      · simp [hlt]
      · simp only [BitVec.getLsbD_setWidth]
        rw [BitVec.getLsbD_of_ge u _ (by omega)]
        simp
    simp [hij, hk, hz]

/-- The S-box layer, as a function of one byte. -/
theorem tau_byte (j : Fin 4) (w : BitVec 32) :
    ∃ R, ∀ u, sm4Tau (byteAt j u ^^^ w) = byteAt j (sm4Sbox (u ^^^ byteOf j w)) ^^^ R := by
  have e : ∀ v : BitVec 32, sm4Tau v = byteAt 0 (sm4Sbox (v.extractLsb' (24 - 8 * (0 : Fin 4).1) 8)) ^^^
      byteAt 1 (sm4Sbox (v.extractLsb' (24 - 8 * (1 : Fin 4).1) 8)) ^^^
      byteAt 2 (sm4Sbox (v.extractLsb' (24 - 8 * (2 : Fin 4).1) 8)) ^^^
      byteAt 3 (sm4Sbox (v.extractLsb' (24 - 8 * (3 : Fin 4).1) 8)) := by
    intro v
    rw [byteAt_app]
    rfl
  simp only [e, extract_byteAt, byteOf]
  have hj : j = 0 ∨ j = 1 ∨ j = 2 ∨ j = 3 := by omega
  have z : ∀ v : Byte, (0 : Byte) ^^^ v = v := fun v => BitVec.zero_xor
  rcases hj with rfl | rfl | rfl | rfl
  · exact ⟨_, fun u => by simp only [Fin.reduceEq, if_true, if_false, z]; simp only [BitVec.xor_assoc]; rfl⟩
  · exact ⟨_, fun u => by simp only [Fin.reduceEq, if_true, if_false, z]; rw [BitVec.xor_comm (byteAt 0 _)]; simp only [BitVec.xor_assoc]; rfl⟩
  · refine ⟨byteAt 0 (sm4Sbox (w.extractLsb' (24 - 8 * (0 : Fin 4).1) 8)) ^^^
      (byteAt 1 (sm4Sbox (w.extractLsb' (24 - 8 * (1 : Fin 4).1) 8)) ^^^
       byteAt 3 (sm4Sbox (w.extractLsb' (24 - 8 * (3 : Fin 4).1) 8))), fun u => ?_⟩
    simp only [Fin.reduceEq, if_true, if_false, z]
    simp only [BitVec.xor_assoc]
    rw [xor_left_comm32 (byteAt 2 _), xor_left_comm32 (byteAt 2 _)]
  · exact ⟨_, fun u => by simp only [Fin.reduceEq, if_true, if_false, z]; rw [BitVec.xor_comm _ (byteAt 3 _)]⟩

/-- What a probe computes. -/
theorem probe_eq (r : Wbsm4Rnd) (rk : Sm4Ctx) (c : Wbsm4Ctx) (hse : ∀ i : Fin 4, c.se i = affTab r.qx (r.P i.1))
    (hr : RealsFrom r rk 0 (c.rnds.filter isReal)) (n : Nat) (hn : n < 32) (j : Fin 4) (k u : Byte) :
    probe c (rk.toList.take n) j k u =
      affineU (r.P (n + 4)) (sm4L (byteAt j (sm4Sbox (u ^^^ k))) ^^^ sm4T (byteAt j u ^^^ rk[n])) := by
  have hlen : (rk.toList.take n).length = n := by simp; omega
  unfold probe wbPrefix
  rw [hlen, hse, hse, hse, hse]
  simp only [look_affTab]
  generalize hY : (⟨sm4L (byteIn j (sm4Sbox (u ^^^ k))), byteIn j u, 0, 0⟩ : Quad) = Y
  have h := reals_prefix r rk _ 0 hr (n + 1) (by omega) ((rk.toList.take n).foldr sm4Unround Y)
    ⟨affineU (r.P 0) _, affineU (r.P 1) _, affineU (r.P 2) _, affineU (r.P 3) _⟩ ⟨rfl, rfl, rfl, rfl⟩
  have ht : (rk.toList.drop 0).take (n + 1) = rk.toList.take n ++ [rk[n]] := by
    rw [List.drop_zero, List.take_add_one]
    simp [hn]
  rw [ht, List.foldl_append, unrounds] at h
  have h3 := h.2.2.2
  rw [show 0 + (n + 1) + 3 = n + 4 by omega] at h3
  refine Eq.trans h3 ?_
  subst hY
  have z : ∀ v : BitVec 32, v ^^^ 0 = v := fun v => BitVec.xor_zero
  simp only [List.foldl_cons, List.foldl_nil, sm4Round, byteIn_eq, z]

/-- All probes agree for the right byte only. -/
theorem probe_iff (r : Wbsm4Rnd) (rk : Sm4Ctx) (c : Wbsm4Ctx) (hse : ∀ i : Fin 4, c.se i = affTab r.qx (r.P i.1))
    (hr : RealsFrom r rk 0 (c.rnds.filter isReal)) (n : Nat) (hn : n < 32) (j : Fin 4) (k : Byte) :
    (∀ u, probe c (rk.toList.take n) j k u = probe c (rk.toList.take n) j k 0) ↔ k = byteOf j rk[n] := by
  obtain ⟨R, hR⟩ := tau_byte j rk[n]
  generalize hw : byteOf j rk[n] = w at hR
  have hp : ∀ u, probe c (rk.toList.take n) j k u =
      affineU (r.P (n + 4)) (sm4L (byteAt j (sm4Sbox (u ^^^ k)) ^^^ byteAt j (sm4Sbox (u ^^^ w)) ^^^ R)) := by
    intro u
    rw [probe_eq r rk c hse hr n hn, sm4T, hR, sm4L_xor, sm4L_xor, sm4L_xor, BitVec.xor_assoc]
  constructor
  · intro h
    have hxor : ∀ a b : Byte, byteAt j a ^^^ byteAt j b = byteAt j (a ^^^ b) := by
      intro a b
      unfold byteAt
      rw [BitVec.zeroExtend, BitVec.setWidth_xor, BitVec.shiftLeft_xor_distrib]
    have hs : ∀ u, sm4Sbox (u ^^^ k) ^^^ sm4Sbox (u ^^^ w) = sm4Sbox k ^^^ sm4Sbox w := by
      intro u
      have h1 := h u
      rw [hp, hp] at h1
      have h2 := congrArg (affineU (r.Pinv (n + 4))) h1
      rw [(P_inv r (n + 4)).1, (P_inv r (n + 4)).1] at h2
      have h3 := BitVec.xor_left_inj _ |>.1 (sm4L_inj _ _ h2)
      rw [hxor, hxor] at h3
      simpa using byteAt_inj _ _ _ h3
    rcases Classical.em (k = w) with e | e
    · exact e
    · exfalso
      have hd : k ^^^ w ≠ 0 := fun h0 => e (BitVec.xor_eq_zero_iff.1 h0)
      obtain ⟨v, hv⟩ := sbox_derivative (k ^^^ w) hd
      apply hv
      have e1 := hs (v ^^^ k)
      have e2 := hs k
      rw [BitVec.xor_self] at e2
      rw [BitVec.xor_assoc, BitVec.xor_assoc, BitVec.xor_self, BitVec.xor_zero] at e1
      exact e1.trans e2.symm
  · rintro rfl u
    rw [hp, hp, BitVec.xor_self, BitVec.xor_self]

theorem findByte_eq (r : Wbsm4Rnd) (rk : Sm4Ctx) (c : Wbsm4Ctx) (hse : ∀ i : Fin 4, c.se i = affTab r.qx (r.P i.1))
    (hr : RealsFrom r rk 0 (c.rnds.filter isReal)) (n : Nat) (hn : n < 32) (j : Fin 4) :
    findByte c (rk.toList.take n) j = byteOf j rk[n] := by
  have mem : ∀ b : Byte, b ∈ (List.finRange 256).map (BitVec.ofFin (w := 8)) := fun b =>
    List.mem_map.2 ⟨b.toFin, List.mem_finRange _, rfl⟩
  have key : ∀ k : Byte, (((List.finRange 256).map BitVec.ofFin).all fun u =>
      probe c (rk.toList.take n) j k u == probe c (rk.toList.take n) j k 0) = true ↔ k = byteOf j rk[n] := by
    intro k
    rw [← probe_iff r rk c hse hr n hn j k, List.all_eq_true]
    constructor
    · intro h u
      exact eq_of_beq (h u (mem u))
    · intro h u _
      exact beq_iff_eq.2 (h u)
  unfold findByte
  cases hf : ((List.finRange 256).map (BitVec.ofFin (w := 8))).find? fun k => ((List.finRange 256).map BitVec.ofFin).all fun u =>
      probe c (rk.toList.take n) j k u == probe c (rk.toList.take n) j k 0 with
  | none => exact absurd ((key _).2 rfl) (List.find?_eq_none.1 hf _ (mem _))
  | some k =>
    have h := List.find?_some (p := fun k => ((List.finRange 256).map BitVec.ofFin).all fun u =>
      probe c (rk.toList.take n) j k u == probe c (rk.toList.take n) j k 0) hf
    exact (key k).1 h

theorem findRks_eq (r : Wbsm4Rnd) (rk : Sm4Ctx) (c : Wbsm4Ctx) (hse : ∀ i : Fin 4, c.se i = affTab r.qx (r.P i.1))
    (hr : RealsFrom r rk 0 (c.rnds.filter isReal)) (n : Nat) (hn : n ≤ 32) : findRks c n = rk.toList.take n := by
  induction n with
  | zero => rfl
  | succ n ih =>
    rw [findRks, ih (by omega), List.take_add_one]
    have h1 : nextRk c (rk.toList.take n) = rk[n] := by
      simp only [nextRk, findByte_eq r rk c hse hr n (by omega)]
      exact append4_extract rk[n]
    rw [h1]
    simp [show n < 32 by omega]

theorem unschedule_eq (mk : Quad) (n : Nat) : unschedule n (sm4KeyWindow mk n) = mk := by
  induction n with
  | zero => simp [unschedule, sm4KeyWindow, BitVec.xor_assoc]
  | succ n ih =>
    have h : keyUnstep n (sm4KeyWindow mk (n + 1)) = sm4KeyWindow mk n := by
      simp only [sm4KeyWindow, keyUnstep, BitVec.xor_assoc, BitVec.xor_self, BitVec.xor_zero]
    rw [unschedule, h, ih]

/-- C80, keys of any length: the tables of white-box SM4 give away the (padded) key, whatever the random numbers, the dummy
rounds, the uninitialised memory and the mode. -/
theorem C80_padded_key (r : Wbsm4Rnd) (junk : Nat → WbRound) (mode : EncMode) (d : Nat) (key : List Byte) (c : Wbsm4Ctx)
    (h : wbsm4GenTable r junk mode d key = some c) : wbsm4Extract c = padKey key := by
  obtain ⟨da, hperm, hdum, -, -⟩ := C37_dummy_rounds r junk mode d key
  have h01 : ∀ e ∈ da, e = 0 ∨ e = 1 := by
    intro e he
    have := hperm.mem_iff.mp he
    rw [List.mem_append, List.mem_replicate, List.mem_replicate] at this
    rcases this with h | h
    · exact .inl h.2
    · exact .inr h.2
  have hc : 0 + da.count 0 = 32 := by
    rw [hperm.count_eq]
    simp [List.count_replicate]
  rw [wbsm4GenTable, hdum, Option.bind_some, genTableWith] at h
  obtain ⟨rs, hrs, rfl⟩ := Option.map_eq_some_iff.1 h
  have hr := gen_reals r _ junk da h01 0 0 false 0 hc (.inr (.inl ⟨rfl, rfl⟩)) rs hrs
  have hf := findRks_eq r (sm4InitKey key mode)
    { rnds := rs, encmode := mode, se := fun i => affTab r.qx (r.P i.1), fe := fun i => affTab r.qx (r.Pinv (35 - i.1)) }
    (fun _ => rfl) hr 4 (by decide)
  have hk := initKey_eq key
  generalize padKey key = pk at hk ⊢
  unfold wbsm4Extract
  rw [hf]
  cases mode with
  | encrypt =>
    rw [hk.1, show (sm4RoundKeys (quadOf pk)).take 4 = [sm4Rk (quadOf pk) 0, sm4Rk (quadOf pk) 1, sm4Rk (quadOf pk) 2, sm4Rk (quadOf pk) 3] from rfl]
    show (unschedule 4 (sm4KeyWindow (quadOf pk) 4)).toBlock = pk
    rw [unschedule_eq, toBlock_quadOf]
  | decrypt =>
    rw [hk.2, show (sm4RoundKeys (quadOf pk)).reverse.take 4 = [sm4Rk (quadOf pk) 31, sm4Rk (quadOf pk) 30, sm4Rk (quadOf pk) 29, sm4Rk (quadOf pk) 28] from rfl]
    show (unschedule 32 (sm4KeyWindow (quadOf pk) 32)).toBlock = pk
    rw [unschedule_eq, toBlock_quadOf]

/-- C80: a sixteen byte key is recovered exactly. -/
theorem C80_wbsm4_key_extraction (r : Wbsm4Rnd) (junk : Nat → WbRound) (mode : EncMode) (d : Nat) (key : Block) (c : Wbsm4Ctx)
    (h : wbsm4GenTable r junk mode d key.toList = some c) : wbsm4Extract c = key := by
  rw [C80_padded_key r junk mode d key.toList c h, padKey_16]

/-- C80, the key file: whoever reads an exported key file recovers the key. -/
theorem C80_key_file (r : Wbsm4Rnd) (junk : Nat → WbRound) (mode : EncMode) (d : Nat) (key : Block) (m m0 : Wbsm4Mem)
    (h : wbsm4GenTable r junk mode d key.toList = some m.toCtx) (alloc : Nat) (ha : loopBound m.rounds ≤ alloc)
    (h4 : 4 ≤ loopBound m.rounds) :
    ∃ m', file2key alloc m0 (key2file m) = some (true, m') ∧ wbsm4Extract m'.toCtx = key := by
  obtain ⟨m', h1, -, -, -, h5⟩ := C39_round_trip alloc m m0 ha
  exact ⟨m', h1, by rw [(h5 h4).1]; exact C80_wbsm4_key_extraction r junk mode d key _ h⟩

example (r : Wbsm4Rnd) (junk : Nat → WbRound) (mode : EncMode) (key : Block) :
    ∃ c, wbsm4GenTable r junk mode 0 key.toList = some c ∧ wbsm4Extract c = key := by
  cases mode with
  | encrypt =>
    obtain ⟨c, hc, -⟩ := (C36_wbsm4_is_sm4 r junk key).1
    exact ⟨c, hc, C80_wbsm4_key_extraction r junk _ 0 key c hc⟩
  | decrypt =>
    obtain ⟨c, hc, -⟩ := (C36_wbsm4_is_sm4 r junk key).2
    exact ⟨c, hc, C80_wbsm4_key_extraction r junk _ 0 key c hc⟩

/-- Every context with fewer than `2^31` rounds is one in memory. -/
theorem mem_of_ctx (c : Wbsm4Ctx) (h : c.rnds.length < 2 ^ 31) : ∃ m : Wbsm4Mem, m.toCtx = c ∧ loopBound m.rounds = c.rnds.length := by
  obtain ⟨rs, mode, se, fe⟩ := c
  have hl : loopBound (BitVec.ofNat 32 rs.length) = rs.length := by
    unfold loopBound
    simp only at h
    rw [BitVec.toInt_eq_toNat_cond, BitVec.toNat_ofNat, Nat.mod_eq_of_lt (by omega), if_pos (by omega)]
    rfl
  let z : WbRound := ⟨fun _ _ _ => 0, fun _ _ => 0, fun _ _ => 0, fun _ _ => 0⟩
  refine ⟨⟨BitVec.ofNat 32 rs.length, if mode = .encrypt then 1 else 0, fun
    | .mm i j k l => (rs.getD i z).mm j k l
    | .cc i j k => (rs.getD i z).cc j k
    | .dd i j k => (rs.getD i z).dd j k
    | .table i j k => (rs.getD i z).table j k
    | .se i j k => se i j k
    | .fe i j k => fe i j k⟩, ?_, hl⟩
  unfold Wbsm4Mem.toCtx
  simp only [hl, Wbsm4Ctx.mk.injEq, and_true]
  constructor
  · apply List.ext_getElem (by simp)
    intro i h1 h2
    simp only [List.getElem_map, List.getElem_range, List.getD, List.getElem?_eq_getElem h2, Option.getD_some]
  · cases mode <;> simp

theorem genRounds_length (r : Wbsm4Rnd) (rk : Sm4Ctx) (junk : Nat → WbRound) (ds : List Byte) : ∀ (i p : Nat) (flag : Bool)
    (rs : List WbRound), genRounds r rk junk ds i p flag = some rs → rs.length = ds.length := by
  induction ds with
  | nil => intro i p flag rs h; cases h; rfl
  | cons d ds ih =>
    intro i p flag rs h
    unfold genRounds at h
    by_cases hd : d = 0
    · rw [if_pos hd] at h
      by_cases hf : flag = true ∧ p < 4
      · rw [if_pos hf] at h; cases h
      · rw [if_neg hf] at h
        dsimp only at h
        generalize (if flag = true then p - 4 else p) = q at h
        by_cases hq : q < 32
        · rw [dif_pos hq] at h
          obtain ⟨rs', h', rfl⟩ := Option.map_eq_some_iff.1 h
          rw [List.length_cons, List.length_cons, ih _ _ _ _ h']
        · rw [dif_neg hq] at h; cases h
    · rw [if_neg hd] at h
      obtain ⟨rs', h', rfl⟩ := Option.map_eq_some_iff.1 h
      rw [List.length_cons, List.length_cons, ih _ _ _ _ h']

/-- A key file that meets the conditions of `C80_key_file`: no dummy rounds, any key, any random numbers. -/
example (r : Wbsm4Rnd) (junk : Nat → WbRound) (key : Block) (m0 : Wbsm4Mem) :
    ∃ m m' : Wbsm4Mem, wbsm4GenTable r junk .encrypt 0 key.toList = some m.toCtx ∧
      file2key 32 m0 (key2file m) = some (true, m') ∧ wbsm4Extract m'.toCtx = key := by
  obtain ⟨c, hc, -⟩ := (C36_wbsm4_is_sm4 r junk key).1
  have hlen : c.rnds.length = 32 := by
    obtain ⟨da, hperm, hdum, -, -⟩ := C37_dummy_rounds r junk .encrypt 0 key.toList
    have e : da = List.replicate 32 0 := by
      rw [List.replicate_zero, List.append_nil] at hperm
      exact List.perm_replicate.1 hperm
    have h := hc
    rw [wbsm4GenTable, hdum, Option.bind_some, genTableWith] at h
    obtain ⟨rs, hrs, rfl⟩ := Option.map_eq_some_iff.1 h
    show rs.length = 32
    rw [genRounds_length _ _ _ _ _ _ _ _ hrs, e]
    rfl
  obtain ⟨m, rfl, hm⟩ := mem_of_ctx c (by rw [hlen]; decide)
  rw [hlen] at hm
  obtain ⟨m', h1, h2⟩ := C80_key_file r junk .encrypt 0 key m m0 hc 32 (by omega) (by omega)
  exact ⟨m, m', hc, h1, h2⟩

end Verif.Props
