import Verif.Spec.WbaesTrace
import Verif.Props.WbaesExtract
import Verif.Props.WbTrace

/-! Property C128: what the table lookups of white-box AES show. -/
set_option autoImplicit false

namespace Verif.Props
open Verif Spec Model

/-! ### The traced encryption -/

theorem lookCombineTr_val (name : Fin 4 → Byte → WaLook) (name4 : Fin 3 → Fin 8 → Nib → Nib → WaLook) (T : Fin 4 → Byte → BitVec 32)
    (T4 : Fin 3 → Fin 8 → Nib → Nib → Nib) (s : Fin 4 → Byte) : (lookCombineTr name name4 T T4 s).val = lookCombine T T4 s := rfl

theorem wbaesColTr_val (c : WbaesTables) (s : Block) (i : Fin 9) (j : Fin 4) : (wbaesColTr c s i j).val =
    lookCombine (fun k => c.typeIII i (at4 j k)) (c.typeIVIII i j)
      (lookCombine (fun k => c.typeII i (at4 j k)) (c.typeIVII i j) fun k => s[at4 j k]) := rfl

theorem wbaesRoundTr_val (c : WbaesTables) (s : Block) (i : Fin 9) : (wbaesRoundTr c s i).val = wbaesRound c s i := by
  unfold wbaesRoundTr wbaesRound
  simp only [wl_val, wl_pure_val, wbaesColTr_val]
  congr 1
  funext m
  have h4 : ∀ t : Fin 4, t = 0 ∨ t = 1 ∨ t = 2 ∨ t = 3 := by decide
  have key : ∀ j : Fin 4, (match j with
      | 0 => (wbaesColTr c (wbShiftRows s) i 0).val (rowOf m)
      | 1 => (wbaesColTr c (wbShiftRows s) i 1).val (rowOf m)
      | 2 => (wbaesColTr c (wbShiftRows s) i 2).val (rowOf m)
      | 3 => (wbaesColTr c (wbShiftRows s) i 3).val (rowOf m)) = (wbaesColTr c (wbShiftRows s) i j).val (rowOf m) := by
    intro j
    rcases h4 j with rfl | rfl | rfl | rfl <;> rfl
  exact key (colOf m)

theorem wbaesFoldTr_val (c : WbaesTables) (l : List (Fin 9)) (s : Block) : (l.foldlM (wbaesRoundTr c) s).val = l.foldl (wbaesRound c) s := by
  induction l generalizing s with
  | nil => rfl
  | cons i l ih => rw [List.foldlM_cons, wl_val, ih, wbaesRoundTr_val, List.foldl_cons]

/-- C128: the traced encryption is the encryption. -/
theorem C128_traced (c : WbaesCtx) (x : Block) : (wbaesEncryptTr c x).val = wbaesEncrypt c x := by
  unfold wbaesEncryptTr auxWbaesEncryptTr wbaesEncrypt auxWbaesEncrypt
  simp only [wl_val, wbaesFoldTr_val]
  rfl

/-- What `waSee` keeps of a lookup. -/
def waPick (g : Byte → Byte) (j : Fin 16) : WaLook → Option Byte
  | .ii 1 j' a => if j' = j then some (g a) else none
  | _ => none

theorem waSee_pick (g : Byte → Byte) (look : Block → List WaLook) (j : Fin 16) (x : Block) :
    waSee g look j x = (look x).filterMap (waPick g j) := by
  unfold waSee
  congr 1

theorem pick_map_none {ι : Type} (g : Byte → Byte) (j : Fin 16) (l : List ι) (f : ι → WaLook) (h : ∀ i, waPick g j (f i) = none) :
    (l.map f).filterMap (waPick g j) = [] := by
  rw [List.filterMap_map]
  induction l with
  | nil => rfl
  | cons i l ih => rw [List.filterMap_cons, show (waPick g j ∘ f) i = none from h i]; exact ih

theorem pick_ii_ne (g : Byte → Byte) (j j' : Fin 16) (i : Nat) (a : Byte) (h : i ≠ 1) : waPick g j (.ii i j' a) = none := by
  unfold waPick
  split
  · rename_i e; injection e with e; omega
  · rfl

theorem pick_ii (g : Byte → Byte) (j j' : Fin 16) (a : Byte) : waPick g j (.ii 1 j' a) = if j' = j then some (g a) else none := rfl

/-- The lookups of a column. -/
theorem wbaesColTr_pick (g : Byte → Byte) (j : Fin 16) (c : WbaesTables) (s : Block) (i : Fin 9) (jc : Fin 4) :
    (wbaesColTr c s i jc).log.filterMap (waPick g j) =
      (List.finRange 4).filterMap fun k => waPick g j (.ii i.1 (at4 jc k) s[at4 jc k]) := by
  unfold wbaesColTr lookCombineTr combineTr combineBytesTr lookAt
  simp only [wl_log, List.filterMap_append]
  rw [pick_map_none _ _ _ _ (fun _ => rfl), pick_map_none _ _ _ _ (fun _ => rfl), pick_map_none _ _ _ _ (fun _ => rfl),
    pick_map_none _ _ _ _ (fun _ => rfl), pick_map_none _ _ _ _ (fun _ => rfl), pick_map_none _ _ _ _ (fun _ => rfl)]
  have hn : ∀ (l : WaLook) (h : waPick g j l = none), [l].filterMap (waPick g j) = [] := by
    intro l h; simp [h]
  rw [hn (.iii _ _ _) rfl, hn (.iii _ _ _) rfl, hn (.iii _ _ _) rfl, hn (.iii _ _ _) rfl]
  simp only [List.append_nil]
  rw [show List.finRange 4 = [0, 1, 2, 3] by decide]
  simp only [List.filterMap_cons, List.filterMap_nil]
  cases waPick g j (.ii i.1 (at4 jc 0) s[at4 jc 0]) <;> cases waPick g j (.ii i.1 (at4 jc 1) s[at4 jc 1]) <;>
    cases waPick g j (.ii i.1 (at4 jc 2) s[at4 jc 2]) <;> cases waPick g j (.ii i.1 (at4 jc 3) s[at4 jc 3]) <;> rfl

theorem wbaesRoundTr_pick (g : Byte → Byte) (j : Fin 16) (c : WbaesTables) (s : Block) (i : Fin 9) :
    (wbaesRoundTr c s i).log.filterMap (waPick g j) = if i = 1 then [g (wbShiftRows s)[j]] else [] := by
  unfold wbaesRoundTr
  simp only [wl_log, wl_pure_log, List.filterMap_append, wbaesColTr_pick, List.append_nil]
  generalize wbShiftRows s = u
  by_cases h : i = 1
  · subst h
    rw [if_pos rfl]
    simp only [show ((1 : Fin 9)).1 = 1 from rfl, pick_ii]
    have key : ∀ j : Fin 16, ((List.finRange 4).filterMap fun k => if at4 0 k = j then some (g u[at4 0 k]) else none) ++
        (((List.finRange 4).filterMap fun k => if at4 1 k = j then some (g u[at4 1 k]) else none) ++
        (((List.finRange 4).filterMap fun k => if at4 2 k = j then some (g u[at4 2 k]) else none) ++
        ((List.finRange 4).filterMap fun k => if at4 3 k = j then some (g u[at4 3 k]) else none))) = [g u[j]] := by
      intro j
      have hj : j = 0 ∨ j = 1 ∨ j = 2 ∨ j = 3 ∨ j = 4 ∨ j = 5 ∨ j = 6 ∨ j = 7 ∨ j = 8 ∨ j = 9 ∨ j = 10 ∨ j = 11 ∨ j = 12 ∨
          j = 13 ∨ j = 14 ∨ j = 15 := by omega
      rcases hj with rfl | rfl | rfl | rfl | rfl | rfl | rfl | rfl | rfl | rfl | rfl | rfl | rfl | rfl | rfl | rfl <;> rfl
    exact key j
  · rw [if_neg h]
    have h1 : i.1 ≠ 1 := fun e => h (Fin.ext e)
    simp only [pick_ii_ne _ _ _ _ _ h1, List.filterMap_none, List.append_nil]

theorem pick_fold_other (g : Byte → Byte) (j : Fin 16) (c : WbaesTables) (l : List (Fin 9)) (s : Block) (h : ∀ i ∈ l, i ≠ 1) :
    (l.foldlM (wbaesRoundTr c) s).log.filterMap (waPick g j) = [] := by
  induction l generalizing s with
  | nil => rfl
  | cons i l ih =>
    rw [List.foldlM_cons, wl_log, List.filterMap_append, ih _ fun i hi => h i (List.mem_cons_of_mem _ hi), wbaesRoundTr_pick,
      if_neg (h i (List.mem_cons_self ..))]
    rfl

/-- What is seen is what goes into the second round. -/
theorem waSee_eq (g : Byte → Byte) (c : WbaesCtx) (j : Fin 16) (x : Block) :
    waSee g (fun x => (wbaesEncryptTr c x).log) j x =
      [g (wbShiftRows (wbaesRound c.tab (Vector.ofFn fun i => c.tab.typeIa i x[i]) 0))[j]] := by
  rw [waSee_pick]
  unfold wbaesEncryptTr auxWbaesEncryptTr
  simp only [wl_log, List.filterMap_append]
  rw [show (bytesTr .ia c.tab.typeIa x).log.filterMap (waPick g j) = [] from pick_map_none _ _ _ _ (fun _ => rfl)]
  rw [show ∀ s, (bytesTr .ib c.typeIb s).log.filterMap (waPick g j) = [] from fun s => pick_map_none _ _ _ _ (fun _ => rfl)]
  rw [show ∀ s, (bytesTr (.ii 9) (fun j x => (c.tab.typeII9 j x).truncate 8) s).log.filterMap (waPick g j) = [] from
    fun s => pick_map_none _ _ _ _ (fun _ => rfl)]
  rw [show List.finRange 9 = 0 :: 1 :: [2, 3, 4, 5, 6, 7, 8] by decide, List.foldlM_cons, wl_log,
    List.foldlM_cons, wl_log, List.filterMap_append, List.filterMap_append]
  rw [pick_fold_other g j c.tab [2, 3, 4, 5, 6, 7, 8] _ (by decide), wbaesRoundTr_pick, if_neg (by decide), wbaesRoundTr_pick, if_pos rfl,
    wbaesRoundTr_val]
  rfl

/-! ### The key from what is seen -/

/-- A nibble that is an additive, not constant function of the S-box output has a period as a function of `1 / (x + k)` exactly if
`k` is the key. -/
theorem seen_period_iff {α : Type} (φ : Byte → BitVec 4) (hφ : ∀ x y, φ (x ^^^ y) = φ x ^^^ φ y) (h1 : ∃ z, φ z ≠ 0) (ψ : Byte → α)
    (key k : Byte) (hψ : ∀ a b, ψ a = ψ b ↔ φ (aesInv (a ^^^ key) ^^^ aesInv (b ^^^ key)) = 0) :
    (∃ w : Byte, w ≠ 0 ∧ ∀ t, ψ (aesInv t ^^^ k) = ψ (aesInv (t ^^^ w) ^^^ k)) ↔ k = key := by
  constructor
  · rintro ⟨w, hw, hp⟩
    rcases Classical.em (k = key) with e | e
    · exact e
    · exfalso
      have hd : k ^^^ key ≠ 0 := fun h0 => e (BitVec.xor_eq_zero_iff.1 h0)
      obtain ⟨z, hz⟩ := h1
      apply hz
      apply spanning_all (k ^^^ key) hd w hw φ hφ
      intro t
      have := (hψ _ _).1 (hp t)
      rwa [BitVec.xor_assoc, BitVec.xor_assoc] at this
  · rintro rfl
    obtain ⟨w, hw, h0⟩ := additive_kernel φ hφ
    refine ⟨w, hw, fun t => ?_⟩
    rw [hψ, BitVec.xor_assoc, BitVec.xor_assoc, BitVec.xor_self, BitVec.xor_zero, BitVec.xor_zero, aesInv_inv, aesInv_inv,
      ← BitVec.xor_assoc, BitVec.xor_self, BitVec.zero_xor, h0]

/-- What a byte of the state after the first round has in its upper nibble. -/
theorem first_round_hi (r : WbaesRnd) (ro : Fin 16 → Fin 2 → Nat → BitVec 32) (key x : Block) (m : Fin 16) :
    hiNib (wbaesRound (wbaesGenTable r ro key).tab (Vector.ofFn fun i => (wbaesGenTable r ro key).tab.typeIa i x[i]) 0)[m] =
      (r.enc.outIVIII2 0 (colOf m) (nibHi (rowOf m))).fwd
        (hiNib (matMulNum (r.enc.L 0 m).mat (mixColumns (aesShiftRows (subBytes (x ^^^ key))))[m])) := by
  have hE := enc_ok r
  have h := round_spec r.enc hE r.junkKey key (outNibs fun j k => genNib (ro j k) r.junkPerm) 0
    (Vector.ofFn fun i => (wbaesGenTable r ro key).tab.typeIa i x[i]) x (by
      intro m
      rw [Fin.getElem_fin, Vector.getElem_ofFn]
      exact typeIa_dec r.enc hE (shiftKeys (expandKey r.junkKey key)) _ m x[m]) m
  rw [show ((0 : Fin 9)).1 = 0 from rfl, roundKey_zero] at h
  rw [← h, WbaesEnc.dec, dif_pos (by decide)]
  show _ = (r.enc.outIVIII2 0 (colOf m) (nibHi (rowOf m))).fwd (hiNib (matMulNum (r.enc.L 0 m).mat (r.enc.decMid 0 m _)))
  rw [WbaesEnc.decMid, (hE.L 0 m).2, hiNib_join, (hE.outIVIII2 _ _ _).2]
  rfl

theorem oneByte_get (s m : Fin 16) (x : Byte) : (oneByteText s x)[m] = if m = s then x else 0 := by
  rw [oneByteText, Fin.getElem_fin, Vector.getElem_ofFn]

theorem shift_col : ∀ a b c : Fin 4, shiftTab[at4 a (b + c)] = shiftTab[at4 a b] → c = 0 := by decide

/-- A byte of MixColumns. -/
theorem mix_row (y : Block) (j t : Fin 4) :
    (mixColumns y)[at4 j t] = aesMul 2 y[at4 j t] ^^^ aesMul 3 y[at4 j (t + 1)] ^^^ y[at4 j (t + 2)] ^^^ y[at4 j (t + 3)] := by
  have h4 : ∀ t : Fin 4, t = 0 ∨ t = 1 ∨ t = 2 ∨ t = 3 := by decide
  rw [mixColumns, Fin.getElem_fin, Vector.getElem_ofFn]
  rcases h4 j with rfl | rfl | rfl | rfl <;> rcases h4 t with rfl | rfl | rfl | rfl <;> rfl

/-- The byte of the first round that the byte `x` at `s` is doubled into. -/
theorem mix_one_byte (key : Block) (s : Fin 16) : ∃ R : Byte, ∀ x,
    (mixColumns (aesShiftRows (subBytes (oneByteText s x ^^^ key))))[unshiftTab[s]] = xtime (aesLin (aesInv (x ^^^ key[s]))) ^^^ R := by
  have hcol : ∀ s : Fin 16, ∃ j t, unshiftTab[s] = at4 j t := fun s => ⟨_, _, (at4_cr _).symm⟩
  obtain ⟨j, t, hjt⟩ := hcol s
  have hs : shiftTab[at4 j t] = s := (congrArg (fun i : Fin 16 => shiftTab[i]) hjt).symm.trans (shift_unshift s)
  have hm := fun y : Block => mix_row y j t
  have hy : ∀ x (m : Fin 16), (aesShiftRows (subBytes (oneByteText s x ^^^ key)))[m] =
      aesSbox ((if shiftTab[m] = s then x else 0) ^^^ key[shiftTab[m]]) := by
    intro x m
    rw [aesShiftRows_get, subBytes, Fin.getElem_fin, Vector.getElem_ofFn]
    simp only [Fin.getElem_fin]
    rw [Vec.getElem_xor]
    have := oneByte_get s shiftTab[m] x
    simp only [Fin.getElem_fin] at this
    rw [this]
  have hne : ∀ (d : Fin 4), d ≠ 0 → shiftTab[at4 j (t + d)] ≠ s := by
    intro d hd h
    exact hd (shift_col j t d (h.trans hs.symm))
  refine ⟨aesMul 2 0x63 ^^^ aesMul 3 (aesSbox (0 ^^^ key[shiftTab[at4 j (t + 1)]])) ^^^ aesSbox (0 ^^^ key[shiftTab[at4 j (t + 2)]]) ^^^
    aesSbox (0 ^^^ key[shiftTab[at4 j (t + 3)]]), fun x => ?_⟩
  have e0 : (mixColumns (aesShiftRows (subBytes (oneByteText s x ^^^ key))))[unshiftTab[s]] =
      (mixColumns (aesShiftRows (subBytes (oneByteText s x ^^^ key))))[at4 j t] := by
    simp only [hjt]
  rw [e0, hm, hy, hy, hy, hy, if_pos hs, if_neg (hne 1 (by decide)), if_neg (hne 2 (by decide)), if_neg (hne 3 (by decide))]
  have e1 : key[shiftTab[at4 j t]] = key[s] := by simp only [hs]
  rw [e1, aesSbox_lin (x ^^^ key[s]), (aesMul_two_three _).1, (aesMul_two_three 0x63).1, xtime_xor]
  ac_rfl

theorem xtime_onto (z : Byte) : ∃ v : Byte, xtime (aesLin v) = z := by
  have h : ∀ z : BitVec 8, ((List.finRange 256).any fun v => xtime (aesLin (BitVec.ofFin v)) == z) = true := by decide +kernel
  obtain ⟨v, -, hv⟩ := List.any_eq_true.1 (h z)
  exact ⟨_, eq_of_beq hv⟩

theorem hiNib_xor (x y : Byte) : hiNib (x ^^^ y) = hiNib x ^^^ hiNib y := by
  unfold hiNib
  ext i hi
  simp

/-- C128: someone who lets a white-box AES context encrypt texts of their choice and sees of each lookup in `TypeII[1]` in which
sixteenth of its table it was finds the key, whatever the random numbers of the tables were. `g` is any view that distinguishes
exactly the sixteenths. -/
theorem C128_wbaes_key (g : Byte → Byte) (hg : ∀ a b, g a = g b ↔ hiNib a = hiNib b) (r : WbaesRnd)
    (ro : Fin 16 → Fin 2 → Nat → BitVec 32) (key : Block) :
    waKey (waSee g fun x => (wbaesEncryptTr (wbaesGenTable r ro key) x).log) = key := by
  have hE := enc_ok r
  have hkey : ∀ (s : Fin 16) (k : Byte), seenPeriod (waSee g fun x => (wbaesEncryptTr (wbaesGenTable r ro key) x).log) s k = true ↔ k = key[s] := by
    intro s k
    obtain ⟨R, hR⟩ := mix_one_byte key s
    have hm := hE.L 0 unshiftTab[s]
    have hx := seen_period_iff (fun z => hiNib (matMulNum (r.enc.L 0 unshiftTab[s]).mat (xtime (aesLin z))))
      (fun x y => by simp only [aesLin_xor, xtime_xor, matMulNum_xor, hiNib_xor])
      (by
        obtain ⟨v, hv⟩ := xtime_onto (matMulNum (r.enc.L 0 unshiftTab[s]).inv 0x80)
        refine ⟨v, ?_⟩
        simp only [hv, hm.2]
        decide)
      (fun a => waSee g (fun x => (wbaesEncryptTr (wbaesGenTable r ro key) x).log) unshiftTab[unshiftTab[s]] (oneByteText s a)) key[s] k (by
        intro a b
        simp only [waSee_eq, List.cons.injEq, and_true, hg]
        have hsh : ∀ u : Block, (wbShiftRows u)[unshiftTab[unshiftTab[s]]] = u[unshiftTab[s]] := by
          intro u
          have := congrArg (fun i : Fin 16 => u[i]) (shift_unshift unshiftTab[s])
          rw [wbShiftRows, Fin.getElem_fin, Vector.getElem_ofFn]
          exact this
        rw [hsh, hsh, first_round_hi, first_round_hi, hR, hR]
        have inj : ∀ (p : NibPerm), p.Ok → ∀ x y, p.fwd x = p.fwd y ↔ x = y := fun p hp x y =>
          ⟨fun h => by rw [← hp.1 x, h, hp.1], fun h => by rw [h]⟩
        rw [inj _ (hE.outIVIII2 _ _ _), matMulNum_xor, matMulNum_xor, hiNib_xor, hiNib_xor, BitVec.xor_left_inj, aesLin_xor, xtime_xor,
          matMulNum_xor, hiNib_xor]
        exact BitVec.xor_eq_zero_iff.symm)
    rw [← hx, seenPeriod]
    constructor
    · intro h
      obtain ⟨w, -, hw⟩ := List.any_eq_true.1 h
      rw [Bool.and_eq_true, bne_iff_ne] at hw
      exact ⟨w, hw.1, fun t => eq_of_beq (List.all_eq_true.1 hw.2 t (mem_eachByte t))⟩
    · rintro ⟨w, hw, ht⟩
      refine List.any_eq_true.2 ⟨w, mem_eachByte w, ?_⟩
      rw [Bool.and_eq_true, bne_iff_ne]
      exact ⟨hw, List.all_eq_true.2 fun t _ => beq_iff_eq.2 (ht t)⟩
  apply Vector.ext
  intro s hs
  rw [waKey, Vector.getElem_ofFn]
  have hk := hkey ⟨s, hs⟩
  cases hf : eachByte.find? fun k => seenPeriod (waSee g fun x => (wbaesEncryptTr (wbaesGenTable r ro key) x).log) ⟨s, hs⟩ k with
  | none => exact absurd ((hk _).2 rfl) (List.find?_eq_none.1 hf _ (mem_eachByte _))
  | some k =>
    have h := List.find?_some (p := fun k => seenPeriod (waSee g fun x => (wbaesEncryptTr (wbaesGenTable r ro key) x).log) ⟨s, hs⟩ k) hf
    exact (hk k).1 h

/-- C128 (entries): the key from the entries that are looked up, of which the upper nibble is used. -/
theorem C128_entries (r : WbaesRnd) (ro : Fin 16 → Fin 2 → Nat → BitVec 32) (key : Block) :
    waKey (waSee (fun a => a &&& 0xf0) fun x => (wbaesEncryptTr (wbaesGenTable r ro key) x).log) = key := by
  apply C128_wbaes_key
  intro a b
  constructor
  · intro h
    have e : ∀ a : BitVec 8, hiNib a = hiNib (a &&& 0xf0#8) := by decide +kernel
    exact (e a).trans ((congrArg hiNib h).trans (e b).symm)
  · intro h
    have e : ∀ a : BitVec 8, a &&& 0xf0#8 = (hiNib a).zeroExtend 8 <<< 4 := by decide +kernel
    exact (e a).trans ((congrArg (fun n : Nib => n.zeroExtend 8 <<< 4) h).trans (e b).symm)

/-- C128 (cache lines): the key from the cache lines, if the tables begin with one. -/
theorem C128_cache_lines (r : WbaesRnd) (ro : Fin 16 → Fin 2 → Nat → BitVec 32) (key : Block) :
    waKey (waSee (cacheLine 4 0) fun x => (wbaesEncryptTr (wbaesGenTable r ro key) x).log) = key := by
  apply C128_wbaes_key
  intro a b
  have e : ∀ a : BitVec 8, cacheLine 4 0 a = (hiNib a).zeroExtend 8 := by decide +kernel
  have inj : ∀ x y : BitVec 4, x.zeroExtend 8 = y.zeroExtend 8 → x = y := by decide +kernel
  rw [e a, e b]
  exact ⟨inj _ _, fun h => by rw [h]⟩

/-- C128 (different keys look different): for two different keys, whatever the random numbers, there is a text with at most one byte
that is not zero for which a cache line is different. -/
theorem C128_keys_differ (r r' : WbaesRnd) (ro ro' : Fin 16 → Fin 2 → Nat → BitVec 32) (key key' : Block) (h : key ≠ key') :
    ∃ (s : Fin 16) (a : Byte) (j : Fin 16),
      waSee (cacheLine 4 0) (fun x => (wbaesEncryptTr (wbaesGenTable r ro key) x).log) j (oneByteText s a) ≠
        waSee (cacheLine 4 0) (fun x => (wbaesEncryptTr (wbaesGenTable r' ro' key') x).log) j (oneByteText s a) := by
  rcases Classical.em (∃ (s : Fin 16) (a : Byte) (j : Fin 16),
      waSee (cacheLine 4 0) (fun x => (wbaesEncryptTr (wbaesGenTable r ro key) x).log) j (oneByteText s a) ≠
        waSee (cacheLine 4 0) (fun x => (wbaesEncryptTr (wbaesGenTable r' ro' key') x).log) j (oneByteText s a)) with hc | hc
  · exact hc
  · exfalso
    apply h
    rw [← C128_cache_lines r ro key, ← C128_cache_lines r' ro' key']
    have e : ∀ (s : Fin 16) (a : Byte) (j : Fin 16),
        waSee (cacheLine 4 0) (fun x => (wbaesEncryptTr (wbaesGenTable r ro key) x).log) j (oneByteText s a) =
          waSee (cacheLine 4 0) (fun x => (wbaesEncryptTr (wbaesGenTable r' ro' key') x).log) j (oneByteText s a) :=
      fun s a j => Classical.byContradiction fun hn => hc ⟨s, a, j, hn⟩
    unfold waKey seenPeriod
    simp only [e]

/-- A context made with the random numbers 1, 2, 3, ... gives away its key. -/
example (key : Block) : waKey (waSee (cacheLine 4 0) fun x => (wbaesEncryptTr (wbaesGenTable
    { L := fun _ _ n => BitVec.ofNat 32 (n + 1), MB := fun _ _ n => BitVec.ofNat 32 (n + 1), exIn := fun _ n => BitVec.ofNat 32 (n + 1),
      exOut := fun _ n => BitVec.ofNat 32 (n + 1), outII := fun _ _ _ n => BitVec.ofNat 32 (n + 1),
      outIII := fun _ _ _ n => BitVec.ofNat 32 (n + 1), outIVII1 := fun _ _ _ n => BitVec.ofNat 32 (n + 1),
      outIVIII1 := fun _ _ _ n => BitVec.ofNat 32 (n + 1), outIVII2 := fun _ _ _ n => BitVec.ofNat 32 (n + 1),
      outIVIII2 := fun _ _ _ n => BitVec.ofNat 32 (n + 1), inII := fun _ _ n => BitVec.ofNat 32 (n + 1),
      junkPerm := Vector.replicate 16 0, junkKey := fun _ => 0 } (fun _ _ n => BitVec.ofNat 32 (n + 1)) key) x).log) = key :=
  C128_cache_lines _ _ key

end Verif.Props
