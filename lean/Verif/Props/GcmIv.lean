import Verif.Spec.GcmIv
import Verif.Props.GcmAuth

/-! Property C100: IVs of GCM — empty, missing, colliding and very long ones. -/
set_option autoImplicit false

namespace Verif.Props
open Verif Verif.Model Verif.Spec Polynomial

/-! ### the empty IV -/

theorem j0_empty (E : Block → Block) : j0 E [] = 0#128 := by
  rw [j0, if_neg (by simp)]
  show gfMul (0 ^^^ BitVec.ofNat 128 0) (hashKey E) = 0#128
  exact gfMul_zero _

theorem ofBV_zero : ofBV 0#128 = zeroBlock := by decide

/-- C100: with an empty IV the tag of the empty message is the hash key, in fresh and in used contexts. -/
theorem C100_empty_iv_tag (E : Block → Block) (ops : List GcmOp) (c : GcmCtx) (hc : runOps (gcmInit E) ops = some c)
    (n : Nat) (hn : n ≤ 16) : sealMsg c [] [] [] [] 0 n = some (1, [], (E zeroBlock).toList.take n) := by
  rw [(C16_reuse E ops c hc [] [] [] [] 0 n).1,
    seal_eq (gcmInit E) (init_ok E) [] [] [] [] 0 n hn (by simp) (by simp) (by simp) (by simp) (by simp), gcmInit_block]
  have h1 : gcmCipher E [] [] = [] := gctr_nil _ _
  have h2 : gcmTag E [] [] [] = E zeroBlock := by
    apply toBV_injective
    rw [gcmTag_blocks, j0_empty, ofBV_zero]
    have : ghash (toBV (E zeroBlock)) (gcmBlocks [] []) = 0 := by
      show gfMul (0 ^^^ (BitVec.ofNat 64 0 ++ BitVec.ofNat 64 0)) _ = 0
      rw [show (0 ^^^ (BitVec.ofNat 64 0 ++ BitVec.ofNat 64 0) : BitVec 128) = 0 by decide]
      exact gfMul_zero _
    rw [this]
    exact BitVec.xor_zero
  rw [h1, h2]
  rfl

/-- C100: so that tag and a single tag under any IV give the tags of all messages under that IV: one function computes them
for all ciphers. -/
theorem C100_empty_iv_forge : ∃ f : List Byte → List Byte → List Byte → List Byte → List Byte → List Byte → List Byte,
    ∀ (E : Block → Block) (iv a c a' c' h t o p out out' : List Byte) (outlen outlen' : Nat),
      iv.length < 2 ^ 29 → a.length < 2 ^ 61 → c.length < 2 ^ 31 → a'.length < 2 ^ 61 → c'.length < 2 ^ 31 →
      c.length ≤ outlen → outlen ≤ out.length → c'.length ≤ outlen' → outlen' ≤ out'.length →
      sealMsg (gcmInit E) [] [] [] [] 0 16 = some (1, o, h) →
      openMsg (gcmInit E) iv a c out outlen 16 = some (1, p, t) →
      ∃ p', openMsg (gcmInit E) iv a' c' out' outlen' 16 = some (1, p', f h t a c a' c') := by
  refine ⟨fun h t a c a' c' => (forgeTag (Vector.ofFn fun i => h.getD i.1 0) a c (Vector.ofFn fun i => t.getD i.1 0) a' c').toList, ?_⟩
  intro E iv a c a' c' h t o p out out' outlen outlen' hiv ha hc ha' hc' h1 h2 h3 h4 hs ho
  have hH := C100_empty_iv_tag E [] (gcmInit E) rfl 16 (by omega)
  rw [hH] at hs
  simp only [Option.some.injEq, Prod.mk.injEq, true_and] at hs
  have back : ∀ x : Block, (Vector.ofFn fun i => (x.toList.take 16).getD i.1 0 : Block) = x := by
    intro x
    apply Vector.ext
    intro i hi
    simp [List.getD_eq_getElem?_getD]
  have ht : ∃ T : Block, t = T.toList.take 16 := by
    rw [open_eq E iv a c out outlen 16 (by omega) hiv ha hc h1 h2] at ho
    simp only [Option.some.injEq, Prod.mk.injEq, true_and] at ho
    exact ⟨_, ho.2.symm⟩
  obtain ⟨T, rfl⟩ := ht
  rw [← hs.2]
  simp only [back]
  have hT : (T.toList.take 16) = T.toList := List.take_of_length_le (by simp)
  rw [hT] at ho
  exact C90_forge E iv a c a' c' out out' p outlen outlen' T hiv ha hc ha' hc' h1 h2 h3 h4 ho

/-- C100: under the empty IV no tag of a message need be seen at all: the hash key is also the mask. -/
theorem C100_empty_iv_tags (E : Block → Block) (a c out : List Byte) (outlen : Nat) (ha : a.length < 2 ^ 61)
    (hc : c.length < 2 ^ 31) (h1 : c.length ≤ outlen) (h2 : outlen ≤ out.length) :
    ∃ p, openMsg (gcmInit E) [] a c out outlen 16 =
      some (1, p, (E zeroBlock ^^^ ofBV (ghash (toBV (E zeroBlock)) (gcmBlocks a c))).toList) := by
  refine ⟨gcmCipher E [] c ++ out.drop c.length, ?_⟩
  rw [open_eq E [] a c out outlen 16 (by omega) (by simp) ha hc h1 h2]
  congr 3
  rw [List.take_of_length_le (by simp)]
  congr 1
  apply toBV_injective
  rw [gcmTag_blocks, j0_empty, ofBV_zero, toBV_xor, toBV_ofBV]

/-! ### no `setiv` at all -/

/-- A message through a context without `setiv`: aad, encrypt, finish. -/
def sealNoIv (c : GcmCtx) (aad p out : List Byte) (outlen taglen : Nat) : Option (Nat × List Byte × List Byte) := do
  let r ← gcmEncrypt (gcmAad c aad) p out outlen
  let t ← gcmFinish r.ctx taglen
  return (r.ret, r.out, t.1)

theorem noIv_eq (E : Block → Block) (aad p out : List Byte) (outlen n : Nat) (hn : n ≤ 16) (ha : aad.length < 2 ^ 61)
    (hp : p.length < 2 ^ 31) (ho : p.length ≤ outlen) (hb : outlen ≤ out.length) :
    sealNoIv (gcmInit E) aad p out outlen n = some (1, gcmCipher E [] p ++ out.drop p.length,
      (ofBV (ghash (hashKey E) (gcmBlocks aad (gcmCipher E [] p)))).toList.take n) := by
  have hout : gctr E (inc32 (toBV zeroBlock)) p = gcmCipher E [] p := by
    rw [gcmCipher, j0_empty, toBV_zero]
    rfl
  have hlen : (gcmCipher E [] p).length = p.length := length_gctr _ _ _
  rw [sealNoIv, gcmEncrypt_eq _ p out outlen hp ho hb]
  show (do let t ← gcmFinish _ n; pure (1, gctr E (inc32 (toBV zeroBlock)) p ++ _, t.1)) = _
  rw [hout]
  set_option linter.unusedVariables false in
  obtain ⟨c', hc'⟩ := finish_eq
    { gcmAad (gcmInit E) aad with
      len := (gcmAad (gcmInit E) aad).len + BitVec.ofNat 64 p.length,
      y := ((chunks p).foldl (encPiece (gcmAad (gcmInit E) aad))
        ((gcmAad (gcmInit E) aad).y, (gcmAad (gcmInit E) aad).buf, [])).1,
      buf := ((chunks p).foldl (encPiece (gcmAad (gcmInit E) aad))
        ((gcmAad (gcmInit E) aad).y, (gcmAad (gcmInit E) aad).buf, [])).2.1 }
    (h := hashKey E) (init_ok E) n hn
    (by
      intro h1 h2
      have h1' : (0 + BitVec.ofNat 64 p.length) * 8 = 0 := h1
      have h2' : BitVec.ofNat 64 aad.length * 8 = 0 := h2
      rw [show (0 : BitVec 64) = 0#64 from rfl, BitVec.zero_add] at h1'
      have e1 := List.length_eq_zero_iff.mp (mul8_eq_zero (by omega) h1')
      have e2 := List.length_eq_zero_iff.mp (mul8_eq_zero ha h2')
      subst e1 e2
      rfl)
  rw [hc']
  simp only [Option.pure_def, Option.bind_eq_bind, Option.bind_some]
  congr 5
  show zeroBlock ^^^ _ = _
  apply toBV_injective
  rw [toBV_xor, toBV_zero, show (0 : BitVec 128) = 0#128 from rfl, BitVec.zero_xor, toBV_ofBV, toBV_ofBV]
  rw [fold_enc_buf (gcmAad (gcmInit E) aad) (h := hashKey E) (init_ok E)]
  have hbuf : toBV (gcmAad (gcmInit E) aad).buf = ghashFrom (hashKey E) 0 ((chunks aad).map padBV) := by
    show toBV (absorb (gcmInit E).HL (gcmInit E).HH zeroBlock aad) = _
    rw [absorb_eq (init_ok E)]; rfl
  rw [hbuf]
  show gfMul (ghashFrom _ _ ((chunks (gctr E (inc32 (toBV zeroBlock)) p)).map padBV) ^^^
    ((BitVec.ofNat 64 aad.length * 8) ++ ((0 + BitVec.ofNat 64 p.length) * 8))) _ = _
  rw [hout, ghash, gcmBlocks, ghashFrom_append, ghashFrom_append, show (0 : BitVec 64) = 0#64 from rfl, BitVec.zero_add, ofNat_mul8,
    ofNat_mul8, lenBlock, hlen]
  rfl

/-- C100: without `setiv` everything reports success; the ciphertext is the one under the empty IV, and the tag is the bare hash
without the mask `E(J0)`. -/
theorem C100_no_setiv (E : Block → Block) (aad p out : List Byte) (outlen n : Nat) (hn : n ≤ 16) (ha : aad.length < 2 ^ 61)
    (hp : p.length < 2 ^ 31) (ho : p.length ≤ outlen) (hb : outlen ≤ out.length) :
    ∃ o t, sealMsg (gcmInit E) [] aad p out outlen 16 = some (1, o, t) ∧
      sealNoIv (gcmInit E) aad p out outlen n =
        some (1, o, (List.zipWith (fun a b => a ^^^ b) t (E zeroBlock).toList).take n) := by
  refine ⟨_, _, C12_gcm_nist E [] aad p out outlen (by simp) ha hp ho hb, ?_⟩
  rw [noIv_eq E aad p out outlen n hn ha hp ho hb, ← xor_toList]
  congr 4
  congr 1
  apply toBV_injective
  rw [toBV_ofBV, toBV_xor, gcmTag_blocks, j0_empty, ofBV_zero]
  rw [hashKey, BitVec.xor_comm (toBV (E zeroBlock)), BitVec.xor_assoc, BitVec.xor_self, BitVec.xor_zero]

/-- C100: without `setiv` the tag of 16 zero bytes of AAD determines the hash key: one function finds it for all ciphers. -/
theorem C100_no_setiv_key : ∃ f : List Byte → Block, ∀ (E : Block → Block) (o t : List Byte),
    sealNoIv (gcmInit E) (List.replicate 16 0) [] [] 0 16 = some (1, o, t) → E zeroBlock = f t := by
  let L : BitVec 128 := BitVec.ofNat 64 128 ++ BitVec.ofNat 64 0
  obtain ⟨b, hb⟩ := Gf.exists_inv ⟨L⟩ (fun h => absurd (congrArg Gf.val h) (by decide))
  have hinv : gfMul L b.val = gfOne := by
    have := congrArg Gf.val hb
    rw [Gf.val_mul, Gf.val_one] at this
    exact this
  refine ⟨fun t => ofBV (gfMul (padBV t) b.val), ?_⟩
  intro E o t h
  rw [noIv_eq E _ _ _ _ 16 (by omega) (by simp) (by simp) (by simp) (by simp)] at h
  simp only [Option.some.injEq, Prod.mk.injEq, true_and] at h
  have hg : ghash (hashKey E) (gcmBlocks (List.replicate 16 0) (gcmCipher E [] [])) = gfMul L (hashKey E) := by
    have h1 : gcmCipher E [] [] = [] := gctr_nil _ _
    rw [h1]
    have h2 : chunks (List.replicate 16 (0 : Byte)) = [List.replicate 16 0] := chunks_short _ (by simp) (by simp)
    have h3 : gcmBlocks (List.replicate 16 0) [] = [0#128, L] := by
      rw [gcmBlocks, h2]
      decide
    rw [h3]
    show gfMul (gfMul (0 ^^^ 0#128) _ ^^^ L) _ = _
    rw [show (0 ^^^ 0#128 : BitVec 128) = 0#128 from rfl, gf_zero_mul, BitVec.zero_xor]
  rw [← h.2, List.take_of_length_le (by simp)]
  show _ = ofBV (gfMul (padBV _) b.val)
  rw [padBV_toList, toBV_ofBV, hg]
  apply toBV_injective
  rw [toBV_ofBV, gfMul_comm L, gfMul_assoc, hinv, gfMul_one]
  rfl

/-! ### which IVs collide -/

/-- The first counter block as a polynomial in the hash key. -/
noncomputable def jp (iv : List Byte) : Gf[X] :=
  if iv.length = 12 then C ⟨padBV (iv ++ [0, 0, 0, 1])⟩
  else hp ((chunks iv).map padBV ++ [BitVec.ofNat 128 (8 * iv.length)])

theorem jp_eval (E : Block → Block) (iv : List Byte) : (jp iv).eval ⟨toBV (E zeroBlock)⟩ = ⟨j0 E iv⟩ := by
  rw [jp, j0]
  split
  · rw [eval_C]
  · rw [hp_eval]; rfl

theorem jp_degree (iv : List Byte) : (jp iv).natDegree ≤ ivBlockCount iv := by
  rw [jp, ivBlockCount]
  split
  · simp
  · refine (hp_degree _).trans ?_
    simp [chunks_count]

theorem padBV_ctr_ne (iv : List Byte) (h : iv.length = 12) : padBV (iv ++ [0, 0, 0, 1]) ≠ 0#128 := by
  intro h0
  have h1 := congrArg (fun v : BitVec 128 => (ofBV v)[15]) h0
  rw [padBV, ofBV_toBV, ofBV_zero] at h1
  simp only [Vector.getElem_ofFn] at h1
  rw [List.getD_eq_getElem?_getD, List.getElem?_append_right (by omega), h] at h1
  exact absurd h1 (show ¬(1 : Byte) = 0 by decide)

theorem jp_inj (iv iv' : List Byte) (h1 : iv.length < 2 ^ 29) (h2 : iv'.length < 2 ^ 29) (h : jp iv = jp iv') : iv = iv' := by
  have h0 := congrArg (eval 0) h
  rw [jp, jp] at h h0
  by_cases ha : iv.length = 12 <;> by_cases hb : iv'.length = 12
  · rw [if_pos ha, if_pos hb, eval_C, eval_C] at h0
    have := padBV_inj _ _ (by simp [ha, hb]) (by simp [ha]) (congrArg Gf.val h0)
    exact List.append_cancel_right this
  · rw [if_pos ha, if_neg hb, eval_C, hp_eval_zero] at h0
    exact absurd (congrArg Gf.val h0) (padBV_ctr_ne iv ha)
  · rw [if_neg ha, if_pos hb, eval_C, hp_eval_zero] at h0
    exact absurd (congrArg Gf.val h0).symm (padBV_ctr_ne iv' hb)
  · rw [if_neg ha, if_neg hb] at h
    obtain ⟨e1, e2⟩ := hp_last _ _ _ _ h
    have hl : iv.length = iv'.length := by
      have := congrArg BitVec.toNat e1
      simp only [BitVec.toNat_ofNat] at this
      omega
    exact pads_inj _ _ hl (hp_injective _ _ _ rfl (by simp [chunks_count, hl]) e2)

/-- The hash keys under which two IVs have the same first counter block. -/
noncomputable def ivRoots (iv iv' : List Byte) : List Block := ((jp iv + jp iv').roots.toList.map Gf.val).map ofBV

/-- C100: the hash keys for which two different IVs give the same first counter block are exactly the elements of a list that
depends on the IVs only; its length is at most the number of blocks hashed for the longer one. -/
theorem C100_iv_collisions (iv iv' : List Byte) (h1 : iv.length < 2 ^ 29) (h2 : iv'.length < 2 ^ 29) (hne : iv ≠ iv') :
    ∃ S : List Block, S.length ≤ max (ivBlockCount iv) (ivBlockCount iv') ∧
      ∀ (E : Block → Block) (ops ops' : List GcmOp) (c c' : GcmCtx), runOps (gcmInit E) ops = some c →
        runOps (gcmInit E) ops' = some c' → ((gcmSetiv c iv).y = (gcmSetiv c' iv').y ↔ E zeroBlock ∈ S) := by
  have hq : jp iv + jp iv' ≠ 0 := by
    intro h0
    have h3 : jp iv' + jp iv' = 0 := by
      ext n
      rw [coeff_add, Gf.add_self, coeff_zero]
    rw [← h3] at h0
    exact hne (jp_inj iv iv' h1 h2 (add_right_cancel h0))
  refine ⟨ivRoots iv iv', ?_, ?_⟩
  · rw [ivRoots, List.length_map, List.length_map, Multiset.length_toList]
    refine (card_roots' _).trans ((natDegree_add_le _ _).trans ?_)
    exact max_le_max (jp_degree _) (jp_degree _)
  · intro E ops ops' c c' hc hc'
    have hy : ∀ (ops : List GcmOp) (c : GcmCtx) (iv : List Byte), iv.length < 2 ^ 29 → runOps (gcmInit E) ops = some c →
        toBV (gcmSetiv c iv).y = j0 E iv := by
      intro ops c iv hl hc
      obtain ⟨a, b, d, _⟩ := runOps_keeps ops _ _ 0 hc rfl
      have : (gcmSetiv c iv).y = (gcmSetiv (gcmInit E) iv).y := by
        unfold gcmSetiv
        simp only [a, b]
      rw [this, setiv_y _ (init_ok E) iv hl, gcmInit_block]
    have he : (gcmSetiv c iv).y = (gcmSetiv c' iv').y ↔ j0 E iv = j0 E iv' := by
      rw [← hy ops c iv h1 hc, ← hy ops' c' iv' h2 hc']
      exact ⟨fun h => congrArg toBV h, fun h => toBV_injective h⟩
    have hr : (jp iv + jp iv').eval (⟨toBV (E zeroBlock)⟩ : Gf) = 0 ↔ j0 E iv = j0 E iv' := by
      rw [eval_add, jp_eval, jp_eval]
      constructor
      · intro h0
        have := congrArg Gf.val h0
        rw [Gf.val_add, Gf.val_zero] at this
        exact BitVec.xor_eq_zero_iff.mp this
      · intro h0
        apply Gf.ext
        rw [Gf.val_add, Gf.val_zero]
        exact BitVec.xor_eq_zero_iff.mpr h0
    rw [he, ← hr, ivRoots, List.map_map, List.mem_map]
    constructor
    · intro h
      refine ⟨⟨toBV (E zeroBlock)⟩, ?_, ofBV_toBV _⟩
      rw [Multiset.mem_toList, mem_roots hq]
      exact h
    · rintro ⟨⟨x⟩, hx, h⟩
      rw [Multiset.mem_toList, mem_roots hq] at hx
      have : toBV (E zeroBlock) = x := by
        rw [← h]
        exact toBV_ofBV _
      rw [this]
      exact hx

/-- C100: different 12-byte IVs share no cipher input at all: the first counter blocks and the blocks of the key streams of two
messages of any lengths are disjoint, whatever was done with the contexts before. -/
theorem C100_iv12_disjoint (c c' : GcmCtx) (iv iv' p p' out out' : List Byte) (outlen outlen' : Nat) (hiv : iv.length = 12)
    (hiv' : iv'.length = 12) (hne : iv ≠ iv') (hp : p.length < 2 ^ 31) (ho : p.length ≤ outlen) (hb : outlen ≤ out.length)
    (hp' : p'.length < 2 ^ 31) (ho' : p'.length ≤ outlen') (hb' : outlen' ≤ out'.length) :
    ∃ r L r' L', gcmEncrypt (gcmSetiv c iv) p out outlen = some r ∧ gcmEncrypt (gcmSetiv c' iv') p' out' outlen' = some r' ∧
      r.out = (List.zipWith (fun q b => List.zipWith (fun a b => a ^^^ b) q (c.block b).toList) (chunks p) L).flatten ++
        out.drop p.length ∧
      r'.out = (List.zipWith (fun q b => List.zipWith (fun a b => a ^^^ b) q (c'.block b).toList) (chunks p') L').flatten ++
        out'.drop p'.length ∧
      L.length = (p.length + 15) / 16 ∧ L'.length = (p'.length + 15) / 16 ∧
      ∀ b ∈ (gcmSetiv c iv).y :: L, b ∉ (gcmSetiv c' iv').y :: L' := by
  obtain ⟨r, L, h1, h2, h3, _, _, _, h7⟩ := C15_encrypt_counters (gcmSetiv c iv) p out outlen hp ho hb
  obtain ⟨r', L', k1, k2, k3, _, _, _, k7⟩ := C15_encrypt_counters (gcmSetiv c' iv') p' out' outlen' hp' ho' hb'
  have hy : ∀ (c : GcmCtx) (iv : List Byte), iv.length = 12 → (gcmSetiv c iv).y.toList.take 12 = iv := by
    intro c iv h
    unfold gcmSetiv
    simp only [h, if_true]
    apply List.ext_getElem
    · simp [h]
    · intro i h1 h2
      have : i < 12 := by omega
      simp only [List.getElem_take, Vector.getElem_toList, Vector.getElem_set, Vector.getElem_ofFn]
      rw [if_neg (by omega), dif_pos (by omega)]
  refine ⟨r, L, r', L', h1, k1, h3, k3, h2, k2, ?_⟩
  intro b hb1 hb2
  have e1 : b.toList.take 12 = iv := by
    rcases List.mem_cons.mp hb1 with rfl | h
    · exact hy c iv hiv
    · rw [h7 b h, hy c iv hiv]
  have e2 : b.toList.take 12 = iv' := by
    rcases List.mem_cons.mp hb2 with rfl | h
    · exact hy c' iv' hiv'
    · rw [k7 b h, hy c' iv' hiv']
  exact hne (e1.symm.trans e2)

/-! ### very long IVs -/

theorem absorb_zeros {HL HH h} (ok : TabOk HL HH h) (m : Nat) (iv : List Byte) :
    absorb HL HH zeroBlock (List.replicate (16 * m) 0 ++ iv) = absorb HL HH zeroBlock iv := by
  induction m with
  | zero => simp
  | succ m ih =>
    have h1 : List.replicate (16 * (m + 1)) (0 : Byte) ++ iv = List.replicate 16 0 ++ (List.replicate (16 * m) 0 ++ iv) := by
      rw [← List.append_assoc, List.replicate_append_replicate]
      congr 2
      omega
    rw [h1, ← ih]
    conv => lhs; rw [absorb]
    rw [chunks_append_aligned _ _ (by simp), List.foldl_append, chunks_short _ (by simp) (by simp)]
    have h2 : gcmMult HL HH (xorInto zeroBlock (List.replicate 16 0)) = zeroBlock := by
      apply toBV_injective
      rw [gcmMult_eq ok, toBV_xorInto, toBV_zero]
      rw [show (0 ^^^ padBV (List.replicate 16 0) : BitVec 128) = 0 by decide]
      exact gfMul_zero h
    show List.foldl _ (gcmMult HL HH (xorInto zeroBlock (List.replicate 16 0))) _ = _
    rw [h2, absorb]

theorem putBlock_low (x y : BitVec 64) (h : x.setWidth 32 = y.setWidth 32) : putBlock 0 0 0 x = putBlock 0 0 0 y := by
  have hb : ∀ j, j < 32 → x.getLsbD j = y.getLsbD j := by
    intro j hj
    have := congrArg (fun v : BitVec 32 => v.getLsbD j) h
    simpa [hj] using this
  have hu : putU32 x = putU32 y := by
    unfold putU32
    congr 1
    simp only [Array.mk.injEq, List.cons.injEq, and_true]
    refine ⟨?_, ?_, ?_, ?_⟩ <;>
    · apply BitVec.eq_of_getLsbD_eq
      intro i hi
      simp [hi]
      exact hb _ (by omega)
  rw [putBlock, putBlock, hu]

theorem work_wraps (n k : Nat) : putBlock 0 0 0 (BitVec.ofNat 64 (2 ^ 29 * k + n) * 8) = putBlock 0 0 0 (BitVec.ofNat 64 n * 8) := by
  apply putBlock_low
  rw [ofNat_mul8, ofNat_mul8]
  apply BitVec.eq_of_toNat_eq
  simp only [BitVec.toNat_setWidth, BitVec.toNat_ofNat]
  omega

/-- C100: zeros in front of an IV, in any multiple of `2^29` bytes, change nothing: the same context results. -/
theorem C100_long_iv (E : Block → Block) (ops : List GcmOp) (c : GcmCtx) (hc : runOps (gcmInit E) ops = some c) (iv : List Byte)
    (k : Nat) (hiv : iv.length ≠ 12) : gcmSetiv c (List.replicate (2 ^ 29 * k) 0 ++ iv) = gcmSetiv c iv := by
  obtain ⟨a, b, d, _⟩ := runOps_keeps ops _ _ 0 hc rfl
  have hl : (List.replicate (2 ^ 29 * k) (0 : Byte) ++ iv).length = 2 ^ 29 * k + iv.length := by simp
  have hn : (List.replicate (2 ^ 29 * k) (0 : Byte) ++ iv).length ≠ 12 := by
    rw [hl]
    omega
  have hz : absorb c.HL c.HH zeroBlock (List.replicate (2 ^ 29 * k) 0 ++ iv) = absorb c.HL c.HH zeroBlock iv := by
    rw [a, b, show 2 ^ 29 * k = 16 * (2 ^ 25 * k) by omega]
    exact absorb_zeros (init_ok E) _ _
  unfold gcmSetiv
  simp only [if_neg hn, if_neg hiv, hz]
  rw [hl, work_wraps]

theorem ghash_zeros (h : BitVec 128) (m : Nat) (xs : List (BitVec 128)) : ghash h (List.replicate m 0#128 ++ xs) = ghash h xs := by
  induction m with
  | zero => simp
  | succ m ih =>
    rw [← ih, List.replicate_succ, List.cons_append, ghash, ghash, ghashFrom, ghashFrom, List.foldl_cons]
    rw [show gfMul (0 ^^^ 0#128) h = 0 from gfMul_zero h]

theorem chunks_zeros (m : Nat) (iv : List Byte) :
    (chunks (List.replicate (16 * m) 0 ++ iv)).map padBV = List.replicate m 0#128 ++ (chunks iv).map padBV := by
  induction m with
  | zero => simp
  | succ m ih =>
    have h1 : List.replicate (16 * (m + 1)) (0 : Byte) ++ iv = List.replicate 16 0 ++ (List.replicate (16 * m) 0 ++ iv) := by
      rw [← List.append_assoc, List.replicate_append_replicate]
      congr 2
      omega
    rw [h1, chunks_append_aligned _ _ (by simp), List.map_append, ih, chunks_short _ (by simp) (by simp)]
    rw [List.map_singleton, show padBV (List.replicate 16 0) = 0#128 by decide, List.replicate_succ, List.singleton_append,
      List.cons_append]

/-- C100: the standard tells these IVs apart for each cipher with a hash key other than 0. -/
theorem C100_long_iv_nist (E : Block → Block) (iv : List Byte) (k : Nat) (hk : 0 < k) (hiv : iv.length ≠ 12)
    (hl : 2 ^ 29 * k + iv.length < 2 ^ 125) :
    j0 E (List.replicate (2 ^ 29 * k) 0 ++ iv) = j0 E iv ↔ E zeroBlock = zeroBlock := by
  have hlen : (List.replicate (2 ^ 29 * k) (0 : Byte) ++ iv).length = 2 ^ 29 * k + iv.length := by simp
  have hc : (chunks (List.replicate (2 ^ 29 * k) (0 : Byte) ++ iv)).map padBV =
      List.replicate (2 ^ 25 * k) 0#128 ++ (chunks iv).map padBV := by
    rw [show 2 ^ 29 * k = 16 * (2 ^ 25 * k) by omega]
    exact chunks_zeros _ _
  rw [j0, j0, hlen, if_neg (by omega), if_neg hiv, hc, List.append_assoc, ghash_zeros]
  have happ : ∀ x, ghash (hashKey E) ((chunks iv).map padBV ++ [x]) = gfMul (ghash (hashKey E) ((chunks iv).map padBV) ^^^ x) (hashKey E) := by
    intro x
    rw [ghash, ghashFrom_append]
    rfl
  rw [happ, happ]
  generalize ghash (hashKey E) ((chunks iv).map padBV) = g
  have hL : BitVec.ofNat 128 (8 * (2 ^ 29 * k + iv.length)) ≠ BitVec.ofNat 128 (8 * iv.length) := by
    intro h
    have := congrArg BitVec.toNat h
    simp only [BitVec.toNat_ofNat] at this
    omega
  generalize BitVec.ofNat 128 (8 * (2 ^ 29 * k + iv.length)) = x at hL ⊢
  generalize BitVec.ofNat 128 (8 * iv.length) = y at hL ⊢
  constructor
  · intro h
    have h1 : (⟨g ^^^ x⟩ : Gf) * ⟨hashKey E⟩ = ⟨g ^^^ y⟩ * ⟨hashKey E⟩ := by
      apply Gf.ext
      rw [Gf.val_mul, Gf.val_mul]
      exact h
    rcases mul_eq_mul_right_iff.mp h1 with h2 | h2
    · exfalso
      apply hL
      have h3 := congrArg Gf.val h2
      have h4 := congrArg (fun v => g ^^^ v) h3
      simpa [← BitVec.xor_assoc] using h4
    · apply toBV_injective
      rw [toBV_zero]
      exact congrArg Gf.val h2
  · intro h
    have : hashKey E = 0#128 := by
      rw [hashKey, h, toBV_zero]
      rfl
    rw [this, gfMul_comm, gf_zero_mul, gfMul_comm, gf_zero_mul]

/- A used context: C100_empty_iv_tag, C100_iv_collisions and C100_long_iv apply to it. -/
example : ∃ c, runOps (gcmInit xorCipher) [.setiv (List.replicate 12 1), .aad [1, 2], .enc [5, 6, 7] [0, 0, 0] 3, .finish 16] = some c :=
  ⟨_, rfl⟩

/- Two IVs of 8 bytes, one of 12 and one of 13: at most 2, 0 and 2 blocks. -/
example : ivBlockCount (List.replicate 8 1) = 2 ∧ ivBlockCount (List.replicate 12 1) = 0 ∧ ivBlockCount (List.replicate 13 1) = 2 := by
  decide

/- The hypotheses of C100_empty_iv_forge: both calls succeed for each cipher. -/
example (E : Block → Block) : (∃ o h, sealMsg (gcmInit E) [] [] [] [] 0 16 = some (1, o, h)) ∧
    ∃ p t, openMsg (gcmInit E) (List.replicate 12 1) [] (List.replicate 33 7) (List.replicate 33 0) 33 16 = some (1, p, t) :=
  ⟨⟨_, _, C100_empty_iv_tag E [] _ rfl 16 (by omega)⟩,
    ⟨_, _, open_eq E _ _ _ _ 33 16 (by simp) (by simp) (by simp) (by simp) (by simp) (by simp)⟩⟩

/- The hypothesis of C100_no_setiv_key. -/
example (E : Block → Block) : ∃ o t, sealNoIv (gcmInit E) (List.replicate 16 0) [] [] 0 16 = some (1, o, t) :=
  ⟨_, _, noIv_eq E _ _ _ _ 16 (by omega) (by simp) (by simp) (by simp) (by simp)⟩

end Verif.Props
