import Verif.Props.CbcIv
import Verif.Props.CbcOracle

/-! Property C142: what somebody without the key can make of a CBC ciphertext. -/
set_option autoImplicit false

namespace Verif.Props
open Verif Spec Model

/-- The ciphertext a sender makes of the message `m` (buffer of the size needed). -/
def sent (E : Block → Block) (iv : Block) (m : List Byte) : Option (List Byte) :=
  (Model.cbcEncrypt E false m (List.replicate (pkcs7 m).length 0) (pkcs7 m).length iv).map (·.out)

/-- The message a receiver takes from the blocks `cs`: if the wrapper returns 1, as many bytes of the buffer as it reports. -/
def received (D : Block → Block) (iv : Block) (cs : List Block) : Option (List Byte) :=
  (cbcDecryptWrapper D (fromBlocks cs) (16 * cs.length) (List.replicate (16 * cs.length) 0) (16 * cs.length) iv).bind fun r =>
    if r.ret = 1 then r.useOlen.map fun n => r.out.take n.toNat else none

/-! ### specification -/

/-- Bytes without the padding their last byte announces. -/
def strip (l : List Byte) : List Byte := l.take (l.length - padOf (l.getLastD 0))

/-- The block before block `i` of a ciphertext (the IV for the first). -/
def prevOf (iv : Block) (cs : List Block) (i : Nat) : Block := if i = 0 then iv else cs.getD (i - 1) iv

/-! ### lemmas -/

theorem sep_eq (l : List Byte) (h : 16 ≤ l.length) (h' : l.length < 2 ^ 31) :
    separateLength l = some (BitVec.ofNat 64 (l.length - padOf (l.getLastD 0))) := by
  have hne : l ≠ [] := by rintro rfl; simp at h
  have hg : l.getLastD 0 = l.getLast hne := by
    rw [List.getLastD_eq_getLast?, List.getLast?_eq_some_getLast hne]
    rfl
  have hp := padOf_le (l.getLast hne)
  rw [separateLength, dif_pos hne, hg]
  show some ((BitVec.ofNat 32 _ - BitVec.ofNat 32 (padOf _)).signExtend 64) = _
  generalize padOf _ = p at hp ⊢
  have h32 : (BitVec.ofNat 32 l.length - BitVec.ofNat 32 p) = BitVec.ofNat 32 (l.length - p) := by
    apply BitVec.eq_of_toNat_eq
    simp only [BitVec.toNat_sub, BitVec.toNat_ofNat]
    omega
  congr 1
  apply BitVec.eq_of_toNat_eq
  rw [h32, BitVec.toNat_signExtend, BitVec.msb_eq_decide]
  simp only [BitVec.toNat_setWidth, BitVec.toNat_ofNat]
  rw [if_neg (by simp; omega)]
  omega

theorem received_eq (D : Block → Block) (iv : Block) (cs : List Block) (hne : cs ≠ []) (h : 16 * cs.length < 2 ^ 31) :
    received D iv cs = some (strip (fromBlocks (Spec.cbcDecrypt D iv cs))) := by
  have h0 := List.length_pos_iff.mpr hne
  have hl : (fromBlocks (Spec.cbcDecrypt D iv cs)).length = 16 * cs.length := by
    rw [length_fromBlocks, length_specCbcDecrypt]
  have hs := sep_eq (fromBlocks (Spec.cbcDecrypt D iv cs)) (by omega) (by omega)
  rw [received, cbcDecryptWrapper, cbcDecrypt_exact D cs iv h]
  simp only [Option.bind_eq_bind, Option.bind_some]
  rw [if_neg (by decide), if_neg (by omega), List.take_of_length_le (by omega), hs]
  simp only [Option.bind_some, if_true, Option.map_some]
  have e : (BitVec.ofNat 64 ((fromBlocks (Spec.cbcDecrypt D iv cs)).length -
      padOf ((fromBlocks (Spec.cbcDecrypt D iv cs)).getLastD 0))).toNat =
      (fromBlocks (Spec.cbcDecrypt D iv cs)).length - padOf ((fromBlocks (Spec.cbcDecrypt D iv cs)).getLastD 0) := by
    rw [BitVec.toNat_ofNat]
    omega
  rw [e]
  rfl

theorem strip_append (a b : List Byte) (h : 16 ≤ b.length) : strip (a ++ b) = a ++ strip b := by
  have hne : b ≠ [] := by rintro rfl; simp at h
  have hp := padOf_le (b.getLastD 0)
  have hg : (a ++ b).getLastD 0 = b.getLastD 0 := by
    rw [List.getLastD_eq_getLast?, List.getLastD_eq_getLast?, List.getLast?_append_of_ne_nil _ hne]
  rw [strip, strip, hg, List.length_append,
    show a.length + b.length - padOf (b.getLastD 0) = a.length + (b.length - padOf (b.getLastD 0)) by omega,
    List.take_length_add_append]

theorem strip_pkcs7 (m : List Byte) (h : m.length % 16 ≠ 0) : strip (pkcs7 m) = m := by
  have hc : padCount m.length = 16 - m.length % 16 := by unfold padCount; omega
  have hg : (pkcs7 m).getLastD 0 = BitVec.ofNat 8 (16 - m.length % 16) := by
    rw [pkcs7, hc, List.getLastD_eq_getLast?, List.getLast?_append_of_ne_nil _ (by simp; omega),
      List.getLast?_replicate, if_neg (by omega)]
    rfl
  have hp : padOf (BitVec.ofNat 8 (16 - m.length % 16)) = 16 - m.length % 16 := by
    unfold padOf
    rw [BitVec.toNat_ofNat, if_neg (by omega)]
    omega
  rw [strip, hg, hp, pkcs7, hc, List.length_append, List.length_replicate, Nat.add_sub_cancel, List.take_left]

theorem pkcs7_blocks (X : List Block) (z : List Byte) : pkcs7 (fromBlocks X ++ z) = fromBlocks X ++ pkcs7 z := by
  have : padCount (fromBlocks X ++ z).length = padCount z.length := by
    unfold padCount
    rw [List.length_append, length_fromBlocks]
    omega
  rw [pkcs7, pkcs7, this, List.append_assoc]

theorem blocks_msg (X : List Block) (z : List Byte) : asBlocks (pkcs7 (fromBlocks X ++ z)) = X ++ asBlocks (pkcs7 z) := by
  apply fromBlocks_inj
  rw [fromBlocks_asBlocks _ (length_pkcs7 _), fromBlocks_append, fromBlocks_asBlocks _ (length_pkcs7 _), pkcs7_blocks]

theorem encrypt_append (E : Block → Block) (as bs : List Block) : ∀ iv, Spec.cbcEncrypt E iv (as ++ bs) =
    Spec.cbcEncrypt E iv as ++ Spec.cbcEncrypt E ((Spec.cbcEncrypt E iv as).getLastD iv) bs := by
  induction as with
  | nil => intro iv; rfl
  | cons a as ih =>
    intro iv
    rw [List.cons_append, Spec.cbcEncrypt, ih, Spec.cbcEncrypt, List.getLastD_cons, List.cons_append]

theorem sent_blocks (E : Block → Block) (iv : Block) (X : List Block) (z c : List Byte)
    (hm : (fromBlocks X ++ z).length < 2 ^ 31 - 16) (hc : sent E iv (fromBlocks X ++ z) = some c) :
    asBlocks c = Spec.cbcEncrypt E iv (X ++ asBlocks (pkcs7 z)) := by
  rw [sent, enc_text E iv _ hm] at hc
  simp only [Option.map_some, Option.some.injEq] at hc
  rw [← hc, cbcText, asBlocks_fromBlocks, blocks_msg]

theorem tail_length (z : List Byte) : 16 * (asBlocks (pkcs7 z)).length = (pkcs7 z).length := by
  rw [← length_fromBlocks, fromBlocks_asBlocks _ (length_pkcs7 z)]

theorem pad_bounds (z : List Byte) : z.length ≤ (pkcs7 z).length ∧ (pkcs7 z).length ≤ z.length + 15 := by
  rw [pkcs7, List.length_append, List.length_replicate]
  unfold padCount
  omega

theorem prevOf_append (iv : Block) (as bs : List Block) : prevOf iv (as ++ bs) as.length = as.getLastD iv := by
  unfold prevOf
  cases as using List.reverseRecOn with
  | nil => rfl
  | append_singleton as a => simp [List.getD_eq_getElem?_getD]

/-- The block at a known place of a ciphertext. -/
theorem block_known (E : Block → Block) (iv : Block) (A : List Block) (p : Block) (z c : List Byte)
    (hm : (fromBlocks A ++ p.toList ++ z).length < 2 ^ 31 - 16) (hc : sent E iv (fromBlocks A ++ p.toList ++ z) = some c) :
    (asBlocks c).getD A.length iv = E (p ^^^ prevOf iv (asBlocks c) A.length) := by
  have e : fromBlocks A ++ p.toList ++ z = fromBlocks (A ++ [p]) ++ z := by simp
  rw [e] at hm hc
  rw [sent_blocks E iv _ z c hm hc, List.append_assoc, encrypt_append, List.singleton_append, Spec.cbcEncrypt]
  have hl := length_specCbcEncrypt E iv A
  have h := prevOf_append iv (Spec.cbcEncrypt E iv A)
  rw [hl] at h
  rw [h, List.getD_eq_getElem?_getD, List.getElem?_append_right (by omega), hl, Nat.sub_self]
  rfl

theorem modify_at {α : Type} (f : α → α) (a : α) (Y : List α) : ∀ X : List α,
    (X ++ a :: Y).modify X.length f = X ++ f a :: Y := by
  intro X
  induction X with
  | nil => rfl
  | cons x X ih => rw [List.cons_append, List.length_cons, List.modify_succ_cons, ih, List.cons_append]

theorem xor_swap (p u p' v : Block) : p ^^^ u = p' ^^^ v ↔ p ^^^ p' = u ^^^ v := by
  constructor
  · intro h
    have h1 : p = p' ^^^ v ^^^ u := by rw [← h, Vec.xor_cancel_right]
    rw [h1, Vec.xor_assoc p', Vec.xor_comm p', Vec.xor_cancel_right, Vec.xor_comm]
  · intro h
    have h1 : p = u ^^^ v ^^^ p' := by rw [← h, Vec.xor_cancel_right]
    rw [h1, Vec.xor_comm _ u, Vec.xor_assoc u v, Vec.xor_cancel_left, Vec.xor_comm]

/-! ### the property -/

/-- C142: with `d` xored into the IV, the receiver accepts the message with `d` xored into its first block; nothing else changes. -/
theorem C142_flip_iv (E D : Block → Block) (hDE : ∀ b, D (E b) = b) (iv d p : Block) (z c : List Byte) (hz : z.length % 16 ≠ 0)
    (hm : (p.toList ++ z).length < 2 ^ 31 - 16) (hc : sent E iv (p.toList ++ z) = some c) :
    received D (iv ^^^ d) (asBlocks c) = some ((p ^^^ d).toList ++ z) := by
  have e : p.toList ++ z = fromBlocks [p] ++ z := by simp
  rw [e] at hm hc
  have hb := sent_blocks E iv _ z c hm hc
  have hp := pad_bounds z
  have ht := tail_length z
  have hz0 : z.length ≠ 0 := by intro h; simp [h] at hz
  simp only [List.length_append, length_fromBlocks, List.length_singleton] at hm
  rw [hb, received_eq _ _ _ (by simp [Spec.cbcEncrypt])
    (by rw [length_specCbcEncrypt, List.length_append, List.length_singleton]; omega)]
  rw [List.singleton_append, Spec.cbcEncrypt, Spec.cbcDecrypt, specCbc_roundtrip E D hDE, hDE, fromBlocks_cons,
    fromBlocks_asBlocks _ (length_pkcs7 z), strip_append _ _ (by have := length_pkcs7 z; omega), strip_pkcs7 z hz,
    ← Vec.xor_assoc, Vec.xor_cancel_right]

/-- C142: with `d` xored into a block of the ciphertext, the receiver accepts the message with `d` xored into the next block;
of the rest only the block itself changes. -/
theorem C142_flip_block (E D : Block → Block) (hDE : ∀ b, D (E b) = b) (iv d : Block) (A : List Block) (p q : Block)
    (z c : List Byte) (hz : z.length % 16 ≠ 0) (hm : (fromBlocks A ++ p.toList ++ q.toList ++ z).length < 2 ^ 31 - 16)
    (hc : sent E iv (fromBlocks A ++ p.toList ++ q.toList ++ z) = some c) :
    ∃ g : Block, received D iv ((asBlocks c).modify A.length (· ^^^ d)) =
      some (fromBlocks A ++ g.toList ++ (q ^^^ d).toList ++ z) := by
  have e : fromBlocks A ++ p.toList ++ q.toList ++ z = fromBlocks (A ++ [p, q]) ++ z := by simp
  rw [e] at hm hc
  have hb := sent_blocks E iv _ z c hm hc
  have hp := pad_bounds z
  have ht := tail_length z
  have hz0 : z.length ≠ 0 := by intro h; simp [h] at hz
  simp only [List.length_append, length_fromBlocks, List.length_cons, List.length_nil] at hm
  have hl := length_specCbcEncrypt E iv A
  rw [List.append_assoc, encrypt_append, List.cons_append, List.singleton_append, Spec.cbcEncrypt, Spec.cbcEncrypt] at hb
  generalize hu : (Spec.cbcEncrypt E iv A).getLastD iv = u at hb
  refine ⟨D (E (p ^^^ u) ^^^ d) ^^^ u, ?_⟩
  have hmod : (asBlocks c).modify A.length (· ^^^ d) = Spec.cbcEncrypt E iv A ++ (E (p ^^^ u) ^^^ d) ::
      E (q ^^^ E (p ^^^ u)) :: Spec.cbcEncrypt E (E (q ^^^ E (p ^^^ u))) (asBlocks (pkcs7 z)) := by
    rw [hb, ← hl, modify_at]
  rw [hmod, received_eq _ _ _ (by simp)
    (by simp only [List.length_append, List.length_cons, length_specCbcEncrypt]; omega)]
  rw [specCbcDecrypt_append, specCbc_roundtrip E D hDE, hu, Spec.cbcDecrypt, Spec.cbcDecrypt, specCbc_roundtrip E D hDE, hDE,
    fromBlocks_append, fromBlocks_cons, fromBlocks_cons, fromBlocks_asBlocks _ (length_pkcs7 z), ← List.append_assoc,
    ← List.append_assoc, strip_append _ _ (by have := length_pkcs7 z; omega), strip_pkcs7 z hz,
    ← Vec.xor_assoc, Vec.xor_cancel_right]

/-- C142: the blocks of a ciphertext from any place on, with the block before as IV, are accepted as the rest of the message. -/
theorem C142_suffix (E D : Block → Block) (hDE : ∀ b, D (E b) = b) (iv : Block) (A : List Block) (z c : List Byte)
    (hz : z.length % 16 ≠ 0) (hm : (fromBlocks A ++ z).length < 2 ^ 31 - 16) (hc : sent E iv (fromBlocks A ++ z) = some c) :
    received D (prevOf iv (asBlocks c) A.length) ((asBlocks c).drop A.length) = some z := by
  have hb := sent_blocks E iv _ z c hm hc
  have hp := pad_bounds z
  have ht := tail_length z
  have hz0 : z.length ≠ 0 := by intro h; simp [h] at hz
  simp only [List.length_append, length_fromBlocks] at hm
  have hl := length_specCbcEncrypt E iv A
  have hq := prevOf_append iv (Spec.cbcEncrypt E iv A)
  rw [hl] at hq
  rw [encrypt_append] at hb
  rw [hb, hq, List.drop_append_of_le_length (by omega), List.drop_of_length_le (by omega), List.nil_append]
  rw [received_eq _ _ _ (by rw [← List.length_pos_iff, length_specCbcEncrypt]; omega) (by rw [length_specCbcEncrypt]; omega),
    specCbc_roundtrip E D hDE, fromBlocks_asBlocks _ (length_pkcs7 z), strip_pkcs7 z hz]

/-- C142: the beginning of one ciphertext followed by the end of another of the same key is accepted as the beginning of the one
message and the end of the other. Between them is one block that is computed from what was sent and the block it replaces. -/
theorem C142_splice (E D : Block → Block) (hDE : ∀ b, D (E b) = b) (iv iv' : Block) (A B : List Block) (q : Block)
    (y z c c' : List Byte) (hz : z.length % 16 ≠ 0)
    (hm : (fromBlocks A ++ y).length < 2 ^ 31 - 16) (hc : sent E iv (fromBlocks A ++ y) = some c)
    (hm' : (fromBlocks B ++ q.toList ++ z).length < 2 ^ 31 - 16) (hc' : sent E iv' (fromBlocks B ++ q.toList ++ z) = some c')
    (hl : 16 * (A.length + 1) + z.length < 2 ^ 31 - 16) :
    received D iv ((asBlocks c).take A.length ++ (asBlocks c').drop B.length) =
      some (fromBlocks A ++ (q ^^^ prevOf iv' (asBlocks c') B.length ^^^ prevOf iv (asBlocks c) A.length).toList ++ z) := by
  have e : fromBlocks B ++ q.toList ++ z = fromBlocks (B ++ [q]) ++ z := by simp
  rw [e] at hm' hc'
  have hb := sent_blocks E iv _ y c hm hc
  have hb' := sent_blocks E iv' _ z c' hm' hc'
  have hp := pad_bounds z
  have ht := tail_length z
  have hz0 : z.length ≠ 0 := by intro h; simp [h] at hz
  have hA := length_specCbcEncrypt E iv A
  have hB := length_specCbcEncrypt E iv' B
  have hq := prevOf_append iv (Spec.cbcEncrypt E iv A)
  have hq' := prevOf_append iv' (Spec.cbcEncrypt E iv' B)
  rw [hA] at hq
  rw [hB] at hq'
  rw [encrypt_append] at hb
  rw [List.append_assoc, encrypt_append, List.singleton_append, Spec.cbcEncrypt] at hb'
  rw [hb, hb', hq, hq', List.take_append_of_le_length (by omega), List.take_of_length_le (by omega),
    List.drop_append_of_le_length (by omega), List.drop_of_length_le (by omega), List.nil_append]
  rw [received_eq _ _ _ (by simp) (by simp only [List.length_append, List.length_cons, length_specCbcEncrypt]; omega)]
  rw [specCbcDecrypt_append, specCbc_roundtrip E D hDE, Spec.cbcDecrypt, specCbc_roundtrip E D hDE, hDE,
    fromBlocks_append, fromBlocks_cons, fromBlocks_asBlocks _ (length_pkcs7 z), ← List.append_assoc,
    strip_append _ _ (by have := length_pkcs7 z; omega), strip_pkcs7 z hz]

/-- What an attacker who knows a block `p` of a message, the ciphertext block before it and the wanted block `x` puts in front. -/
def lever (p prev x : Block) : Block := p ^^^ prev ^^^ x

/-- C142: one known block of one message is enough to make an IV for any text of 1 to 15 bytes: with it, the ciphertext block is
accepted as that text. -/
theorem C142_forge (E D : Block → Block) (hDE : ∀ b, D (E b) = b) (iv : Block) (A : List Block) (p : Block) (z c t : List Byte)
    (hm : (fromBlocks A ++ p.toList ++ z).length < 2 ^ 31 - 16) (hc : sent E iv (fromBlocks A ++ p.toList ++ z) = some c)
    (ht : t.length ≠ 0) (ht' : t.length < 16) :
    ∃ x : Block, asBlocks (pkcs7 t) = [x] ∧
      received D (lever p (prevOf iv (asBlocks c) A.length) x) [(asBlocks c).getD A.length iv] = some t := by
  have hb := block_known E iv A p z c hm hc
  have hp := tail_length t
  have hl : (pkcs7 t).length = 16 := by
    rw [pkcs7, List.length_append, List.length_replicate]
    unfold padCount
    omega
  obtain ⟨x, hx⟩ := List.length_eq_one_iff.mp (show (asBlocks (pkcs7 t)).length = 1 by omega)
  refine ⟨x, hx, ?_⟩
  rw [hb, received_eq _ _ _ (by simp) (by simp), Spec.cbcDecrypt, Spec.cbcDecrypt, hDE, lever, Vec.xor_cancel_left, ← hx,
    fromBlocks_asBlocks _ (length_pkcs7 t), strip_pkcs7 t (by omega)]

/-- The ciphertext of an attacker who wants the blocks `xs` in every second place. -/
def leverAll (p prev c : Block) (xs : List Block) : List Block := xs.flatMap fun x => [lever p prev x, c]

theorem lever_dec (D : Block → Block) (p prev c : Block) (h : D c = p ^^^ prev) (xs : List Block) : ∀ iv, ∃ gs : List Block,
    gs.length = xs.length ∧
      Spec.cbcDecrypt D iv (leverAll p prev c xs) = (gs.zip xs).flatMap fun y => [y.1, y.2] := by
  induction xs with
  | nil => intro iv; exact ⟨[], rfl, rfl⟩
  | cons x xs ih =>
    intro iv
    obtain ⟨gs, h1, h2⟩ := ih c
    refine ⟨(D (lever p prev x) ^^^ iv) :: gs, by simp [h1], ?_⟩
    rw [leverAll, List.flatMap_cons, List.cons_append, List.singleton_append, Spec.cbcDecrypt, Spec.cbcDecrypt,
      ← leverAll, h2, h, lever, Vec.xor_cancel_left]
    rfl

/-- C142: the same block is enough for a ciphertext of any length, under any IV, that is accepted and has any blocks wanted in
every second place of the message, with a length by the last of them. -/
theorem C142_forge_long (E D : Block → Block) (hDE : ∀ b, D (E b) = b) (iv iv' : Block) (A : List Block) (p : Block)
    (z c : List Byte) (hm : (fromBlocks A ++ p.toList ++ z).length < 2 ^ 31 - 16)
    (hc : sent E iv (fromBlocks A ++ p.toList ++ z) = some c) (xs : List Block) (hne : xs ≠ []) (hx : 32 * xs.length < 2 ^ 31) :
    ∃ gs : List Block, gs.length = xs.length ∧
      received D iv' (leverAll p (prevOf iv (asBlocks c) A.length) ((asBlocks c).getD A.length iv) xs) =
        some (strip (fromBlocks ((gs.zip xs).flatMap fun y => [y.1, y.2]))) := by
  have hb := block_known E iv A p z c hm hc
  obtain ⟨gs, h1, h2⟩ := lever_dec D p (prevOf iv (asBlocks c) A.length) ((asBlocks c).getD A.length iv)
    (by rw [hb, hDE]) xs iv'
  have hl : (leverAll p (prevOf iv (asBlocks c) A.length) ((asBlocks c).getD A.length iv) xs).length = 2 * xs.length := by
    simp [leverAll, List.length_flatMap]
    omega
  have h0 := List.length_pos_iff.mpr hne
  refine ⟨gs, h1, ?_⟩
  rw [received_eq _ _ _ (by rw [← List.length_pos_iff]; omega) (by omega), h2]

/-- C142: two blocks of two ciphertexts of one key are the same exactly if the xor of the two message blocks is the xor of the
two ciphertext blocks before them: every repeated block tells 16 bytes about the messages. -/
theorem C142_collision (E : Block → Block) (hE : ∀ a b, E a = E b → a = b) (iv iv' : Block) (A A' : List Block) (p p' : Block)
    (z z' c c' : List Byte) (hm : (fromBlocks A ++ p.toList ++ z).length < 2 ^ 31 - 16)
    (hm' : (fromBlocks A' ++ p'.toList ++ z').length < 2 ^ 31 - 16)
    (hc : sent E iv (fromBlocks A ++ p.toList ++ z) = some c) (hc' : sent E iv' (fromBlocks A' ++ p'.toList ++ z') = some c') :
    (asBlocks c).getD A.length iv = (asBlocks c').getD A'.length iv' ↔
      p ^^^ p' = prevOf iv (asBlocks c) A.length ^^^ prevOf iv' (asBlocks c') A'.length := by
  rw [block_known E iv A p z c hm hc, block_known E iv' A' p' z' c' hm' hc']
  generalize prevOf iv (asBlocks c) A.length = u
  generalize prevOf iv' (asBlocks c') A'.length = v
  rw [← xor_swap]
  exact ⟨hE _ _, fun h => by rw [h]⟩

/-! ### cases meeting the hypotheses -/

/-- A message of two blocks and one byte, sent and taken. -/
example : ∃ c, sent id zeroBlock (fromBlocks [] ++ (Vector.replicate 16 (1 : Byte)).toList ++
      (Vector.replicate 16 (2 : Byte)).toList ++ [(3 : Byte)]) = some c ∧
    ∃ g : Block, received id zeroBlock ((asBlocks c).modify 0 (· ^^^ Vector.replicate 16 (5 : Byte))) =
      some (fromBlocks [] ++ g.toList ++ (Vector.replicate 16 (2 : Byte) ^^^ Vector.replicate 16 (5 : Byte)).toList ++ [(3 : Byte)]) := by
  have hs : ∀ m : List Byte, m.length < 2 ^ 31 - 16 → sent id zeroBlock m = some (cbcText id zeroBlock m) := by
    intro m hm
    rw [sent, enc_text id zeroBlock m hm]
    rfl
  exact ⟨_, hs _ (by decide), C142_flip_block id id (fun _ => rfl) zeroBlock _ [] _ _ [3] _ (by decide) (by decide)
    (hs _ (by decide))⟩

/-- A text of three bytes and a list of two blocks to forge. -/
example : ([104, 101, 121] : List Byte).length ≠ 0 ∧ ([104, 101, 121] : List Byte).length < 16 ∧
    32 * [zeroBlock, Vector.replicate 16 (7 : Byte)].length < 2 ^ 31 := by decide

end Verif.Props
