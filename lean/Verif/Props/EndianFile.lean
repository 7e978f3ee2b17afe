import Verif.Model.EndianFile
import Verif.Spec.Endian
import Verif.Props.WbGcmFile
import Verif.Props.WbGcmExtract
import Verif.Props.EndianAes

/-! C120: encrypted files that move between machines of other byte order and other word size. -/
set_option autoImplicit false

namespace Verif.Props
open Verif Spec Model

/-! ### the size field -/

theorem bytes_length (o : ByteOrder) (w : BitVec 32) : (o.bytes w).length = 4 := by
  cases o <;> rfl

theorem trunc_ofNat (n i : Nat) (hn : n < 2 ^ 32) :
    ((BitVec.ofNat 32 n >>> i).truncate 8 : BitVec 8) = BitVec.ofNat 8 (n / 2 ^ i) := by
  apply BitVec.eq_of_toNat_eq
  simp [BitVec.toNat_ushiftRight, Nat.shiftRight_eq_div_pow, Nat.mod_eq_of_lt (show n < 4294967296 by omega)]

theorem wordLE_ofNat (n : Nat) (hn : n < 2 ^ 32) : wordLE (BitVec.ofNat 32 n) =
    (List.range 4).map fun i => BitVec.ofNat 8 (n / 256 ^ i) := by
  have k0 : (BitVec.ofNat 32 n).truncate 8 = BitVec.ofNat 8 (n / 256 ^ 0) := by
    simp
  rw [wordLE, trunc_ofNat n 8 hn, trunc_ofNat n 16 hn, trunc_ofNat n 24 hn, k0]
  rfl

/-- The size field that a machine writes. -/
def sizeField (m : Machine) (n : Nat) (junk : Vector Byte 4) : List Byte :=
  (match m.order with
    | .little => (List.range 4).map fun i => BitVec.ofNat 8 (n / 256 ^ i)
    | .big => (List.range 4).map fun i => BitVec.ofNat 8 (n / 256 ^ (3 - i))) ++ (if m.wide then junk.toList else [])

theorem sizeBufOn_eq (m : Machine) (n : Nat) (junk : Vector Byte 4) (hn : n < 2 ^ 32) :
    sizeBufOn m n junk = sizeField m n junk := by
  obtain ⟨o, w⟩ := m
  unfold sizeBufOn sizeField
  congr 1
  · cases o
    · exact wordLE_ofNat n hn
    · show (wordLE (BitVec.ofNat 32 n)).reverse = _
      rw [wordLE_ofNat n hn]
      rfl
  · cases w
    · rfl
    · show junk.toList.take 4 = junk.toList
      rw [List.take_of_length_le (by simp)]

theorem length_sizeBufOn (m : Machine) (n : Nat) (junk : Vector Byte 4) : (sizeBufOn m n junk).length = m.sizeT := by
  obtain ⟨o, w⟩ := m
  rw [sizeBufOn, List.length_append, bytes_length]
  cases w <;> simp [Machine.sizeT]

/-- The size that is read, whatever the reading machine is: the number itself, or its bytes turned round. -/
def sizeRead (o : ByteOrder) (n : Nat) : Nat :=
  match o with
  | .little => n
  | .big => n / 256 ^ 3 % 256 + 256 * (n / 256 ^ 2 % 256) + 256 ^ 2 * (n / 256 % 256) + 256 ^ 3 * (n % 256)

theorem size_match (m : Machine) (n k : Nat) (rest : List Byte) (hn : n < 2 ^ 31) (hk : k < 2 ^ 31) :
    (k : Int) = fileSize (m.order.bytes (BitVec.ofNat 32 n) ++ rest) ↔ k = sizeRead m.order n := by
  rw [fileSize_nat _ k hk]
  have hle := wordLE_ofNat n (by omega)
  obtain ⟨o, w⟩ := m
  cases o
  · show k = _ ↔ k = n
    simp only [ByteOrder.bytes, hle]
    simp [List.range_succ]
    omega
  · show k = _ ↔ k = sizeRead .big n
    simp only [ByteOrder.bytes, hle, sizeRead]
    simp [List.range_succ]

/-- Turning the bytes round adds or removes nothing as small as four. -/
theorem sizeRead_shift (o : ByteOrder) (n : Nat) (hn : n < 2 ^ 31) : sizeRead o n ≠ n + 4 ∧ (sizeRead o n = n - 4 ↔ n = 0) := by
  cases o
  · simp only [sizeRead]; omega
  · simp only [sizeRead]
    have e : n = n % 256 + 256 * (n / 256 % 256) + 65536 * (n / 65536 % 256) + 16777216 * (n / 16777216) := by omega
    have e3 : n / 256 ^ 3 % 256 = n / 16777216 := by omega
    have e2 : n / 256 ^ 2 % 256 = n / 65536 % 256 := rfl
    have l0 : n % 256 < 256 := by omega
    have l1 : n / 256 % 256 < 256 := by omega
    have l2 : n / 65536 % 256 < 256 := by omega
    have l3 : n / 16777216 < 128 := by omega
    rw [e3, e2]
    generalize n % 256 = b0, n / 256 % 256 = b1, n / 65536 % 256 = b2, n / 16777216 = b3 at *
    subst e
    clear e3 e2 hn
    constructor
    · intro h
      have : b3 = b0 + 4 ∨ b3 + 252 = b0 := by omega
      rcases this with rfl | rfl <;> omega
    · constructor
      · intro h
        have : b3 + 4 = b0 ∨ b3 = b0 + 252 ∨ (b0 < 4 ∧ b1 = 0 ∧ b2 = 0 ∧ b3 = 0) := by omega
        rcases this with rfl | rfl | ⟨_, rfl, rfl, rfl⟩ <;> omega
      · intro h
        omega

/-! ### what a call does -/

theorem encryptOn_eq (m : Machine) (c : GcmCtx) (junk : Vector Byte 4) (fs : FS) (inp out : Path) (d : List Byte)
    (h1 : inp ≠ out) (h2 : inp ≠ tmpPath out) (hd : fs inp = some d) (hl : d.length < 2 ^ 31) :
    ∃ r tag c1 c2, gcmfileEncryptOn m c junk fs inp out = some r ∧ r.ret = 1 ∧ r.ctx = c2 ∧
      gcmEncrypt c d (List.replicate d.length 0) d.length =
        some { ret := 1, ctx := c1, out := gctr c.block (inc32 (toBV c.y)) d } ∧
      gcmFinish c1 16 = some (tag, c2) ∧ tag.length = 16 ∧
      r.log = [FsOp.trunc (tmpPath out), FsOp.trunc out] ++
        (gctr c.block (inc32 (toBV c.y)) d).map (FsOp.put (tmpPath out)) ++
        (tag ++ sizeBufOn m d.length junk ++ gctr c.block (inc32 (toBV c.y)) d).map (FsOp.put out) ++
        [FsOp.remove (tmpPath out)] := by
  obtain ⟨c1, e1, e2⟩ := fileLoop_enc_eq c d hl
  obtain ⟨tag, c2, e3, e4, _⟩ := finish16 c1
  have hr : applyOps fs [FsOp.trunc (tmpPath out), FsOp.trunc out] inp = some d := by
    rw [applyOps_other, hd]
    intro o ho
    simp at ho
    rcases ho with rfl | rfl
    · exact Ne.symm h2
    · exact Ne.symm h1
  refine ⟨{ ret := 1, ctx := c2, log := _ }, tag, c1, c2, ?_, rfl, rfl, e2, e3, e4, rfl⟩
  unfold gcmfileEncryptOn
  simp only [hd, hr, e1, e3, Option.bind_eq_bind, Option.bind_some, fpieces_flatten]
  rfl

theorem decryptOn_eq (m : Machine) (c : GcmCtx) (fs : FS) (inp out : Path) (content : List Byte)
    (h1 : inp ≠ out) (hd : fs inp = some content) (h17 : 17 ≤ content.length)
    (hl : content.length < 2 ^ 31 + (16 + m.sizeT)) :
    ∃ r, gcmfileDecryptOn m c fs inp out = some r ∧
      r.ret = (if ((content.drop (16 + m.sizeT)).length : Int) = fileSize ((content.drop 16).take m.sizeT) then 1 else 0) ∧
      r.log = FsOp.trunc out :: (gctr c.block (inc32 (toBV c.y)) (content.drop (16 + m.sizeT))).map (FsOp.put out) := by
  obtain ⟨t, c1, f1, _, f2, f3⟩ := finish16 c
  obtain ⟨c2, e⟩ := fileLoop_dec_eq c1 (content.drop (16 + m.sizeT)) (by simp; omega)
  rw [f2, f3] at e
  refine ⟨{ ret := _, ctx := c2, log := _ }, ?_, rfl, rfl⟩
  have hs : 4 ≤ m.sizeT := by unfold Machine.sizeT; split <;> omega
  unfold gcmfileDecryptOn
  simp only [hd, Option.bind_eq_bind, Option.bind_some]
  have n1 : content.take 16 ≠ [] := by
    intro h; have := congrArg List.length h; simp only [List.length_take, List.length_nil] at this; omega
  have n2 : (content.drop 16).take m.sizeT ≠ [] := by
    intro h; have := congrArg List.length h
    simp only [List.length_take, List.length_drop, List.length_nil] at this; omega
  have n3 : ¬ 2 ^ 31 ≤ (content.drop (16 + m.sizeT)).length := by rw [List.length_drop]; omega
  rw [if_neg h1, if_neg n1, if_neg n2]
  simp only [f1, e, Option.bind_some]
  rw [if_neg n3]
  rfl

theorem wb_encryptOn_eq (m : Machine) {w : WbGcmCtx} {E : Block → Block} {enc : Fin 16 → Byte → Byte} {comb : Comb} (B : Boxed w E enc comb)
    (iv aad : List Byte) (junk : Vector Byte 4) (fs : FS) (inp out : Path) (d : List Byte)
    (hiv : iv.length < 2 ^ 29) (ha : aad.length < 2 ^ 61)
    (h1 : inp ≠ out) (h2 : inp ≠ tmpPath out) (hd : fs inp = some d) (hl : d.length < 2 ^ 31) :
    ∃ r, wbgcmfileEncryptOn m (wbgcmAad (wbgcmSetiv w iv) aad) junk fs inp out = some r ∧ r.ret = 1 ∧
      r.log = [FsOp.trunc (tmpPath out), FsOp.trunc out] ++
        (stream comb E (inc32 (j0 E iv)) d).map (FsOp.put (tmpPath out)) ++
        (wbTag enc comb E iv aad (stream comb E (inc32 (j0 E iv)) d) 16 ++ sizeBufOn m d.length junk ++
          stream comb E (inc32 (j0 E iv)) d).map (FsOp.put out) ++ [FsOp.remove (tmpPath out)] := by
  have hy := wbsetiv_y B iv hiv
  obtain ⟨y', buf', f1, f2⟩ := wbfold_enc (wbaad_boxed B iv aad) d (wbgcmAad (wbgcmSetiv w iv) aad).g.y
    (wbgcmAad (wbgcmSetiv w iv) aad).g.buf []
  rw [show toBV (wbgcmAad (wbgcmSetiv w iv) aad).g.y = j0 E iv from hy, List.nil_append] at f1
  rw [show toBV (wbgcmAad (wbgcmSetiv w iv) aad).g.y = j0 E iv from hy] at f2
  have hlen := length_stream comb E d (inc32 (j0 E iv))
  have e1 := wbFileLoop_eq enc_pieceOk d _ _ _ _ f1
  obtain ⟨w', e3⟩ := wbfinish_eq B iv aad (stream comb E (inc32 (j0 E iv)) d) 16 (Nat.le_refl _) hiv ha (by omega) y' buf' f2
  rw [hlen] at e3
  have hr : applyOps fs [FsOp.trunc (tmpPath out), FsOp.trunc out] inp = some d := by
    rw [applyOps_other, hd]
    intro o ho
    simp at ho
    rcases ho with rfl | rfl
    · exact Ne.symm h2
    · exact Ne.symm h1
  refine ⟨{ ret := 1, ctx := w', log := _ }, ?_, rfl, rfl⟩
  unfold wbgcmfileEncryptOn
  rw [show wbgcmEncrypt = wbgcmCrypt wbEncPiece from rfl]
  simp only [hd, hr, e1, e3, Option.bind_eq_bind, Option.bind_some, fpieces_flatten]
  rfl

theorem wb_decryptOn_defined (m : Machine) (c : WbGcmCtx) (fs : FS) (inp out : Path) (content : List Byte)
    (h1 : inp ≠ out) (hd : fs inp = some content) (h17 : 17 ≤ content.length) (hl : content.length < 2 ^ 31 + (16 + m.sizeT)) :
    ∃ r b, wbgcmfileDecryptOn m c fs inp out = some r ∧
      r.ret = (if ((content.drop (16 + m.sizeT)).length : Int) = fileSize ((content.drop 16).take m.sizeT) then 1 else 0) ∧
      r.log = FsOp.trunc out ::
        ((chunks (content.drop (16 + m.sizeT))).foldl (wbDecPiece c) (c.g.y, b, [])).2.2.map (FsOp.put out) := by
  obtain ⟨t, b, f1, _⟩ := wbfinish16 c
  obtain ⟨y', b', o, e⟩ : ∃ y' b' o, (chunks (content.drop (16 + m.sizeT))).foldl (wbDecPiece c) (c.g.y, b, []) = (y', b', o) :=
    ⟨_, _, _, rfl⟩
  have e2 := wbFileLoop_eq dec_pieceOk (content.drop (16 + m.sizeT)) { c with g := { c.g with buf := b } } y' b' o e
  refine ⟨{ ret := if ((content.drop (16 + m.sizeT)).length : Int) = fileSize ((content.drop 16).take m.sizeT) then 1 else 0,
            ctx := { c with g := { c.g with len := c.g.len + BitVec.ofNat 64 (content.drop (16 + m.sizeT)).length, y := y', buf := b' } },
            log := FsOp.trunc out :: o.map (FsOp.put out) }, b, ?_, rfl, by rw [e]⟩
  have hs : 4 ≤ m.sizeT := by unfold Machine.sizeT; split <;> omega
  unfold wbgcmfileDecryptOn
  rw [show wbgcmDecrypt = wbgcmCrypt wbDecPiece from rfl]
  simp only [hd, Option.bind_eq_bind, Option.bind_some]
  have n1 : content.take 16 ≠ [] := by
    intro h; have := congrArg List.length h; simp only [List.length_take, List.length_nil] at this; omega
  have n2 : (content.drop 16).take m.sizeT ≠ [] := by
    intro h; have := congrArg List.length h
    simp only [List.length_take, List.length_drop, List.length_nil] at this; omega
  have n3 : ¬ 2 ^ 31 ≤ (content.drop (16 + m.sizeT)).length := by rw [List.length_drop]; omega
  rw [if_neg h1, if_neg n1, if_neg n2]
  simp only [f1, e2, Option.bind_some]
  rw [if_neg n3]
  rfl

/-! ### the body and the size that a reader finds -/

/-- What the reader takes for the ciphertext. -/
def bodyRead (m1 m2 : Machine) (junk : Vector Byte 4) (ct : List Byte) : List Byte :=
  match m1.wide, m2.wide with
  | true, false => junk.toList ++ ct
  | false, true => ct.drop 4
  | _, _ => ct

/-- When the reader finds the size that it counts. -/
def SizeAccepted (m1 m2 : Machine) (n : Nat) : Prop :=
  (m1.wide = m2.wide ∧ sizeRead m1.order n = n) ∨ (m1.wide = false ∧ m2.wide = true ∧ n = 0)

instance (m1 m2 : Machine) (n : Nat) : Decidable (SizeAccepted m1 m2 n) := by unfold SizeAccepted; infer_instance

theorem content_read (m1 m2 : Machine) (tag ct : List Byte) (junk : Vector Byte 4) (ht : tag.length = 16)
    (hl : ct.length + 4 < 2 ^ 31) :
    (tag ++ sizeBufOn m1 ct.length junk ++ ct).drop (16 + m2.sizeT) = bodyRead m1 m2 junk ct ∧
    ((((tag ++ sizeBufOn m1 ct.length junk ++ ct).drop (16 + m2.sizeT)).length : Int) =
      fileSize (((tag ++ sizeBufOn m1 ct.length junk ++ ct).drop 16).take m2.sizeT) ↔ SizeAccepted m1 m2 ct.length) ∧
    20 ≤ (tag ++ sizeBufOn m1 ct.length junk ++ ct).length ∧
    (tag ++ sizeBufOn m1 ct.length junk ++ ct).length < 2 ^ 31 + (16 + m2.sizeT) := by
  have hbody : (tag ++ sizeBufOn m1 ct.length junk ++ ct).drop (16 + m2.sizeT) = bodyRead m1 m2 junk ct := by
    rw [List.append_assoc, List.drop_append, List.drop_eq_nil_of_le (by omega), List.nil_append, ht, Nat.add_sub_cancel_left]
    obtain ⟨o1, w1⟩ := m1
    obtain ⟨o2, w2⟩ := m2
    have hb := bytes_length o1 (BitVec.ofNat 32 ct.length)
    cases w1 <;> cases w2
    · show (_ ++ List.take 0 _ ++ ct).drop 4 = ct
      rw [List.take_zero, List.append_nil, List.drop_left' hb]
    · show (_ ++ List.take 0 _ ++ ct).drop 8 = ct.drop 4
      rw [List.take_zero, List.append_nil, List.drop_append, List.drop_eq_nil_of_le (by rw [hb]; omega), hb]
      rfl
    · show (_ ++ List.take 4 _ ++ ct).drop 4 = junk.toList ++ ct
      rw [List.append_assoc, List.drop_left' hb, List.take_of_length_le (by simp)]
    · show (_ ++ List.take 4 _ ++ ct).drop 8 = ct
      rw [List.drop_left' (by simp [hb])]
  have hsize : ∃ rest, ((tag ++ sizeBufOn m1 ct.length junk ++ ct).drop 16).take m2.sizeT =
      m1.order.bytes (BitVec.ofNat 32 ct.length) ++ rest := by
    have hb := bytes_length m1.order (BitVec.ofNat 32 ct.length)
    rw [List.append_assoc, List.drop_left' ht, sizeBufOn, List.append_assoc, List.take_append,
      List.take_of_length_le (by rw [hb]; unfold Machine.sizeT; split <;> omega)]
    exact ⟨_, rfl⟩
  have hlen : (bodyRead m1 m2 junk ct).length =
      match m1.wide, m2.wide with
      | true, false => ct.length + 4
      | false, true => ct.length - 4
      | _, _ => ct.length := by
    obtain ⟨o1, w1⟩ := m1
    obtain ⟨o2, w2⟩ := m2
    cases w1 <;> cases w2 <;> simp [bodyRead]
    omega
  refine ⟨hbody, ?_, ?_, ?_⟩
  · obtain ⟨rest, hs⟩ := hsize
    rw [hs, hbody]
    have hk : (bodyRead m1 m2 junk ct).length < 2 ^ 31 := by
      rw [hlen]; split <;> omega
    rw [size_match m1 ct.length _ rest (by omega) hk, hlen]
    have hs := sizeRead_shift m1.order ct.length (by omega)
    unfold SizeAccepted
    obtain ⟨o1, w1⟩ := m1
    obtain ⟨o2, w2⟩ := m2
    cases w1 <;> cases w2 <;> simp <;> grind
  · simp only [List.length_append, ht, length_sizeBufOn]; unfold Machine.sizeT; split <;> omega
  · simp only [List.length_append, ht, length_sizeBufOn]; unfold Machine.sizeT; split <;> (split; all_goals omega)

/-! ### the property -/

/-- C120: on the 64-bit little-endian machine the functions are those of the other models. -/
theorem C120_pc (c : GcmCtx) (w : WbGcmCtx) (junk : Vector Byte 4) (fs : FS) (inp out : Path) :
    gcmfileEncryptOn pc c junk fs inp out = gcmfileEncrypt c junk fs inp out ∧
    gcmfileDecryptOn pc c fs inp out = gcmfileDecrypt c fs inp out ∧
    wbgcmfileEncryptOn pc w junk fs inp out = wbgcmfileEncrypt w junk fs inp out ∧
    wbgcmfileDecryptOn pc w fs inp out = wbgcmfileDecrypt w fs inp out := by
  have h : ∀ n, sizeBufOn pc n junk = sizeBuf n junk := by
    intro n
    show _ ++ List.take 4 _ = _
    rw [List.take_of_length_le (by simp)]
    rfl
  refine ⟨?_, rfl, ?_, rfl⟩
  · unfold gcmfileEncryptOn gcmfileEncrypt
    simp only [h]
  · unfold wbgcmfileEncryptOn wbgcmfileEncrypt
    simp only [h]

/-- C120: a file that one machine encrypts and another decrypts. The file is tag, size field of the writing machine and
GCM ciphertext. The reader decrypts what follows its own size field: the content between machines of one word size,
something else between the others. It reports success only where sizes agree. -/
theorem C120_gcmfile (m1 m2 : Machine) (E : Block → Block) (iv aad : List Byte) (junk : Vector Byte 4) (fs : FS)
    (inp out out2 : Path) (d : List Byte)
    (hiv : iv.length < 2 ^ 29) (ha : aad.length < 2 ^ 61)
    (h1 : inp ≠ out) (h2 : inp ≠ tmpPath out) (h3 : out ≠ out2) (hd : fs inp = some d) (hl : d.length + 4 < 2 ^ 31) :
    ∃ r fs' r2, gcmfileEncryptOn m1 (gcmAad (gcmSetiv (gcmInit E) iv) aad) junk fs inp out = some r ∧ r.ret = 1 ∧
      fs' = applyOps fs r.log ∧
      fs' out = some ((gcmTag E iv aad (gcmCipher E iv d)).toList ++ sizeField m1 d.length junk ++ gcmCipher E iv d) ∧
      gcmfileDecryptOn m2 (gcmAad (gcmSetiv (gcmInit E) iv) aad) fs' out out2 = some r2 ∧
      applyOps fs' r2.log out2 = some (match m1.wide, m2.wide with
        | true, false => gcmCipher E iv (junk.toList ++ gcmCipher E iv d)
        | false, true => gcmCipher E iv ((gcmCipher E iv d).drop 4)
        | _, _ => d) ∧
      r2.ret = (if SizeAccepted m1 m2 d.length then 1 else 0) := by
  obtain ⟨r, tag, c1, c2, a1, a2, a3, a4, a5, a6, a7⟩ :=
    encryptOn_eq m1 (gcmAad (gcmSetiv (gcmInit E) iv) aad) junk fs inp out d h1 h2 hd (by omega)
  have hy : toBV (gcmAad (gcmSetiv (gcmInit E) iv) aad).y = j0 E iv := by
    show toBV (gcmSetiv (gcmInit E) iv).y = _
    rw [setiv_y _ (init_ok E) iv hiv]; rfl
  have hct : ∀ x, gctr (gcmAad (gcmSetiv (gcmInit E) iv) aad).block
      (inc32 (toBV (gcmAad (gcmSetiv (gcmInit E) iv) aad).y)) x = gcmCipher E iv x := by
    intro x
    rw [show (gcmAad (gcmSetiv (gcmInit E) iv) aad).block = E from rfl, hy]; rfl
  have hlen : ∀ x, (gcmCipher E iv x).length = x.length := fun x => length_gctr _ _ _
  have htag : tag = (gcmTag E iv aad (gcmCipher E iv d)).toList := by
    have hs := C12_gcm_nist E iv aad d (List.replicate d.length 0) d.length hiv ha (by omega) (Nat.le_refl _) (by simp)
    simp only [sealMsg, a4, a5, Option.bind_eq_bind, Option.bind_some] at hs
    simpa using (Prod.mk.inj (Prod.mk.inj (Option.some.inj hs)).2).2
  rw [hct] at a7
  have hlr := (log_result fs (tmpPath out) out (gcmCipher E iv d) (tag ++ sizeBufOn m1 d.length junk ++ gcmCipher E iv d)
    (tmpPath_ne out)).1
  rw [← a7] at hlr
  obtain ⟨g1, g2, g3, g4⟩ := content_read m1 m2 tag (gcmCipher E iv d) junk a6 (by rw [hlen]; omega)
  rw [hlen] at g1 g2 g3 g4
  obtain ⟨r2, b1, b2, b3⟩ := decryptOn_eq m2 (gcmAad (gcmSetiv (gcmInit E) iv) aad) (applyOps fs r.log) out out2 _ h3 hlr
    (by omega) g4
  refine ⟨r, _, r2, a1, a2, rfl, ?_, b1, ?_, ?_⟩
  · rw [hlr, htag, sizeBufOn_eq m1 _ _ (by omega)]
  · rw [b3, hct, g1, applyOps_trunc_put]
    obtain ⟨o1, w1⟩ := m1
    obtain ⟨o2, w2⟩ := m2
    have hinv : gcmCipher E iv (gcmCipher E iv d) = d := gctr_gctr E d _
    cases w1 <;> cases w2
    · exact congrArg some hinv
    · rfl
    · rfl
    · exact congrArg some hinv
  · rw [b2]
    by_cases h : SizeAccepted m1 m2 d.length
    · rw [if_pos (g2.mpr h), if_pos h]
    · rw [if_neg (fun k => h (g2.mp k)), if_neg h]

/-- C120: which sizes the reader accepts. Files of little-endian machines: all, between machines of one word size. Files of
big-endian machines: those whose size has the same bytes from both ends, so none of 1 to 65535 bytes. Between machines of
other word size only the empty file, and only from 32 to 64 bits. -/
theorem C120_sizes (m1 m2 : Machine) (n : Nat) (hn : n < 2 ^ 31) :
    (m1.wide = m2.wide → m1.order = .little → SizeAccepted m1 m2 n) ∧
    (m1.wide = m2.wide → m1.order = .big →
      (SizeAccepted m1 m2 n ↔ n % 256 = n / 256 ^ 3 ∧ n / 256 % 256 = n / 256 ^ 2 % 256)) ∧
    (m1.order = .big → 0 < n → n < 65536 → ¬SizeAccepted m1 m2 n) ∧
    (m1.wide ≠ m2.wide → (SizeAccepted m1 m2 n ↔ m1.wide = false ∧ n = 0)) := by
  refine ⟨?_, ?_, ?_, ?_⟩
  · intro h1 h2
    exact .inl ⟨h1, by rw [h2]; rfl⟩
  · intro h1 h2
    unfold SizeAccepted
    rw [h2, h1]
    simp only [sizeRead, true_and]
    have e : n = n % 256 + 256 * (n / 256 % 256) + 65536 * (n / 65536 % 256) + 16777216 * (n / 16777216) := by omega
    have e3 : n / 256 ^ 3 % 256 = n / 16777216 := by omega
    have e3' : n / 256 ^ 3 = n / 16777216 := rfl
    have e2 : n / 256 ^ 2 % 256 = n / 65536 % 256 := rfl
    have l0 : n % 256 < 256 := by omega
    have l1 : n / 256 % 256 < 256 := by omega
    have l2 : n / 65536 % 256 < 256 := by omega
    have l3 : n / 16777216 < 128 := by omega
    have hw : ¬(m2.wide = false ∧ m2.wide = true ∧ n = 0) := by grind
    rw [or_iff_left hw, e3, e2, e3']
    generalize n % 256 = b0, n / 256 % 256 = b1, n / 65536 % 256 = b2, n / 16777216 = b3 at *
    subst e
    clear e3 e2 hn hw e3'
    constructor
    · intro h
      have : b3 = b0 := by omega
      omega
    · intro h
      omega
  · intro h1 h2 h3 h
    rcases h with ⟨-, h⟩ | ⟨-, -, h⟩
    · rw [h1] at h
      simp only [sizeRead] at h
      have e3 : n / 256 ^ 3 = 0 := by omega
      have e2 : n / 256 ^ 2 = 0 := by omega
      rw [e3, e2] at h
      have : n / 256 % 256 = n / 256 := by omega
      rw [this] at h
      have : n = 256 * (n / 256) + n % 256 := by omega
      have : n / 256 < 256 := by omega
      omega
    · omega
  · intro h
    unfold SizeAccepted
    constructor
    · rintro (⟨k, -⟩ | ⟨k, -, k'⟩)
      · exact absurd k h
      · exact ⟨k, k'⟩
    · rintro ⟨k, k'⟩
      refine .inr ⟨k, ?_, k'⟩
      rw [k] at h
      grind

/-- C120: whether the reader reports success does not depend on the context, in the three file formats. -/
theorem C120_any_context (m1 m2 : Machine) (c : GcmCtx) (w : WbGcmCtx) (tag ct : List Byte) (junk : Vector Byte 4) (fs : FS)
    (inp out : Path) (h : inp ≠ out) (ht : tag.length = 16) (hl : ct.length + 4 < 2 ^ 31)
    (hd : fs inp = some (tag ++ sizeField m1 ct.length junk ++ ct)) :
    (∃ r, gcmfileDecryptOn m2 c fs inp out = some r ∧ r.ret = if SizeAccepted m1 m2 ct.length then 1 else 0) ∧
    (∃ r, wbgcmfileDecryptOn m2 w fs inp out = some r ∧ r.ret = if SizeAccepted m1 m2 ct.length then 1 else 0) := by
  rw [← sizeBufOn_eq m1 _ _ (by omega)] at hd
  obtain ⟨g1, g2, g3, g4⟩ := content_read m1 m2 tag ct junk ht hl
  obtain ⟨r, b1, b2, -⟩ := decryptOn_eq m2 c fs inp out _ h hd (by omega) g4
  obtain ⟨r', _, b1', b2', -⟩ := wb_decryptOn_defined m2 w fs inp out _ h hd (by omega) g4
  by_cases k : SizeAccepted m1 m2 ct.length
  · rw [if_pos (g2.mpr k)] at b2 b2'
    rw [if_pos k]
    exact ⟨⟨r, b1, b2⟩, ⟨r', b1', b2'⟩⟩
  · rw [if_neg (fun j => k (g2.mp j))] at b2 b2'
    rw [if_neg k]
    exact ⟨⟨r, b1, b2⟩, ⟨r', b1', b2'⟩⟩

/-- The cipher that white-box AES computes on a machine (C37, C119). -/
def aesOn (o : ByteOrder) (key : Block) : Block → Block :=
  match o with
  | .little => aes128 key
  | .big => aes128Flip key

theorem on_ee_boxed (o : ByteOrder) (r : WbaesRnd) (r1 r2 : Fin 16 → Nat → BitVec 32) (jt : Vector (Fin 256) 256) (key : Block) :
    Boxed (wbEeInit (wbEeGenTableOn o r r1 r2 jt key)) (aesOn o key) (eeEnc r r1 jt) xorComb := by
  cases o
  · exact ee_boxed r r1 r2 jt key
  · exact big_ee_boxed r r1 r2 jt key

/-- C120: the same for files of the ee mode, every machine with tables of its own. -/
theorem C120_ee (m1 m2 : Machine) (r rr : WbaesRnd) (r1 r2 rr1 rr2 : Fin 16 → Nat → BitVec 32) (jt jt' : Vector (Fin 256) 256)
    (key : Block) (iv aad : List Byte) (junk : Vector Byte 4) (fs : FS) (inp out out2 : Path) (d : List Byte)
    (hiv : iv.length < 2 ^ 29) (ha : aad.length < 2 ^ 61) (h1 : inp ≠ out) (h2 : inp ≠ tmpPath out) (h3 : out ≠ out2)
    (hd : fs inp = some d) (hl : d.length + 4 < 2 ^ 31) (hne : ¬(d = [] ∧ aad = [])) :
    ∃ e fs' p, wbgcmfileEncryptOn m1 (wbgcmAad (wbgcmSetiv (wbEeInit (wbEeGenTableOn m1.order r r1 r2 jt key)) iv) aad) junk fs
        inp out = some e ∧ e.ret = 1 ∧ fs' = applyOps fs e.log ∧
      fs' out = some ((gcmTag (aesOn m1.order key) iv aad (gcmCipher (aesOn m1.order key) iv d)).toList ++
        sizeField m1 d.length junk ++ gcmCipher (aesOn m1.order key) iv d) ∧
      wbgcmfileDecryptOn m2 (wbgcmAad (wbgcmSetiv (wbEeInit (wbEeGenTableOn m2.order rr rr1 rr2 jt' key)) iv) aad) fs' out out2 =
        some p ∧
      applyOps fs' p.log out2 = some (gcmCipher (aesOn m2.order key) iv
        (bodyRead m1 m2 junk (gcmCipher (aesOn m1.order key) iv d))) ∧
      (m1 = m2 → applyOps fs' p.log out2 = some d) ∧
      p.ret = (if SizeAccepted m1 m2 d.length then 1 else 0) := by
  have B1 := on_ee_boxed m1.order r r1 r2 jt key
  have B2 := on_ee_boxed m2.order rr rr1 rr2 jt' key
  obtain ⟨e, a1, a2, a3⟩ := wb_encryptOn_eq m1 B1 iv aad junk fs inp out d hiv ha h1 h2 hd (by omega)
  have hst : ∀ (E : Block → Block) x, stream xorComb E (inc32 (j0 E iv)) x = gcmCipher E iv x := fun E x => stream_xor _ _ _
  have hlen : ∀ (E : Block → Block) x, (gcmCipher E iv x).length = x.length := fun E x => length_gctr _ _ _
  rw [hst] at a3
  have hlr := (log_result fs (tmpPath out) out (gcmCipher (aesOn m1.order key) iv d)
    (wbTag (eeEnc r r1 jt) xorComb (aesOn m1.order key) iv aad (gcmCipher (aesOn m1.order key) iv d) 16 ++
      sizeBufOn m1 d.length junk ++ gcmCipher (aesOn m1.order key) iv d) (tmpPath_ne out)).1
  rw [← a3] at hlr
  obtain ⟨g1, g2, g3, g4⟩ := content_read m1 m2 (wbTag (eeEnc r r1 jt) xorComb (aesOn m1.order key) iv aad
    (gcmCipher (aesOn m1.order key) iv d) 16) (gcmCipher (aesOn m1.order key) iv d) junk (length_wbTag _ _ _ _ _ _)
    (by rw [hlen]; omega)
  rw [hlen] at g1 g2 g3 g4
  obtain ⟨p, b, b1, b2, b3⟩ := wb_decryptOn_defined m2 (wbgcmAad (wbgcmSetiv (wbEeInit
    (wbEeGenTableOn m2.order rr rr1 rr2 jt' key)) iv) aad) (applyOps fs e.log) out out2 _ h3 hlr (by omega) g4
  have hinv : ∀ (E : Block → Block) x, gcmCipher E iv (gcmCipher E iv x) = x := fun E x => gctr_gctr E x _
  have hout : applyOps (applyOps fs e.log) p.log out2 = some (gcmCipher (aesOn m2.order key) iv
        (bodyRead m1 m2 junk (gcmCipher (aesOn m1.order key) iv d))) := by
    rw [b3, g1, applyOps_trunc_put]
    generalize bodyRead m1 m2 junk (gcmCipher (aesOn m1.order key) iv d) = body
    obtain ⟨y', b', f1, -⟩ := wbfold_dec (wbaad_boxed B2 iv aad) xorComb xorComb_inv (gcmCipher (aesOn m2.order key) iv body)
      (wbgcmAad (wbgcmSetiv (wbEeInit (wbEeGenTableOn m2.order rr rr1 rr2 jt' key)) iv) aad).g.y b []
    rw [show toBV (wbgcmAad (wbgcmSetiv (wbEeInit (wbEeGenTableOn m2.order rr rr1 rr2 jt' key)) iv) aad).g.y = j0 (aesOn m2.order key) iv from
      wbsetiv_y B2 iv hiv, List.nil_append, hst, hinv] at f1
    rw [f1]
  have hne' : ¬(gcmCipher (aesOn m1.order key) iv d = [] ∧ aad = []) := by
    rintro ⟨g1, g2⟩
    refine hne ⟨?_, g2⟩
    have := congrArg List.length g1
    rw [hlen] at this
    exact List.length_eq_zero_iff.mp this
  refine ⟨e, _, p, a1, a2, rfl, ?_, b1, hout, ?_, ?_⟩
  · rw [hlr, wbTag_xor _ _ _ _ _ _ hne', List.take_of_length_le (by simp), sizeBufOn_eq m1 _ _ (by omega)]
  · rintro rfl
    rw [hout]
    obtain ⟨o, w⟩ := m1
    cases w <;> exact congrArg some (hinv _ _)
  · rw [b2]
    by_cases h : SizeAccepted m1 m2 d.length
    · rw [if_pos (g2.mpr h), if_pos h]
    · rw [if_neg (fun k => h (g2.mp k)), if_neg h]

theorem on_mask_enc_boxed (o : ByteOrder) (re rd : WbaesRnd) (roe rod : Fin 16 → Fin 2 → Nat → BitVec 32) (r : WbMaskRnd)
    (key : Block) : ∃ enc, Boxed (wbMaskInit (wbMaskGenTableOn o re rd roe rod r key).1) (aesOn o key) enc
      (fun i a e => maskL r i (a ^^^ e)) := by
  cases o
  · exact ⟨_, mask_enc_boxed re roe r key⟩
  · exact ⟨_, big_mask_enc_boxed re roe r key⟩

theorem on_mask_dec_boxed (o : ByteOrder) (re rd : WbaesRnd) (roe rod : Fin 16 → Fin 2 → Nat → BitVec 32) (r : WbMaskRnd)
    (key : Block) : ∃ enc, Boxed (wbMaskInit (wbMaskGenTableOn o re rd roe rod r key).2) (aesOn o key) enc
      (fun i a e => maskLinv r i a ^^^ e) := by
  cases o
  · exact ⟨_, mask_dec_boxed rd rod r key⟩
  · exact ⟨_, big_mask_dec_boxed rd rod r key⟩

/-- C120: files of the masked mode on one machine of any kind: the content comes back; a big-endian machine reports failure for the
sizes above. -/
theorem C120_mask (m : Machine) (re rd : WbaesRnd) (roe rod : Fin 16 → Fin 2 → Nat → BitVec 32) (r : WbMaskRnd)
    (key : Block) (iv aad : List Byte) (junk : Vector Byte 4) (fs : FS) (inp out out2 : Path) (d : List Byte)
    (hiv : iv.length < 2 ^ 29) (ha : aad.length < 2 ^ 61) (h1 : inp ≠ out) (h2 : inp ≠ tmpPath out) (h3 : out ≠ out2)
    (hd : fs inp = some d) (hl : d.length + 4 < 2 ^ 31) :
    ∃ e tag p, wbgcmfileEncryptOn m (wbgcmAad (wbgcmSetiv (wbMaskInit (wbMaskGenTableOn m.order re rd roe rod r key).1) iv) aad)
        junk fs inp out = some e ∧ e.ret = 1 ∧ tag.length = 16 ∧
      applyOps fs e.log out = some (tag ++ sizeField m d.length junk ++ layer (maskL r) (gcmCipher (aesOn m.order key) iv d)) ∧
      wbgcmfileDecryptOn m (wbgcmAad (wbgcmSetiv (wbMaskInit (wbMaskGenTableOn m.order re rd roe rod r key).2) iv) aad)
        (applyOps fs e.log) out out2 = some p ∧ applyOps (applyOps fs e.log) p.log out2 = some d ∧
      p.ret = (if SizeAccepted m m d.length then 1 else 0) := by
  obtain ⟨enc, B1⟩ := on_mask_enc_boxed m.order re rd roe rod r key
  obtain ⟨enc2, B2⟩ := on_mask_dec_boxed m.order re rd roe rod r key
  obtain ⟨e, a1, a2, a3⟩ := wb_encryptOn_eq m B1 iv aad junk fs inp out d hiv ha h1 h2 hd (by omega)
  have hlen := length_stream (fun i a e => maskL r i (a ^^^ e)) (aesOn m.order key) d (inc32 (j0 (aesOn m.order key) iv))
  have hlr := (log_result fs (tmpPath out) out (stream (fun i a e => maskL r i (a ^^^ e)) (aesOn m.order key)
      (inc32 (j0 (aesOn m.order key) iv)) d)
    (wbTag enc (fun i a e => maskL r i (a ^^^ e)) (aesOn m.order key) iv aad (stream (fun i a e => maskL r i (a ^^^ e))
      (aesOn m.order key) (inc32 (j0 (aesOn m.order key) iv)) d) 16 ++
      sizeBufOn m d.length junk ++ stream (fun i a e => maskL r i (a ^^^ e)) (aesOn m.order key)
      (inc32 (j0 (aesOn m.order key) iv)) d) (tmpPath_ne out)).1
  rw [← a3] at hlr
  obtain ⟨g1, g2, g3, g4⟩ := content_read m m (wbTag enc (fun i a e => maskL r i (a ^^^ e)) (aesOn m.order key) iv aad
    (stream (fun i a e => maskL r i (a ^^^ e)) (aesOn m.order key) (inc32 (j0 (aesOn m.order key) iv)) d) 16)
    (stream (fun i a e => maskL r i (a ^^^ e)) (aesOn m.order key) (inc32 (j0 (aesOn m.order key) iv)) d) junk
    (length_wbTag _ _ _ _ _ _) (by rw [hlen]; omega)
  rw [hlen] at g1 g2 g3 g4
  obtain ⟨p, b, b1, b2, b3⟩ := wb_decryptOn_defined m (wbgcmAad (wbgcmSetiv (wbMaskInit
    (wbMaskGenTableOn m.order re rd roe rod r key).2) iv) aad) (applyOps fs e.log) out out2 _ h3 hlr (by omega) g4
  refine ⟨e, wbTag enc (fun i a e => maskL r i (a ^^^ e)) (aesOn m.order key) iv aad
    (stream (fun i a e => maskL r i (a ^^^ e)) (aesOn m.order key) (inc32 (j0 (aesOn m.order key) iv)) d) 16, p, a1, a2,
    length_wbTag _ _ _ _ _ _, ?_, b1, ?_, ?_⟩
  · rw [hlr, sizeBufOn_eq m _ _ (by omega)]
    rw [stream_layer]
    rfl
  · have hb : bodyRead m m junk (stream (fun i a e => maskL r i (a ^^^ e)) (aesOn m.order key)
      (inc32 (j0 (aesOn m.order key) iv)) d) = stream (fun i a e => maskL r i (a ^^^ e)) (aesOn m.order key)
      (inc32 (j0 (aesOn m.order key) iv)) d := by
      obtain ⟨o, w⟩ := m
      cases w <;> rfl
    rw [b3, g1, hb, applyOps_trunc_put]
    obtain ⟨y', b', f1, -⟩ := wbfold_dec (wbaad_boxed B2 iv aad) (fun i a e => maskL r i (a ^^^ e))
      (fun i a e => by rw [maskL_inv, BitVec.xor_assoc, BitVec.xor_self, BitVec.xor_zero]) d
      (wbgcmAad (wbgcmSetiv (wbMaskInit (wbMaskGenTableOn m.order re rd roe rod r key).2) iv) aad).g.y b []
    rw [show toBV (wbgcmAad (wbgcmSetiv (wbMaskInit (wbMaskGenTableOn m.order re rd roe rod r key).2) iv) aad).g.y =
      j0 (aesOn m.order key) iv from wbsetiv_y B2 iv hiv, List.nil_append] at f1
    rw [f1]
  · rw [b2]
    by_cases h : SizeAccepted m m d.length
    · rw [if_pos (g2.mpr h), if_pos h]
    · rw [if_neg (fun k => h (g2.mp k)), if_neg h]

/- A file of three bytes from a 64-bit big-endian machine for a 32-bit little-endian one; the size field and what is accepted. -/
example : ∃ (fs : FS) (inp out out2 : Path) (d : List Byte), inp ≠ out ∧ inp ≠ tmpPath out ∧ out ≠ out2 ∧
    fs inp = some d ∧ d.length + 4 < 2 ^ 31 ∧ ¬(d = [] ∧ ([] : List Byte) = []) ∧
    sizeField ⟨.big, true⟩ d.length #v[9, 9, 9, 9] = [0, 0, 0, 3, 9, 9, 9, 9] ∧
    ¬SizeAccepted ⟨.big, true⟩ ⟨.little, false⟩ d.length :=
  ⟨fun p => if p = ['a'] then some [1, 2, 3] else none, ['a'], ['b'], ['c'], [1, 2, 3], by decide, by decide, by decide,
    rfl, by decide, by decide, by decide, by decide⟩
example : SizeAccepted ⟨.big, true⟩ ⟨.little, true⟩ 0x00ABAB00 ∧ ¬SizeAccepted ⟨.big, true⟩ ⟨.big, true⟩ 0x00ABAC00 := by decide

end Verif.Props
