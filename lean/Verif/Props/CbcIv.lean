import Verif.Props.Cbc
import Verif.Chunks

/-!
# The IV variable of CBC over several calls

`WBCRYPTO_cbc128_encrypt` takes `ivec` as an array that is not `const` but leaves it as it was (cbc128.c lines 3-44: `iv` is moved
to the output, `ivec` is never written); `WBCRYPTO_cbc128_decrypt` writes the last ciphertext block into it (lines 78, 89, 104,
108). What this means for a sender and a receiver that keep their IV in a variable.
-/
set_option autoImplicit false

namespace Verif.Props
open Verif Spec Model

/-- The messages of a list encrypted one after the other with one IV variable, each into a buffer of the size needed. -/
def sendAll (E : Block → Block) : Block → List (List Byte) → Option (List (List Byte) × Block)
  | iv, [] => some ([], iv)
  | iv, m :: ms => do
    let r ← Model.cbcEncrypt E false m (List.replicate (pkcs7 m).length 0) (pkcs7 m).length iv
    let (cs, iv') ← sendAll E r.ivec ms
    some (r.out :: cs, iv')

/-- The ciphertexts of a list decrypted one after the other with one IV variable. -/
def recvAll (D : Block → Block) : Block → List (List Byte) → Option (List (List Byte) × Block)
  | iv, [] => some ([], iv)
  | iv, c :: cs => do
    let r ← Model.cbcDecrypt D c c.length (List.replicate c.length 0) c.length iv
    let (ms, iv') ← recvAll D r.ivec cs
    some (r.out :: ms, iv')

/-! ### specification -/

/-- A list of bytes as blocks. -/
def asBlocks (l : List Byte) : List Block := (chunks l).map fun c => Vector.ofFn fun i => c.getD i.1 0

/-- The textbook ciphertext of a padded message. -/
def cbcText (E : Block → Block) (iv : Block) (m : List Byte) : List Byte := fromBlocks (Spec.cbcEncrypt E iv (asBlocks (pkcs7 m)))

theorem fromBlocks_asBlocks (l : List Byte) (h : l.length % 16 = 0) : fromBlocks (asBlocks l) = l := by
  unfold asBlocks
  induction l using chunks_induction with
  | nil => rfl
  | step l hl ih =>
    have h0 := List.length_pos_iff.mpr hl
    rw [chunks_of_ne_nil hl, List.map_cons, fromBlocks_cons, ih (by simp; omega)]
    conv => rhs; rw [← List.take_append_drop 16 l]
    congr 1
    apply List.ext_getElem
    · simp; omega
    · intro i h1 h2
      simp at h1
      simp [List.getD_eq_getElem?_getD]
      rw [List.getElem?_eq_getElem (by omega)]
      rfl

theorem cbcText_length (E : Block → Block) (iv : Block) (m : List Byte) : (cbcText E iv m).length = (pkcs7 m).length := by
  have := congrArg List.length (fromBlocks_asBlocks (pkcs7 m) (length_pkcs7 m))
  rw [length_fromBlocks] at this
  rw [cbcText, length_fromBlocks, length_specCbcEncrypt, this]

theorem enc_text (E : Block → Block) (iv : Block) (m : List Byte) (hm : m.length < 2 ^ 31 - 16) :
    Model.cbcEncrypt E false m (List.replicate (pkcs7 m).length 0) (pkcs7 m).length iv =
      some { ret := 1, out := cbcText E iv m, useOlen := some (BitVec.ofNat 64 (pkcs7 m).length), ivec := iv } := by
  have hb := fromBlocks_asBlocks (pkcs7 m) (length_pkcs7 m)
  have hl := congrArg List.length hb
  rw [length_fromBlocks] at hl
  rw [C03_cbc_encrypt E m _ _ iv _ hb hm (Nat.le_refl _) (by simp), hl]
  simp [cbcText]

/-- C115: the sender's IV is not changed by encryption: all messages are encrypted under the same one. -/
theorem C115_same_iv (E : Block → Block) (iv : Block) (ms : List (List Byte)) (hm : ∀ m ∈ ms, m.length < 2 ^ 31 - 16) :
    sendAll E iv ms = some (ms.map (cbcText E iv), iv) := by
  induction ms with
  | nil => rfl
  | cons m ms ih =>
    rw [sendAll, enc_text E iv m (hm m (by simp))]
    simp only [Option.bind_eq_bind, Option.bind_some]
    rw [ih fun x hx => hm x (by simp [hx])]
    rfl

theorem cbc_take (E : Block → Block) (hE : ∀ a b, E a = E b → a = b) (k : Nat) : ∀ (iv : Block) (ps qs : List Block),
    k ≤ ps.length → k ≤ qs.length →
    ((Spec.cbcEncrypt E iv ps).take k = (Spec.cbcEncrypt E iv qs).take k ↔ ps.take k = qs.take k) := by
  induction k with
  | zero => intro iv ps qs _ _; simp
  | succ k ih =>
    intro iv ps qs hp hq
    cases ps with
    | nil => simp at hp
    | cons p ps =>
      cases qs with
      | nil => simp at hq
      | cons q qs =>
        simp only [Spec.cbcEncrypt, List.take_succ_cons, List.cons.injEq]
        constructor
        · rintro ⟨h1, h2⟩
          have h := hE _ _ h1
          have h3 : p = q := by
            have := congrArg (· ^^^ iv) h
            simpa only [Vec.xor_cancel_right] using this
          subst h3
          exact ⟨rfl, (ih _ _ _ (by simpa using hp) (by simpa using hq)).mp h2⟩
        · rintro ⟨rfl, h⟩
          exact ⟨rfl, (ih _ _ _ (by simpa using hp) (by simpa using hq)).mpr h⟩

theorem take_fromBlocks (k : Nat) : ∀ (bs : List Block), (fromBlocks bs).take (16 * k) = fromBlocks (bs.take k) := by
  induction k with
  | zero => intro bs; simp
  | succ k ih =>
    intro bs
    cases bs with
    | nil => simp
    | cons b bs =>
      rw [fromBlocks_cons, List.take_succ_cons, fromBlocks_cons, ← ih,
        show 16 * (k + 1) = b.toList.length + 16 * k by simp; omega, List.take_length_add_append]

theorem text_prefix (E : Block → Block) (hE : ∀ a b, E a = E b → a = b) (iv : Block) (m m' : List Byte) (k : Nat)
    (hk : 16 * k ≤ (pkcs7 m).length) (hk' : 16 * k ≤ (pkcs7 m').length) :
    (cbcText E iv m).take (16 * k) = (cbcText E iv m').take (16 * k) ↔ (pkcs7 m).take (16 * k) = (pkcs7 m').take (16 * k) := by
  have hb := fromBlocks_asBlocks (pkcs7 m) (length_pkcs7 m)
  have hb' := fromBlocks_asBlocks (pkcs7 m') (length_pkcs7 m')
  have hl := congrArg List.length hb
  have hl' := congrArg List.length hb'
  rw [length_fromBlocks] at hl hl'
  have inj : ∀ as bs : List Block, fromBlocks as = fromBlocks bs ↔ as = bs := fun as bs => ⟨fromBlocks_inj, fun h => by rw [h]⟩
  rw [cbcText, cbcText, take_fromBlocks, take_fromBlocks, inj, cbc_take E hE k iv _ _ (by omega) (by omega)]
  conv => rhs; rw [← hb, ← hb', take_fromBlocks, take_fromBlocks, inj]

/-- C115: any two of the messages sent: the ciphertexts begin with the same `k` blocks exactly if the padded messages do. -/
theorem C115_prefix (E : Block → Block) (hE : ∀ a b, E a = E b → a = b) (iv iv' : Block) (ms cs : List (List Byte))
    (hm : ∀ m ∈ ms, m.length < 2 ^ 31 - 16) (hs : sendAll E iv ms = some (cs, iv')) (i j k : Nat) (m m' c c' : List Byte)
    (h1 : ms[i]? = some m) (h2 : ms[j]? = some m') (h3 : cs[i]? = some c) (h4 : cs[j]? = some c')
    (hk : 16 * k ≤ (pkcs7 m).length) (hk' : 16 * k ≤ (pkcs7 m').length) :
    c.take (16 * k) = c'.take (16 * k) ↔ (pkcs7 m).take (16 * k) = (pkcs7 m').take (16 * k) := by
  rw [C115_same_iv E iv ms hm] at hs
  simp only [Option.some.injEq, Prod.mk.injEq] at hs
  rw [← hs.1, List.getElem?_map, h1] at h3
  rw [← hs.1, List.getElem?_map, h2] at h4
  cases h3
  cases h4
  exact text_prefix E hE iv m m' k hk hk'

/-! ### the secret behind a chosen prefix -/

/-- All bytes. -/
def everyByte : List Byte := (List.range 256).map (BitVec.ofNat 8)

/-- The next byte of a secret: the prefix makes it the last byte of a block, and the block is compared with those of the 256
candidates. `o1` encrypts a prefix and the secret, `o2` a message. -/
def nextByte (o1 o2 : List Byte → List Byte) (known : List Byte) : Option Byte :=
  let q := List.replicate (15 - known.length % 16) 0
  let k := 16 * (known.length / 16 + 1)
  everyByte.find? fun g => decide ((o2 (q ++ known ++ [g])).take k = (o1 q).take k)

/-- `n` bytes of the secret. -/
def recover (o1 o2 : List Byte → List Byte) : Nat → Option (List Byte)
  | 0 => some []
  | n + 1 => do
    let known ← recover o1 o2 n
    let b ← nextByte o1 o2 known
    some (known ++ [b])

/-- What the sender, who keeps the IV in a variable holding `iv`, puts out for one message. -/
def sentText (E : Block → Block) (iv : Block) (m : List Byte) : List Byte :=
  match sendAll E iv [m] with
  | some ([c], _) => c
  | _ => []

theorem sentText_eq (E : Block → Block) (iv : Block) (m : List Byte) (hm : m.length < 2 ^ 31 - 16) :
    sentText E iv m = cbcText E iv m := by
  rw [sentText, C115_same_iv E iv [m] (by simpa using hm)]
  rfl

theorem mem_everyByte (b : Byte) : b ∈ everyByte := by
  rw [everyByte, List.mem_map]
  exact ⟨b.toNat, List.mem_range.mpr b.isLt, by simp⟩

theorem pkcs7_take (m : List Byte) (k : Nat) (hk : k ≤ m.length) : (pkcs7 m).take k = m.take k := by
  rw [pkcs7, List.take_append_of_le_length hk]

theorem nextByte_eq (E : Block → Block) (hE : ∀ a b, E a = E b → a = b) (iv : Block) (s : List Byte) (n : Nat) (hn : n < s.length)
    (hs : s.length < 2 ^ 31 - 32) :
    nextByte (fun q => sentText E iv (q ++ s)) (sentText E iv) (s.take n) = some s[n] := by
  have hl : (s.take n).length = n := by simp; omega
  have key : ∀ g : Byte, (sentText E iv (List.replicate (15 - n % 16) 0 ++ s.take n ++ [g])).take (16 * (n / 16 + 1)) =
      (sentText E iv (List.replicate (15 - n % 16) 0 ++ s)).take (16 * (n / 16 + 1)) ↔ g = s[n] := by
    intro g
    have e1 : (List.replicate (15 - n % 16) 0 ++ s.take n ++ [g] : List Byte).length = 16 * (n / 16 + 1) := by
      simp; omega
    have e2 : 16 * (n / 16 + 1) ≤ (List.replicate (15 - n % 16) 0 ++ s : List Byte).length := by simp; omega
    have e3 : ∀ m : List Byte, m.length ≤ (pkcs7 m).length := by intro m; simp [pkcs7]
    rw [sentText_eq _ _ _ (by omega), sentText_eq _ _ _ (by simp; omega),
      text_prefix E hE iv _ _ _ (by have := e3 (List.replicate (15 - n % 16) 0 ++ s.take n ++ [g]); omega)
        (Nat.le_trans e2 (e3 _)), pkcs7_take _ _ (by omega), pkcs7_take _ _ e2, List.take_of_length_le (by omega)]
    have e4 : (List.replicate (15 - n % 16) 0 ++ s : List Byte).take (16 * (n / 16 + 1)) =
        List.replicate (15 - n % 16) 0 ++ s.take n ++ [s[n]] := by
      rw [List.append_assoc, List.take_append_getElem hn,
        show 16 * (n / 16 + 1) = (List.replicate (15 - n % 16) (0 : Byte)).length + (n + 1) by simp; omega,
        List.take_length_add_append]
    rw [e4, List.append_cancel_left_eq]
    simp
  unfold nextByte
  simp only [hl, key]
  cases hf : everyByte.find? fun g => decide (g = s[n]) with
  | none =>
    rw [List.find?_eq_none] at hf
    exact absurd (hf s[n] (mem_everyByte _)) (by simp)
  | some g =>
    have := List.find?_some hf
    simp at this
    rw [this]

/-- C115: whoever can have messages of their choice encrypted with the sender's variable, and prefixes of their choice with the
secret behind them, has the whole secret, with 257 messages a byte. -/
theorem C115_secret (E : Block → Block) (hE : ∀ a b, E a = E b → a = b) (iv : Block) (s : List Byte) (hs : s.length < 2 ^ 31 - 32) :
    ∀ n, n ≤ s.length → recover (fun q => sentText E iv (q ++ s)) (sentText E iv) n = some (s.take n) := by
  intro n
  induction n with
  | zero => intro _; rfl
  | succ n ih =>
    intro hn
    rw [recover, ih (by omega)]
    simp only [Option.bind_eq_bind, Option.bind_some]
    rw [nextByte_eq E hE iv s n (by omega) hs]
    simp

/- Twenty bytes behind the prefix. -/
example : (List.replicate 20 (7 : Byte)).length < 2 ^ 31 - 32 := by decide

/-! ### the receiver -/

/-- The first block of a message changed by `d`. -/
def fixHead (d : Block) : List Block → List Block
  | [] => []
  | p :: ps => (p ^^^ d) :: ps

/-- What a receiver with one IV variable reads: the first message, and of the others the first block xor the IV and the last block
received before. -/
def misread (E : Block → Block) (iv : Block) : Block → List (List Block) → List (List Block)
  | _, [] => []
  | v, ps :: r => fixHead (iv ^^^ v) ps :: misread E iv ((Spec.cbcEncrypt E iv ps).getLastD v) r

theorem dec_other_iv (E D : Block → Block) (hDE : ∀ b, D (E b) = b) (iv v : Block) (ps : List Block) :
    Spec.cbcDecrypt D v (Spec.cbcEncrypt E iv ps) = fixHead (iv ^^^ v) ps := by
  cases ps with
  | nil => rfl
  | cons p ps =>
    simp only [Spec.cbcEncrypt, Spec.cbcDecrypt, hDE, specCbc_roundtrip E D hDE, fixHead]
    congr 1
    apply Vector.ext
    intro i hi
    simp [Vec.getElem_xor, BitVec.xor_assoc]

theorem recvAll_eq (E D : Block → Block) (hDE : ∀ b, D (E b) = b) (iv : Block) (pss : List (List Block))
    (hm : ∀ ps ∈ pss, 16 * ps.length < 2 ^ 31) : ∀ v,
    ∃ v', recvAll D v (pss.map fun ps => fromBlocks (Spec.cbcEncrypt E iv ps)) = some ((misread E iv v pss).map fromBlocks, v') := by
  induction pss with
  | nil => intro v; exact ⟨v, rfl⟩
  | cons ps pss ih =>
    intro v
    have hl : (fromBlocks (Spec.cbcEncrypt E iv ps)).length = 16 * (Spec.cbcEncrypt E iv ps).length := length_fromBlocks _
    have hlen := length_specCbcEncrypt E iv ps
    obtain ⟨v', h⟩ := ih (fun x hx => hm x (by simp [hx])) ((Spec.cbcEncrypt E iv ps).getLastD v)
    refine ⟨v', ?_⟩
    rw [List.map_cons, recvAll, hl, cbcDecrypt_exact D _ v (by rw [hlen]; exact hm ps (by simp))]
    simp only [Option.bind_eq_bind, Option.bind_some, h, dec_other_iv E D hDE]
    rfl

/-- C115: messages sent with one variable and received with one variable holding the same IV at first. -/
theorem C115_receive (E D : Block → Block) (hDE : ∀ b, D (E b) = b) (iv : Block) (ms : List (List Byte))
    (hm : ∀ m ∈ ms, m.length < 2 ^ 31 - 16) :
    ∃ cs v', sendAll E iv ms = some (cs, iv) ∧
      recvAll D iv cs = some ((misread E iv iv (ms.map fun m => asBlocks (pkcs7 m))).map fromBlocks, v') := by
  have hb : ∀ ps ∈ ms.map (fun m => asBlocks (pkcs7 m)), 16 * ps.length < 2 ^ 31 := by
    intro ps hps
    obtain ⟨m, hmm, rfl⟩ := List.mem_map.mp hps
    rw [← length_fromBlocks, fromBlocks_asBlocks _ (length_pkcs7 m)]
    have := hm m hmm
    simp only [pkcs7, padCount, List.length_append, List.length_replicate]
    omega
  obtain ⟨v', h⟩ := recvAll_eq E D hDE iv _ hb iv
  refine ⟨_, v', C115_same_iv E iv ms hm, ?_⟩
  rw [← h, List.map_map]
  rfl

theorem fixHead_zero (ps : List Block) (iv : Block) : fixHead (iv ^^^ iv) ps = ps := by
  cases ps with
  | nil => rfl
  | cons p ps =>
    rw [fixHead]
    congr 1
    apply Vector.ext
    intro i hi
    simp [Vec.getElem_xor]

theorem drop_last_block (cs : List Block) (v : Block) (h : cs ≠ []) :
    (fromBlocks cs).drop ((fromBlocks cs).length - 16) = (cs.getLastD v).toList := by
  obtain ⟨as, a, rfl⟩ : ∃ as a, cs = as ++ [a] := ⟨cs.dropLast, cs.getLast h, (List.dropLast_concat_getLast h).symm⟩
  rw [fromBlocks_append, List.length_append, length_fromBlocks, length_fromBlocks]
  simp

theorem asBlocks_ne_nil {m : List Byte} (h0 : m ≠ []) : asBlocks (pkcs7 m) ≠ [] := by
  intro h
  have := fromBlocks_asBlocks (pkcs7 m) (length_pkcs7 m)
  rw [h] at this
  simp [pkcs7, h0] at this

theorem xor_self_iff (q d e : Block) : q ^^^ (d ^^^ e) = q ↔ e = d := by
  constructor
  · intro h
    apply Vector.ext
    intro i hi
    have h := congrArg (fun v : Block => v[i]) h
    simp only [Vec.getElem_xor] at h
    have h := congrArg (q[i] ^^^ ·) h
    simp only [← BitVec.xor_assoc, BitVec.xor_self, BitVec.zero_xor] at h
    exact (BitVec.xor_eq_zero_iff.mp h).symm
  · rintro rfl
    apply Vector.ext
    intro i hi
    simp [Vec.getElem_xor]

/-- C115: two messages: the first is read as sent; the second, if not empty, exactly if the last ciphertext block of the first is
the IV, and otherwise all but its first block. -/
theorem C115_second (E D : Block → Block) (hDE : ∀ b, D (E b) = b) (iv : Block) (m m' : List Byte)
    (hm : m.length < 2 ^ 31 - 16) (hm' : m'.length < 2 ^ 31 - 16) (h0 : m ≠ []) (h0' : m' ≠ []) :
    ∃ c c' r r' v, sendAll E iv [m, m'] = some ([c, c'], iv) ∧ recvAll D iv [c, c'] = some ([r, r'], v) ∧
      r = pkcs7 m ∧ r'.drop 16 = (pkcs7 m').drop 16 ∧ (r' = pkcs7 m' ↔ c.drop (c.length - 16) = iv.toList) := by
  have hms : ∀ x ∈ [m, m'], x.length < 2 ^ 31 - 16 := by simp; omega
  obtain ⟨cs, v, h1, h2⟩ := C115_receive E D hDE iv [m, m'] hms
  have h3 := C115_same_iv E iv [m, m'] hms
  rw [h1] at h3
  simp only [Option.some.injEq, Prod.mk.injEq, and_true] at h3
  subst h3
  have hb := fromBlocks_asBlocks (pkcs7 m) (length_pkcs7 m)
  have hb' := fromBlocks_asBlocks (pkcs7 m') (length_pkcs7 m')
  have hne : Spec.cbcEncrypt E iv (asBlocks (pkcs7 m)) ≠ [] := by
    intro e
    have := congrArg List.length e
    rw [length_specCbcEncrypt] at this
    exact asBlocks_ne_nil h0 (List.length_eq_zero_iff.mp this)
  refine ⟨_, _, _, _, v, h1, h2, ?_, ?_, ?_⟩
  · rw [fixHead_zero, hb]
  · show (fromBlocks (fixHead _ (asBlocks (pkcs7 m')))).drop 16 = _
    rw [show (pkcs7 m').drop 16 = (fromBlocks (asBlocks (pkcs7 m'))).drop 16 by rw [hb']]
    cases h : asBlocks (pkcs7 m') with
    | nil => exact absurd h (asBlocks_ne_nil h0')
    | cons q qs => simp [fixHead]
  · rw [cbcText, drop_last_block _ iv hne, Vector.toList_inj]
    show fromBlocks (fixHead _ (asBlocks (pkcs7 m'))) = _ ↔ _
    rw [show (fromBlocks (fixHead (iv ^^^ (Spec.cbcEncrypt E iv (asBlocks (pkcs7 m))).getLastD iv) (asBlocks (pkcs7 m'))) = pkcs7 m') =
      (fromBlocks (fixHead (iv ^^^ (Spec.cbcEncrypt E iv (asBlocks (pkcs7 m))).getLastD iv) (asBlocks (pkcs7 m'))) =
        fromBlocks (asBlocks (pkcs7 m'))) by rw [hb']]
    cases h : asBlocks (pkcs7 m') with
    | nil => exact absurd h (asBlocks_ne_nil h0')
    | cons q qs =>
      rw [fixHead]
      constructor
      · intro e
        have e := fromBlocks_inj e
        simp only [List.cons.injEq, and_true] at e
        exact (xor_self_iff _ _ _).mp e
      · intro e
        rw [(xor_self_iff q _ _).mpr e]

/- Two messages of one byte, with a cipher that is its own inverse. -/
example : (∀ b : Block, (b ^^^ zeroBlock.set 0 1) ^^^ zeroBlock.set 0 1 = b) ∧ ([5] : List Byte) ≠ [] :=
  ⟨fun b => Vec.xor_cancel_right _ _, by decide⟩

/-! ### one message in two calls -/

theorem specCbcEncrypt_append (E : Block → Block) (as bs : List Block) :
    ∀ iv, Spec.cbcEncrypt E iv (as ++ bs) =
      Spec.cbcEncrypt E iv as ++ Spec.cbcEncrypt E ((Spec.cbcEncrypt E iv as).getLastD iv) bs := by
  induction as with
  | nil => intro iv; simp [Spec.cbcEncrypt]
  | cons a as ih =>
    intro iv
    simp only [List.cons_append, Spec.cbcEncrypt, ih, List.getLastD_cons]

theorem asBlocks_append (a b : List Byte) (h : a.length % 16 = 0) : asBlocks (a ++ b) = asBlocks a ++ asBlocks b := by
  rw [asBlocks, chunks_append_aligned a b h, List.map_append]
  rfl

theorem pkcs7_aligned (a b : List Byte) (h : a.length % 16 = 0) : pkcs7 (a ++ b) = a ++ pkcs7 b := by
  have : padCount (a ++ b).length = padCount b.length := by
    rw [List.length_append]
    unfold padCount
    omega
  rw [pkcs7, pkcs7, this, List.append_assoc]

/-- C115: unlike decryption, encryption cannot be resumed through the IV: whole blocks `a` and then `b` in two calls give the
ciphertext of one call exactly if the last ciphertext block of the first call is the IV. -/
theorem C115_two_calls (E : Block → Block) (hE : ∀ a b, E a = E b → a = b) (iv : Block) (a b : List Byte) (h16 : a.length % 16 = 0)
    (hab : (a ++ b).length < 2 ^ 31 - 16) (ha : a ≠ []) (hb : b ≠ []) :
    ∃ c1 c2 c, sendAll E iv [a, b] = some ([c1, c2], iv) ∧ sendAll E iv [a ++ b] = some ([c], iv) ∧
      (c1 ++ c2 = c ↔ c1.drop (c1.length - 16) = iv.toList) := by
  have hl := hab
  rw [List.length_append] at hl
  have hpa : pkcs7 a = a := by
    have := pkcs7_aligned a [] h16
    rw [List.append_nil] at this
    rw [this]
    simp [pkcs7, padCount]
  refine ⟨_, _, _, C115_same_iv E iv [a, b] (by simp; omega), C115_same_iv E iv [a ++ b] (by simpa using hab), ?_⟩
  have hne : Spec.cbcEncrypt E iv (asBlocks a) ≠ [] := by
    intro e
    have := congrArg List.length e
    rw [length_specCbcEncrypt] at this
    have h := asBlocks_ne_nil ha
    rw [hpa] at h
    exact h (List.length_eq_zero_iff.mp this)
  simp only [cbcText, pkcs7_aligned a b h16, asBlocks_append a _ h16, specCbcEncrypt_append, fromBlocks_append, hpa]
  rw [List.append_cancel_left_eq, drop_last_block _ iv hne, Vector.toList_inj]
  constructor
  · intro h
    have h := fromBlocks_inj h
    cases hq : asBlocks (pkcs7 b) with
    | nil => exact absurd hq (asBlocks_ne_nil hb)
    | cons q qs =>
      rw [hq] at h
      simp only [Spec.cbcEncrypt, List.cons.injEq] at h
      have h := hE _ _ h.1
      apply Vector.ext
      intro i hi
      have h := congrArg (fun v : Block => v[i]) h
      simp only [Vec.getElem_xor] at h
      have h := congrArg (q[i] ^^^ ·) h
      simp only [← BitVec.xor_assoc, BitVec.xor_self, BitVec.zero_xor] at h
      exact h.symm
  · intro h
    rw [h]

/- One block and one byte. -/
example : (List.replicate 16 (1 : Byte)).length % 16 = 0 ∧ (List.replicate 16 (1 : Byte) ++ [2]).length < 2 ^ 31 - 16 := by decide

/-! ### equal ciphertext blocks and pasted ciphertexts -/

theorem specCbcEncrypt_getElem? (E : Block → Block) (ps : List Block) : ∀ (iv : Block) (j : Nat) (p : Block), ps[j]? = some p →
    (Spec.cbcEncrypt E iv ps)[j]? = some (E (p ^^^ (if j = 0 then iv else (Spec.cbcEncrypt E iv ps).getD (j - 1) iv))) := by
  induction ps with
  | nil => intro iv j p h; simp at h
  | cons q ps ih =>
    intro iv j p h
    cases j with
    | zero =>
      simp only [List.getElem?_cons_zero, Option.some.injEq] at h
      subst h
      simp [Spec.cbcEncrypt]
    | succ j =>
      rw [List.getElem?_cons_succ] at h
      rw [Spec.cbcEncrypt, List.getElem?_cons_succ, ih _ j p h]
      cases j with
      | zero => simp
      | succ j =>
        have hj : j < (Spec.cbcEncrypt E (E (q ^^^ iv)) ps).length := by
          rw [length_specCbcEncrypt]
          have := List.getElem?_eq_some_iff.mp h
          obtain ⟨h, -⟩ := this
          omega
        simp [List.getD_eq_getElem?_getD, List.getElem?_eq_getElem hj]

theorem asBlocks_fromBlocks (bs : List Block) : asBlocks (fromBlocks bs) = bs :=
  fromBlocks_inj (fromBlocks_asBlocks _ (by rw [length_fromBlocks]; omega))

/-- The block before the `i`th: the IV before the first. -/
def before (iv : Block) (c : List Byte) (i : Nat) : Block := if i = 0 then iv else (asBlocks c).getD (i - 1) iv

theorem sent_block (E : Block → Block) (iv iv' : Block) (ms cs : List (List Byte)) (hm : ∀ m ∈ ms, m.length < 2 ^ 31 - 16)
    (hs : sendAll E iv ms = some (cs, iv')) (a i : Nat) (m c : List Byte) (p b : Block) (h1 : ms[a]? = some m) (h2 : cs[a]? = some c)
    (h3 : (asBlocks (pkcs7 m))[i]? = some p) (h4 : (asBlocks c)[i]? = some b) : b = E (p ^^^ before iv c i) := by
  rw [C115_same_iv E iv ms hm] at hs
  simp only [Option.some.injEq, Prod.mk.injEq] at hs
  rw [← hs.1, List.getElem?_map, h1] at h2
  cases h2
  rw [before]
  rw [cbcText, asBlocks_fromBlocks] at h4 ⊢
  rw [specCbcEncrypt_getElem? E _ iv i p h3] at h4
  exact (Option.some.inj h4).symm

theorem xor4 (p x p' y : Byte) : p ^^^ x = p' ^^^ y ↔ p ^^^ p' = x ^^^ y := by
  rw [← BitVec.xor_eq_zero_iff, ← BitVec.xor_eq_zero_iff (x := p ^^^ p')]
  rw [show p ^^^ x ^^^ (p' ^^^ y) = p ^^^ p' ^^^ (x ^^^ y) by ac_rfl]

/-- C115: two ciphertext blocks, of one message sent or of two, are the same exactly if the plaintext blocks differ by what the
blocks before them differ by. -/
theorem C115_equal_blocks (E : Block → Block) (hE : ∀ a b, E a = E b → a = b) (iv iv' : Block) (ms cs : List (List Byte))
    (hm : ∀ m ∈ ms, m.length < 2 ^ 31 - 16) (hs : sendAll E iv ms = some (cs, iv')) (a a' i i' : Nat) (m m' c c' : List Byte)
    (p p' b b' : Block) (h1 : ms[a]? = some m) (h2 : cs[a]? = some c) (h3 : (asBlocks (pkcs7 m))[i]? = some p)
    (h4 : (asBlocks c)[i]? = some b) (h1' : ms[a']? = some m') (h2' : cs[a']? = some c')
    (h3' : (asBlocks (pkcs7 m'))[i']? = some p') (h4' : (asBlocks c')[i']? = some b') :
    b = b' ↔ p ^^^ p' = before iv c i ^^^ before iv c' i' := by
  rw [sent_block E iv iv' ms cs hm hs a i m c p b h1 h2 h3 h4, sent_block E iv iv' ms cs hm hs a' i' m' c' p' b' h1' h2' h3' h4']
  generalize before iv c i = x
  generalize before iv c' i' = y
  have e : E (p ^^^ x) = E (p' ^^^ y) ↔ p ^^^ x = p' ^^^ y := ⟨hE _ _, fun h => by rw [h]⟩
  rw [e]
  constructor
  · intro h
    apply Vector.ext
    intro j hj
    have h := congrArg (fun v : Block => v[j]) h
    simp only [Vec.getElem_xor] at h ⊢
    exact (xor4 _ _ _ _).mp h
  · intro h
    apply Vector.ext
    intro j hj
    have h := congrArg (fun v : Block => v[j]) h
    simp only [Vec.getElem_xor] at h ⊢
    exact (xor4 _ _ _ _).mpr h

/-- C115: a ciphertext block put behind any block `x` decrypts to its plaintext block xor the block that was before it xor `x`,
under every IV. -/
theorem C115_paste (E D : Block → Block) (hDE : ∀ b, D (E b) = b) (iv iv' : Block) (ms cs : List (List Byte))
    (hm : ∀ m ∈ ms, m.length < 2 ^ 31 - 16) (hs : sendAll E iv ms = some (cs, iv')) (a i : Nat) (m c : List Byte) (p b : Block)
    (h1 : ms[a]? = some m) (h2 : cs[a]? = some c) (h3 : (asBlocks (pkcs7 m))[i]? = some p) (h4 : (asBlocks c)[i]? = some b)
    (v x : Block) :
    ∃ r v', recvAll D v [x.toList ++ b.toList] = some ([r], v') ∧ r.drop 16 = (p ^^^ before iv c i ^^^ x).toList := by
  have hb := sent_block E iv iv' ms cs hm hs a i m c p b h1 h2 h3 h4
  have := cbcDecrypt_exact D [x, b] v (by simp)
  have e : fromBlocks [x, b] = x.toList ++ b.toList := by simp
  have el : (x.toList ++ b.toList).length = 16 * [x, b].length := by simp
  rw [e] at this
  refine ⟨fromBlocks (Spec.cbcDecrypt D v [x, b]), b, ?_, ?_⟩
  · rw [recvAll, el, this]
    simp [recvAll]
  · simp only [Spec.cbcDecrypt, fromBlocks_cons, fromBlocks_nil, List.append_nil]
    rw [List.drop_left' (by simp), hb, hDE]

/- One message of twenty bytes: its second block is there. -/
example : (asBlocks (pkcs7 (List.replicate 20 (7 : Byte)))).length = 2 := by decide

end Verif.Props
