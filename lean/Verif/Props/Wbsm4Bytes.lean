import Verif.Model.Wbsm4Bytes
import Verif.Props.Wbsm4File
import Verif.Props.Wbsm4
import Verif.Props.Gcm
import Verif.Props.Cbc

/-! Properties C77 (byte stream of a white-box SM4 context) and C78 (cleared contexts). -/
set_option autoImplicit false

namespace Verif.Props
open Verif Spec Model

theorem takeWords_eq : ∀ (ws : List (BitVec 32)) (r : List Byte), takeWords ws.length (ws.flatMap wordLE ++ r) = some ws := by
  intro ws
  induction ws with
  | nil => intro r; rfl
  | cons w ws ih =>
    intro r
    rw [List.flatMap_cons, List.append_assoc, List.length_cons, takeWords, fread_wordLE, Option.bind_some]
    simp only [ih, Option.map_some]

theorem takeWords_short : ∀ (n : Nat) (l : List Byte), l.length < 4 * n → takeWords n l = none := by
  intro n
  induction n with
  | zero => intro l h; omega
  | succ n ih =>
    intro l h
    match l, h with
    | a :: b :: c :: d :: r, h =>
      simp only [List.length_cons] at h
      simp only [takeWords, freadWord, Option.bind_some, ih r (by omega), Option.map_none]
    | [], _ => rfl
    | [_], _ => rfl
    | [_, _], _ => rfl
    | [_, _, _], _ => rfl

theorem length_tabWords (t : Fin 4 → Tab4) : (tabWords t).length = 4096 := by simp [tabWords]

theorem ptr_join (p : BitVec 64) : ((p >>> 32).truncate 32 ++ p.truncate 32 : BitVec 64) = p := by
  ext i hi
  rw [BitVec.getElem_append]
  by_cases h : i < 32
  · rw [dif_pos h]; simp [BitVec.getLsbD_eq_getElem hi]
  · rw [dif_neg h]
    simp only [BitVec.truncate_eq_setWidth, BitVec.getElem_setWidth, BitVec.getLsbD_ushiftRight]
    rw [show 32 + (i - 32) = i by omega, BitVec.getLsbD_eq_getElem hi]

theorem getD_tabWords (t : Fin 4 → Tab4) (i j : Fin 4) (k : Byte) :
    (tabWords t).getD (i.1 * 1024 + j.1 * 256 + k.toNat) 0 = t i j k := by
  have hk := k.isLt
  have hi := i.2
  have hj := j.2
  rw [tabWords, List.getD_eq_getElem?_getD, List.getElem?_map, List.getElem?_range (by omega)]
  simp only [Option.map_some, Option.getD_some]
  have h1 : Fin.ofNat 4 ((i.1 * 1024 + j.1 * 256 + k.toNat) / 1024) = i := by
    apply Fin.ext
    simp only [Fin.ofNat]
    omega
  have h2 : Fin.ofNat 4 ((i.1 * 1024 + j.1 * 256 + k.toNat) / 256) = j := by
    apply Fin.ext
    simp only [Fin.ofNat]
    omega
  have h3 : BitVec.ofNat 8 (i.1 * 1024 + j.1 * 256 + k.toNat) = k := by
    apply BitVec.eq_of_toNat_eq
    rw [BitVec.toNat_ofNat]
    omega
  rw [h1, h2, h3]

theorem getD_append_len (a b : List (BitVec 32)) (n k : Nat) (h : a.length = n) : (a ++ b).getD (n + k) 0 = b.getD k 0 := by
  rw [List.getD_eq_getElem?_getD, List.getElem?_append_right (by omega), List.getD_eq_getElem?_getD]
  congr 2
  omega

theorem getD_append_lt (a b : List (BitVec 32)) (k : Nat) (h : k < a.length) : (a ++ b).getD k 0 = a.getD k 0 := by
  rw [List.getD_eq_getElem?_getD, List.getElem?_append_left h, List.getD_eq_getElem?_getD]

/-- The layout of the structure for any two lists of 4096 words. -/
def layout (s : Wbsm4Struct) (A B : List (BitVec 32)) : List (BitVec 32) :=
  [s.rounds, s.encmode] ++ ptrWords s.mm ++ ptrWords s.cc ++ ptrWords s.dd ++ A ++ B ++ ptrWords s.table

theorem length_layout (s : Wbsm4Struct) (A B : List (BitVec 32)) (hA : A.length = 4096) (hB : B.length = 4096) :
    (layout s A B).length = 8202 := by
  simp [layout, ptrWords, hA, hB]

theorem layout_eq (s : Wbsm4Struct) (A B : List (BitVec 32)) (hA : A.length = 4096) (hB : B.length = 4096)
    (gA : ∀ (i j : Fin 4) (k : Byte), A.getD (i.1 * 1024 + j.1 * 256 + k.toNat) 0 = s.se i j k)
    (gB : ∀ (i j : Fin 4) (k : Byte), B.getD (i.1 * 1024 + j.1 * 256 + k.toNat) 0 = s.fe i j k) :
    structOfWords (layout s A B) = s := by
  have hse : ∀ (i j : Fin 4) (k : Byte), (layout s A B).getD (8 + (i.1 * 1024 + j.1 * 256 + k.toNat)) 0 = s.se i j k := by
    intro i j k
    have hk := k.isLt
    have hi := i.2
    have hj := j.2
    rw [layout, getD_append_lt _ _ _ (by simp [ptrWords, hA, hB]; omega),
      getD_append_lt _ _ _ (by simp [ptrWords, hA]; omega), getD_append_len _ _ 8 _ rfl, gA]
  have hfe : ∀ (i j : Fin 4) (k : Byte), (layout s A B).getD (4104 + (i.1 * 1024 + j.1 * 256 + k.toNat)) 0 = s.fe i j k := by
    intro i j k
    have hk := k.isLt
    have hi := i.2
    have hj := j.2
    rw [layout, getD_append_lt _ _ _ (by simp [ptrWords, hA, hB]; omega),
      getD_append_len _ _ 4104 _ (by simp [ptrWords, hA]), gB]
  have htb : ∀ k n, n = 8200 + k → (layout s A B).getD n 0 = (ptrWords s.table).getD k 0 := by
    intro k n hn
    rw [hn, layout, getD_append_len _ _ 8200 _ (by simp [ptrWords, hA, hB])]
  have hlow : ∀ k, k < 8 → (layout s A B).getD k 0 =
      ([s.rounds, s.encmode] ++ ptrWords s.mm ++ ptrWords s.cc ++ ptrWords s.dd).getD k 0 := by
    intro k hk
    rw [layout, getD_append_lt _ _ _ (by simp [ptrWords, hA, hB]; omega),
      getD_append_lt _ _ _ (by simp [ptrWords, hA]; omega), getD_append_lt _ _ _ (by simp [ptrWords]; omega)]
  unfold structOfWords
  simp only [hse, hfe, hlow _ (show 0 < 8 by decide), hlow _ (show 1 < 8 by decide), hlow _ (show 2 < 8 by decide),
    hlow _ (show 3 < 8 by decide), hlow _ (show 4 < 8 by decide), hlow _ (show 5 < 8 by decide), hlow _ (show 6 < 8 by decide),
    hlow _ (show 7 < 8 by decide), htb 0 8200 rfl, htb 1 8201 rfl]
  simp only [ptrWords, List.cons_append, List.nil_append, List.getD_cons_zero, List.getD_cons_succ, ptr_join]

theorem length_structWords (s : Wbsm4Struct) : (structWords s).length = 8202 :=
  length_layout s _ _ (length_tabWords _) (length_tabWords _)

theorem structOfWords_eq (s : Wbsm4Struct) : structOfWords (structWords s) = s :=
  layout_eq s _ _ (length_tabWords _) (length_tabWords _) (getD_tabWords _) (getD_tabWords _)

/-- C77: the stream has 32812 bytes and restores the structure; the length field is not looked at, a shorter stream is over-read
and what follows the structure is ignored. -/
theorem C77_stream (s : Wbsm4Struct) :
    (key2bytes s).length = 32812 ∧
    (∀ hdr rest : List Byte, hdr.length = 4 → bytes2key (hdr ++ (key2bytes s).drop 4 ++ rest) = some s) ∧
    (∀ n, n < 32812 → bytes2key ((key2bytes s).take n) = none) := by
  have hl : ((structWords s).flatMap wordLE).length = 32808 := by
    have : ∀ ws : List (BitVec 32), (ws.flatMap wordLE).length = 4 * ws.length := by
      intro ws
      induction ws with
      | nil => rfl
      | cons w ws ih => rw [List.flatMap_cons, List.length_append, ih]; simp [wordLE]; omega
    rw [this, length_structWords]
  have hk : (key2bytes s).length = 32812 := by
    rw [key2bytes, List.length_append, hl]; rfl
  refine ⟨hk, ?_, ?_⟩
  · intro hdr rest h
    have h4 : (key2bytes s).drop 4 = (structWords s).flatMap wordLE := by
      rw [key2bytes, List.drop_left' (show (wordLE 32812).length = 4 from rfl)]
    rw [bytes2key, List.append_assoc, List.drop_left' h, h4]
    have := takeWords_eq (structWords s) rest
    rw [length_structWords] at this
    rw [this, Option.map_some, structOfWords_eq]
  · intro n hn
    rw [bytes2key, takeWords_short _ _ (by rw [List.length_drop, List.length_take, hk]; omega)]
    rfl

/-- A structure and heap that hold a context with its round tables at the addresses `a`. -/
def Holds (h : WbHeap) (s : Wbsm4Struct) (c : Wbsm4Ctx) : Prop :=
  c.rnds.length < 2 ^ 31 ∧ s.rounds = BitVec.ofNat 32 c.rnds.length ∧ s.se = c.se ∧ s.fe = c.fe ∧
  h.mm s.mm = some (c.rnds.map WbRound.mm) ∧ h.cc s.cc = some (c.rnds.map WbRound.cc) ∧
  h.dd s.dd = some (c.rnds.map WbRound.dd) ∧ h.table s.table = some (c.rnds.map WbRound.table)

theorem loopBound_ofNat (n : Nat) (h : n < 2 ^ 31) : loopBound (BitVec.ofNat 32 n) = n := by
  rw [loopBound, BitVec.toInt_eq_toNat_of_lt (by simp; omega)]
  simp; omega

theorem zip_rows (l : List WbRound) :
    (List.zip (l.map WbRound.mm) (List.zip (l.map WbRound.cc) (List.zip (l.map WbRound.dd) (l.map WbRound.table)))).map
      (fun (a, b, c, d) => (⟨a, b, c, d⟩ : WbRound)) = l := by
  induction l with
  | nil => rfl
  | cons a l ih =>
    simp only [List.map_cons, List.zip_cons_cons]
    rw [ih]

theorem holds_encrypt (h : WbHeap) (s : Wbsm4Struct) (c : Wbsm4Ctx) (hc : Holds h s c) (x : Block) :
    wbsm4EncryptHeap h s x = some (wbsm4Encrypt c x) := by
  obtain ⟨h1, h2, h3, h4, h5, h6, h7, h8⟩ := hc
  unfold wbsm4EncryptHeap WbHeap.load
  simp only [h2, loopBound_ofNat _ h1, h3, h4, h5, h6, h7, h8]
  by_cases h0 : c.rnds.length = 0
  · rw [if_pos h0, Option.map_some]
    have := List.length_eq_zero_iff.1 h0
    unfold wbsm4Encrypt
    rw [this]
  · rw [if_neg h0]
    simp only [Option.bind_eq_bind, Option.bind_some, List.length_map, Nat.le_refl, and_self, if_true, Option.map_some]
    have ht : ∀ {α} (f : WbRound → α), (c.rnds.map f).take c.rnds.length = c.rnds.map f := by
      intro α f; rw [List.take_of_length_le (by simp)]
    rw [ht, ht, ht, ht, zip_rows]
    rfl

/-- C77: inside the process that made it the stream gives a context that shares the tables: it encrypts like the original, also
after the original has been freed. -/
theorem C77_same_process (h : WbHeap) (s : Wbsm4Struct) (c : Wbsm4Ctx) (hc : Holds h s c) :
    ∃ s', bytes2key (key2bytes s) = some s' ∧ ∀ x, wbsm4EncryptHeap h s' x = some (wbsm4Encrypt c x) := by
  refine ⟨s, ?_, holds_encrypt h s c hc⟩
  have := (C77_stream s).2.1 ((key2bytes s).take 4) [] (by rw [List.length_take, (C77_stream s).1]; rfl)
  rwa [List.append_nil, List.take_append_drop] at this

theorem genRounds_length (r : Wbsm4Rnd) (rk : Sm4Ctx) (junk : Nat → WbRound) : ∀ (ds : List Byte) (i p : Nat) (f : Bool)
    (rs : List WbRound), genRounds r rk junk ds i p f = some rs → rs.length = ds.length := by
  intro ds
  induction ds with
  | nil => intro i p f rs h; cases h; rfl
  | cons d ds ih =>
    intro i p f rs h
    rw [genRounds] at h
    split at h
    · split at h
      · cases h
      · dsimp only at h
        generalize (if f = true then p - 4 else p) = q at h
        split at h
        · obtain ⟨rs', h', rfl⟩ := Option.map_eq_some_iff.1 h
          rw [List.length_cons, ih _ _ _ _ h', List.length_cons]
        · cases h
    · obtain ⟨rs', h', rfl⟩ := Option.map_eq_some_iff.1 h
      rw [List.length_cons, ih _ _ _ _ h', List.length_cons]

theorem gen_se_fe (r : Wbsm4Rnd) (junk junk' : Nat → WbRound) (m m' : EncMode) (d : Nat) (key key' : List Byte) (c c' : Wbsm4Ctx)
    (h : wbsm4GenTable r junk m d key = some c) (h' : wbsm4GenTable r junk' m' d key' = some c') :
    c.se = c'.se ∧ c.fe = c'.fe ∧ c.rnds.length = c'.rnds.length := by
  unfold wbsm4GenTable at h h'
  obtain ⟨da, hd, h⟩ := Option.bind_eq_some_iff.1 h
  rw [hd, Option.bind_some] at h'
  unfold genTableWith at h h'
  obtain ⟨rs, hr, rfl⟩ := Option.map_eq_some_iff.1 h
  obtain ⟨rs', hr', rfl⟩ := Option.map_eq_some_iff.1 h'
  exact ⟨rfl, rfl, (genRounds_length _ _ _ _ _ _ _ _ hr).trans (genRounds_length _ _ _ _ _ _ _ _ hr').symm⟩

/-- C77: the stream carries no key. Contexts for two keys made with the same random numbers and placed at the same addresses have
the same stream; loaded next to the tables of the other key it encrypts under the other key. -/
theorem C77_no_key_in_stream (r : Wbsm4Rnd) (junk junk' : Nat → WbRound) (key key' : Block) (em mm cc dd table)
    (h h' : WbHeap) (s s' : Wbsm4Struct) (c c' : Wbsm4Ctx)
    (hg : wbsm4GenTable r junk .encrypt 0 key.toList = some c) (hg' : wbsm4GenTable r junk' .encrypt 0 key'.toList = some c')
    (hs : s.encmode = em ∧ s.mm = mm ∧ s.cc = cc ∧ s.dd = dd ∧ s.table = table)
    (hs' : s'.encmode = em ∧ s'.mm = mm ∧ s'.cc = cc ∧ s'.dd = dd ∧ s'.table = table)
    (hh : Holds h s c) (hh' : Holds h' s' c') :
    key2bytes s = key2bytes s' ∧
    ∀ x, (bytes2key (key2bytes s)).bind (fun t => wbsm4EncryptHeap h' t x) = some (Spec.sm4Encrypt key' x) := by
  obtain ⟨e1, e2, e3⟩ := gen_se_fe r junk junk' _ _ _ _ _ c c' hg hg'
  have hss : s = s' := by
    obtain ⟨-, a1, a2, a3, -⟩ := hh
    obtain ⟨-, b1, b2, b3, -⟩ := hh'
    obtain ⟨c1, c2, c3, c4, c5⟩ := hs
    obtain ⟨d1, d2, d3, d4, d5⟩ := hs'
    cases s
    cases s'
    simp only at *
    subst c1 c2 c3 c4 c5 d1 d2 d3 d4 d5
    rw [a1, b1, a2, b2, a3, b3, e1, e2, e3]
  subst hss
  refine ⟨rfl, fun x => ?_⟩
  obtain ⟨t, ht, hx⟩ := C77_same_process h' s c' hh'
  obtain ⟨ctx, hctx, hE⟩ := (C36_wbsm4_is_sm4 r junk' key').1
  rw [hg'] at hctx
  cases hctx
  rw [ht, Option.bind_some, hx, hE]

/- Heaps as in the hypotheses exist for every pair of keys and all addresses. -/
example (c : Wbsm4Ctx) (hl : c.rnds.length < 2 ^ 31) (em : BitVec 32) (a b d t : BitVec 64) :
    ∃ h s, s.encmode = em ∧ s.mm = a ∧ s.cc = b ∧ s.dd = d ∧ s.table = t ∧ Holds h s c :=
  ⟨⟨fun _ => some (c.rnds.map WbRound.mm), fun _ => some (c.rnds.map WbRound.cc), fun _ => some (c.rnds.map WbRound.dd),
    fun _ => some (c.rnds.map WbRound.table)⟩, ⟨BitVec.ofNat 32 c.rnds.length, em, a, b, d, c.se, c.fe, t⟩,
    rfl, rfl, rfl, rfl, rfl, hl, rfl, rfl, rfl, rfl, rfl, rfl, rfl⟩

/-- C77: in a process without tables at the stored addresses every use of the loaded context is undefined. -/
theorem C77_other_process (h : WbHeap) (s : Wbsm4Struct) (hr : 0 < loopBound s.rounds)
    (hn : h.mm s.mm = none ∨ h.cc s.cc = none ∨ h.dd s.dd = none ∨ h.table s.table = none) (x : Block) :
    (bytes2key (key2bytes s)).bind (fun t => wbsm4EncryptHeap h t x) = none := by
  have hb : bytes2key (key2bytes s) = some s := by
    have := (C77_stream s).2.1 ((key2bytes s).take 4) [] (by rw [List.length_take, (C77_stream s).1]; rfl)
    rwa [List.append_nil, List.take_append_drop] at this
  rw [hb, Option.bind_some]
  unfold wbsm4EncryptHeap WbHeap.load
  simp only []
  rw [if_neg (by omega), Option.map_eq_none_iff]
  simp only [Option.bind_eq_bind]
  rcases hn with e | e | e | e
  · rw [e]; rfl
  · rw [e]; cases h.mm s.mm <;> rfl
  · rw [e]; cases h.mm s.mm <;> cases h.cc s.cc <;> rfl
  · rw [e]; cases h.mm s.mm <;> cases h.cc s.cc <;> cases h.dd s.dd <;> rfl

/-! ### cleared contexts -/

/-- C78: a cleared white-box context (freed, for AES also one without tables) still encrypts: every block becomes zeros. -/
theorem C78_cleared_block (h : WbHeap) (x : Block) :
    wbaesEncrypt wbaesCleared x = zeroBlock ∧ wbsm4EncryptHeap h wbsm4Cleared x = some zeroBlock := by
  constructor
  · apply Vector.ext
    intro i hi
    simp [wbaesEncrypt, wbaesCleared, zeroBlock]
  · have h0 : loopBound wbsm4Cleared.rounds = 0 := by decide
    unfold wbsm4EncryptHeap WbHeap.load
    simp only [h0, if_true, Option.map_some]
    congr 1
    have hz : ∀ v, Tab4.look (wbsm4Cleared.fe v) = fun _ => 0#32 := by
      intro v; funext y; simp [Tab4.look, wbsm4Cleared]
    simp only [wbsm4Encrypt, List.foldl_nil, hz]
    decide +kernel

theorem gctrPieces_zero (v : BitVec 128) (ps : List (List Byte)) (h : ∀ p ∈ ps, p.length ≤ 16) :
    gctrPieces (fun _ => zeroBlock) v ps = ps.flatten := by
  induction ps generalizing v with
  | nil => rfl
  | cons p ps ih =>
    rw [gctrPieces, ih _ fun q hq => h q (List.mem_cons_of_mem _ hq), List.flatten_cons]
    congr 1
    have hp := h p List.mem_cons_self
    apply List.ext_getElem
    · simp; omega
    · intro i h1 h2
      rw [List.getElem_zipWith, Vector.getElem_toList, show (zeroBlock[i]'(by omega)) = 0 by simp only [zeroBlock, Vector.getElem_replicate]]
      exact BitVec.xor_zero

/-- C78: GCM on such a context, whether set up before or after the clearing, reports success and copies the plaintext. -/
theorem C78_gcm_plaintext (c : GcmCtx) (hb : ∀ x, c.block x = zeroBlock) (p out : List Byte) (outlen : Nat)
    (hp : p.length < 2 ^ 31) (ho : p.length ≤ outlen) (hl : outlen ≤ out.length) :
    ∃ r, gcmEncrypt c p out outlen = some r ∧ r.ret = 1 ∧ r.out = p ++ out.drop p.length := by
  refine ⟨_, gcmEncrypt_eq c p out outlen hp ho hl, rfl, ?_⟩
  have : c.block = fun _ => zeroBlock := funext hb
  simp only [this]
  rw [gctr, gctrPieces_zero _ _ fun q hq => (chunks_length_le p q hq).2, chunks_flatten]

/-- C78: CBC on such a context reports success and returns zeros: nothing of the message is left but its length. -/
theorem C78_cbc_zeros (E : Block → Block) (hE : ∀ x, E x = zeroBlock) (m out : List Byte) (maxOlen : Nat) (iv : Block)
    (ps : List Block) (hps : fromBlocks ps = Spec.pkcs7 m) (hm : m.length < 2 ^ 31 - 16)
    (hcap : (Spec.pkcs7 m).length ≤ maxOlen) (hout : maxOlen ≤ out.length) :
    ∃ r, Model.cbcEncrypt E false m out maxOlen iv = some r ∧ r.ret = 1 ∧
      r.out.take (16 * ps.length) = List.replicate (16 * ps.length) 0 := by
  refine ⟨_, C03_cbc_encrypt E m out maxOlen iv ps hps hm hcap hout, rfl, ?_⟩
  have : ∀ (qs : List Block) (v : Block), fromBlocks (Spec.cbcEncrypt E v qs) = List.replicate (16 * qs.length) 0 := by
    intro qs
    induction qs with
    | nil => intro v; rfl
    | cons q qs ih =>
      intro v
      rw [Spec.cbcEncrypt, hE, fromBlocks, List.flatMap_cons, ← fromBlocks, ih, List.length_cons, Nat.mul_add, Nat.mul_one,
        Nat.add_comm, ← List.replicate_append_replicate]
      rfl
  rw [this, List.take_left' (by simp)]

example : ∃ r, gcmEncrypt (gcmInit (wbaesEncrypt wbaesCleared)) [1, 2, 3] [0, 0, 0] 3 = some r ∧ r.ret = 1 ∧
    r.out = [1, 2, 3] ++ [0, 0, 0].drop 3 :=
  C78_gcm_plaintext _ (fun x => (C78_cleared_block ⟨fun _ => none, fun _ => none, fun _ => none, fun _ => none⟩ x).1) _ _ _
    (by decide) (by decide) (by decide)

end Verif.Props
