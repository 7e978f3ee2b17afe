import Verif.Model.GcmParallelLen
import Verif.Props.GcmParallel

/-! Property C112: GCM with lengths an `int` does not hold. -/
set_option autoImplicit false
set_option linter.unusedSimpArgs false

namespace Verif.Props
open Verif Spec Model

theorem intLen_small (n : Nat) (h : n % 2 ^ 32 < 2 ^ 31) : intLen n = (n % 2 ^ 32 : Nat) := by
  unfold intLen
  rw [BitVec.toInt_eq_toNat_of_lt (by simp; omega)]
  simp

theorem intLen_large (n : Nat) (h : 2 ^ 31 ≤ n % 2 ^ 32) : intLen n = (n % 2 ^ 32 : Nat) - 2 ^ 32 := by
  unfold intLen
  rw [BitVec.toInt_eq_toNat_cond, if_neg (by simp; omega)]
  simp

theorem parBlocksInt_large (n : Nat) (h : 2 ^ 31 ≤ n % 2 ^ 32) :
    (n % 2 ^ 32 = 2 ^ 31 → parBlocksInt (intLen n) = none) ∧
    (n % 2 ^ 32 ≠ 2 ^ 31 → ∃ k, parBlocksInt (intLen n) = some k ∧ (k < 0 ↔ n % 2 ^ 32 ≤ 2 ^ 32 - 31) ∧
      (k = 0 ↔ 2 ^ 32 - 30 ≤ n % 2 ^ 32 ∧ n % 2 ^ 32 ≤ 2 ^ 32 - 15)) := by
  have e := intLen_large n h
  have hm : n % 2 ^ 32 < 2 ^ 32 := Nat.mod_lt _ (by omega)
  generalize n % 2 ^ 32 = m at *
  refine ⟨fun hk => ?_, fun hk => ⟨((m : Int) - 2 ^ 32 - 1).tdiv 16 + 1, ?_, ?_⟩⟩
  · rw [e, parBlocksInt, if_pos (by omega)]
  · rw [e, parBlocksInt, if_neg (by omega)]
  · have key : ((m : Int) - 2 ^ 32 - 1).tdiv 16 = -((2 ^ 32 + 1 - (m : Int)) / 16) := by
      have : ((m : Int) - 2 ^ 32 - 1) = -(2 ^ 32 + 1 - (m : Int)) := by omega
      rw [this, Int.neg_tdiv, Int.tdiv_eq_ediv_of_nonneg (by omega)]
    rw [key]
    omega

theorem fair_valid {nb : Nat} {assign : Nat → List Nat} (h : FairAssign nb assign) : ValidAssign nb assign :=
  ⟨h.cover, h.range, h.unique, h.nodup⟩

/-- C112: a parallel call whose length fits an `int` modulo `2^32`, with a private inner index: every outcome is that of the
sequential function on the first `inlen mod 2^32` bytes; the other bytes are left as they are and the return value is 1. -/
theorem C112_parallel_fits (c : GcmCtx) (inbuf out : List Byte) (inlen outlen : Nat) (res : Option GcmResult)
    (ho : inlen ≤ outlen) (hin : inlen ≤ inbuf.length) (hout : outlen ≤ out.length)
    (h0 : 0 < inlen % 2 ^ 32) (h1 : inlen % 2 ^ 32 < 2 ^ 31)
    (h : ParCall false c inbuf inlen out outlen res) :
    ∃ r, res = some r ∧ r.ret = 1 ∧ gcmEncrypt c (inbuf.take (inlen % 2 ^ 32)) out (inlen % 2 ^ 32) = some r ∧
      r.out = gctr c.block (inc32 (toBV c.y)) (inbuf.take (inlen % 2 ^ 32)) ++ out.drop (inlen % 2 ^ 32) := by
  have e := intLen_small inlen h1
  have hle : inlen % 2 ^ 32 ≤ inlen := Nat.mod_le _ _
  have hlen : (inbuf.take (inlen % 2 ^ 32)).length = inlen % 2 ^ 32 := by rw [List.length_take]; omega
  have hg := gcmEncrypt_eq c (inbuf.take (inlen % 2 ^ 32)) out (inlen % 2 ^ 32) (by omega) (by omega) (by omega)
  rw [hlen] at hg
  have hb : ∃ k, parBlocksInt (intLen inlen) = some k ∧ 0 < k := by
    refine ⟨_, by rw [parBlocksInt, if_neg (by omega)], ?_⟩
    rw [e, Int.tdiv_eq_ediv_of_nonneg (by omega)]
    omega
  obtain ⟨k, hk, hk0⟩ := hb
  cases h with
  | refused h => omega
  | overflow _ h => rw [hk] at h; cases h
  | noMemory n _ h hn => rw [hk] at h; cases h; omega
  | nothing _ h => rw [hk] at h; cases h; omega
  | pastEnd n _ _ _ hn => omega
  | done assign j0 sched s _ _ va hr hd =>
    rw [e, Int.toNat_natCast] at va hr ⊢
    obtain ⟨s', hs, hd'⟩ := C20_parallel_private c inbuf out (inlen % 2 ^ 32) j0 assign h0 h1 (by omega) (by omega) (fair_valid va) sched
    rw [hs] at hr
    obtain rfl := Option.some.inj hr
    have := hd' hd
    rw [hg] at this
    exact ⟨_, this, rfl, hg, rfl⟩
  | leaves assign j0 sched _ _ va hr =>
    rw [e, Int.toNat_natCast] at va hr
    obtain ⟨s', hs, _⟩ := C20_parallel_private c inbuf out (inlen % 2 ^ 32) j0 assign h0 h1 (by omega) (by omega) (fair_valid va) sched
    rw [hs] at hr
    cases hr

/-- C112: a parallel call whose length does not fit.  It is undefined except for 16 residues of the length, for which it returns
1, writes nothing and lowers the length kept in the context. -/
theorem C112_parallel_large (sh : Bool) (c : GcmCtx) (inbuf out : List Byte) (inlen outlen : Nat) (res : Option GcmResult)
    (ho : inlen ≤ outlen) (h1 : 2 ^ 31 ≤ inlen % 2 ^ 32) (h : ParCall sh c inbuf inlen out outlen res) :
    (2 ^ 32 - 30 ≤ inlen % 2 ^ 32 ∧ inlen % 2 ^ 32 ≤ 2 ^ 32 - 15 ∧
      res = some { ret := 1, ctx := { c with len := c.len - BitVec.ofNat 64 (2 ^ 32 - inlen % 2 ^ 32) }, out := out }) ∨
    (¬ (2 ^ 32 - 30 ≤ inlen % 2 ^ 32 ∧ inlen % 2 ^ 32 ≤ 2 ^ 32 - 15) ∧ res = none) := by
  have e := intLen_large inlen h1
  have hm : inlen % 2 ^ 32 < 2 ^ 32 := Nat.mod_lt _ (by omega)
  obtain ⟨ha, hb⟩ := parBlocksInt_large inlen h1
  cases h with
  | refused h => omega
  | overflow _ h =>
    by_cases hk : inlen % 2 ^ 32 = 2 ^ 31
    · exact Or.inr ⟨by omega, rfl⟩
    · obtain ⟨k, hk', _⟩ := hb hk
      rw [hk'] at h; cases h
  | noMemory n _ h hn =>
    by_cases hk : inlen % 2 ^ 32 = 2 ^ 31
    · exact Or.inr ⟨by omega, rfl⟩
    · obtain ⟨k, hk', k1, k2⟩ := hb hk
      rw [hk'] at h; cases h
      exact Or.inr ⟨by omega, rfl⟩
  | nothing _ h =>
    by_cases hk : inlen % 2 ^ 32 = 2 ^ 31
    · rw [ha hk] at h; cases h
    · obtain ⟨k, hk', k1, k2⟩ := hb hk
      rw [hk'] at h
      obtain rfl := Option.some.inj h
      have := k2.mp rfl
      refine Or.inl ⟨this.1, this.2, ?_⟩
      have hbv : BitVec.ofInt 64 (intLen inlen) = - BitVec.ofNat 64 (2 ^ 32 - inlen % 2 ^ 32) := by
        rw [e, show ((inlen % 2 ^ 32 : Nat) : Int) - 2 ^ 32 = -((2 ^ 32 - inlen % 2 ^ 32 : Nat) : Int) by omega, BitVec.ofInt_neg,
          BitVec.ofInt_natCast]
      rw [hbv, ← BitVec.sub_eq_add_neg]
  | pastEnd n _ h hn _ =>
    by_cases hk : inlen % 2 ^ 32 = 2 ^ 31
    · exact Or.inr ⟨by omega, rfl⟩
    · obtain ⟨k, hk', k1, k2⟩ := hb hk
      rw [hk'] at h; cases h
      exact Or.inr ⟨by omega, rfl⟩
  | done assign j0 sched s _ h => omega
  | leaves assign j0 sched _ h => omega

/-- C112: there always is an outcome, so the two theorems above do not speak about nothing. -/
theorem C112_parallel_total (sh : Bool) (c : GcmCtx) (inbuf out : List Byte) (inlen outlen : Nat)
    (hin : inlen ≤ inbuf.length) (hout : outlen ≤ out.length) (h0 : 0 < inlen % 2 ^ 32) :
    ∃ res, ParCall sh c inbuf inlen out outlen res := by
  by_cases ho : inlen ≤ outlen
  · by_cases h1 : inlen % 2 ^ 32 < 2 ^ 31
    · have e := intLen_small inlen h1
      have hle : inlen % 2 ^ 32 ≤ inlen := Nat.mod_le _ _
      let assign : Nat → List Nat := fun t => if t = 0 then List.range (parBlocks (inlen % 2 ^ 32)) else []
      have va : FairAssign (parBlocks (inlen % 2 ^ 32)) assign := by
        refine ⟨fun i hi => ⟨0, by simp [assign, hi]⟩, fun t i hi => ?_, fun t u i ht hu => ?_, fun t => ?_⟩
        · by_cases h : t = 0
          · simpa [assign, h] using hi
          · simp [assign, h] at hi
        · by_cases h : t = 0
          · by_cases h' : u = 0
            · rw [h, h']
            · simp [assign, h'] at hu
          · simp [assign, h] at ht
        · by_cases h : t = 0
          · simp [assign, h, List.nodup_range]
          · simp [assign, h]
      obtain ⟨sched, s, hr, hd⟩ := C20_complete_schedule_exists c inbuf out (inlen % 2 ^ 32) 0 1 assign h0 (by omega) (by omega)
        (fair_valid va) (by intro t ht; simp [assign]; omega) sh
      exact ⟨_, ParCall.done assign 0 sched s ho (by omega) (by rw [e, Int.toNat_natCast]; exact va)
        (by rw [e, Int.toNat_natCast]; exact hr) hd⟩
    · obtain ⟨ha, hb⟩ := parBlocksInt_large inlen (by omega)
      have e := intLen_large inlen (by omega)
      have hm : inlen % 2 ^ 32 < 2 ^ 32 := Nat.mod_lt _ (by omega)
      by_cases hk : inlen % 2 ^ 32 = 2 ^ 31
      · exact ⟨_, ParCall.overflow ho (ha hk)⟩
      · obtain ⟨k, hk', _⟩ := hb hk
        rcases Int.lt_trichotomy k 0 with h | h | h
        · exact ⟨_, ParCall.noMemory k ho hk' h⟩
        · exact ⟨_, ParCall.nothing ho (by rw [hk', h])⟩
        · exact ⟨_, ParCall.pastEnd k ho hk' h (by omega)⟩
  · exact ⟨_, ParCall.refused (by omega)⟩

/-- C112: the sequential functions process the first `inlen mod 2^32` bytes if that is below `2^31` and none otherwise, and
return 1 in both cases. -/
theorem C112_sequential (c : GcmCtx) (inp out : List Byte) (outlen k : Nat)
    (hk : k = if inp.length % 2 ^ 32 < 2 ^ 31 then inp.length % 2 ^ 32 else 0)
    (ho : inp.length ≤ outlen) (hb : outlen ≤ out.length) :
    (∃ r, gcmEncrypt c inp out outlen = some r ∧ r.ret = 1 ∧
      r.out = gctr c.block (inc32 (toBV c.y)) (inp.take k) ++ out.drop k ∧
      r.ctx.len = c.len + BitVec.signExtend 64 (BitVec.ofNat 32 inp.length)) ∧
    (∃ r, gcmDecrypt c inp out outlen = some r ∧ r.ret = 1 ∧
      r.out = gctr c.block (inc32 (toBV c.y)) (inp.take k) ++ out.drop k ∧
      r.ctx.len = c.len + BitVec.signExtend 64 (BitVec.ofNat 32 inp.length)) := by
  have hle : inp.length % 2 ^ 32 ≤ inp.length := Nat.mod_le _ _
  have hkle : k ≤ inp.length := by rw [hk]; split <;> omega
  have hn : (intLen inp.length).toNat = k := by
    rw [hk]
    split
    · rename_i h; rw [intLen_small _ h, Int.toNat_natCast]
    · rename_i h
      rw [intLen_large _ (by omega)]
      have : inp.length % 2 ^ 32 < 2 ^ 32 := Nat.mod_lt _ (by omega)
      omega
  have ht : (inp.take k).length = k := by rw [List.length_take]; omega
  have hg := length_gctr c.block (inc32 (toBV c.y)) (inp.take k)
  constructor
  · unfold gcmEncrypt gcmCrypt
    rw [if_neg (by omega)]
    simp only [hn]
    rw [if_pos (by omega)]
    refine ⟨_, rfl, rfl, ?_, rfl⟩
    simp only [(fold_enc_out c _ _ _ _).1, List.nil_append]
    rw [← gctr, hg, ht]
  · unfold gcmDecrypt gcmCrypt
    rw [if_neg (by omega)]
    simp only [hn]
    rw [if_pos (by omega)]
    refine ⟨_, rfl, rfl, ?_, rfl⟩
    simp only [(fold_enc_out c _ _ _ _).2, List.nil_append]
    rw [← gctr, hg, ht]

/-- C112: sealing a message of `2^32 q + k` bytes with `k < 2^31` gives ciphertext and tag of its first `k` bytes: the rest of the
message is neither encrypted nor authenticated, and the return value is 1. -/
theorem C112_seal (E : Block → Block) (iv aad p out : List Byte) (outlen : Nat)
    (hiv : iv.length < 2 ^ 29) (ha : aad.length < 2 ^ 61) (hp : p.length % 2 ^ 32 < 2 ^ 31)
    (ho : p.length ≤ outlen) (hb : outlen ≤ out.length) :
    sealMsg (gcmInit E) iv aad p out outlen 16 =
      some (1, gcmCipher E iv (p.take (p.length % 2 ^ 32)) ++ out.drop (p.length % 2 ^ 32),
        (gcmTag E iv aad (gcmCipher E iv (p.take (p.length % 2 ^ 32)))).toList) := by
  have hle : p.length % 2 ^ 32 ≤ p.length := Nat.mod_le _ _
  have ht : (p.take (p.length % 2 ^ 32)).length = p.length % 2 ^ 32 := by rw [List.length_take]; omega
  have key := C12_gcm_nist E iv aad (p.take (p.length % 2 ^ 32)) out outlen hiv ha (by omega) (by omega) hb
  rw [ht] at key
  rw [← key]
  have : ∀ c, gcmEncrypt c p out outlen = gcmEncrypt c (p.take (p.length % 2 ^ 32)) out outlen := by
    intro c
    unfold gcmEncrypt gcmCrypt
    have e1 := intLen_small p.length hp
    have e2 := intLen_small (p.length % 2 ^ 32) (by rw [Nat.mod_mod]; exact hp)
    rw [if_neg (show ¬ outlen < p.length by omega), ht, if_neg (show ¬ outlen < p.length % 2 ^ 32 by omega)]
    simp only [e1, e2, Int.toNat_natCast, Nat.mod_mod, List.take_take, Nat.min_self]
  unfold sealMsg
  rw [this]

/-! ### concrete cases -/

/-- A message of `2^32 + 5` bytes: five bytes are encrypted. -/
example (c : GcmCtx) (inp out : List Byte) (h : inp.length = 2 ^ 32 + 5) (hb : out.length = 2 ^ 32 + 5) :
    ∃ r, gcmEncrypt c inp out (2 ^ 32 + 5) = some r ∧ r.ret = 1 ∧ r.out.drop 5 = out.drop 5 := by
  obtain ⟨⟨r, h1, h2, h3, _⟩, _⟩ := C112_sequential c inp out (2 ^ 32 + 5) 5 (by rw [h]; rfl) (by omega) (by omega)
  refine ⟨r, h1, h2, ?_⟩
  have : (gctr c.block (inc32 (toBV c.y)) (inp.take 5)).length = 5 := by rw [length_gctr, List.length_take]; omega
  rw [h3, List.drop_append_of_le_length (by omega), List.drop_of_length_le (by omega), List.nil_append]

/-- The same length in the parallel function, and a length for which nothing happens, and one for which the call is undefined. -/
example (c : GcmCtx) (inbuf out : List Byte) (res : Option GcmResult) (hi : inbuf.length = 2 ^ 32) (ho : out.length = 2 ^ 32) :
    (ParCall true c inbuf (2 ^ 32 - 20) out (2 ^ 32) res → ∃ r, res = some r ∧ r.ret = 1 ∧ r.out = out) ∧
    (ParCall true c inbuf (2 ^ 32 - 40) out (2 ^ 32) res → res = none) ∧
    (∃ x, ParCall true c inbuf (2 ^ 32 - 20) out (2 ^ 32) x) := by
  refine ⟨fun h => ?_, fun h => ?_, C112_parallel_total true c inbuf out _ _ (by omega) (by omega) (by omega)⟩
  · rcases C112_parallel_large true c inbuf out _ _ res (by omega) (by omega) h with ⟨_, _, h⟩ | ⟨h, _⟩
    · exact ⟨_, h, rfl, rfl⟩
    · omega
  · rcases C112_parallel_large true c inbuf out _ _ res (by omega) (by omega) h with ⟨h, _, _⟩ | ⟨_, h⟩
    · omega
    · exact h

end Verif.Props
