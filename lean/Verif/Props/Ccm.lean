import Verif.Lemmas.Ccm
import Verif.Lemmas.Gcm

/-!
# C26: CCM (`src/2-encryption/ccm.c`)

The full property (for every valid parameter set both calls terminate with the SP 800-38C result) is false of the code:
see `C26_never_terminates`.  The `_partial` theorems cover all messages of at most 31 bytes.  `fuel` is the number of loop
iterations the caller waits for.
-/
namespace Props
open Spec

/-- C26 (encryption), for messages of at most 31 bytes: the call ends within `len` iterations with the ciphertext and tag
of SP 800-38C, and no other byte of memory changes.  Missing: longer messages, for which the claim is false. -/
theorem C26_ccm_encrypt_partial (E : List (BitVec 8) → List (BitVec 8)) (hE : ∀ x, x.length = 16 → (E x).length = 16)
    (iv A : List (BitVec 8)) (len inp out t : Nat) (m : Mem) (fuel : Nat)
    (hiv : 7 ≤ iv.length ∧ iv.length ≤ 13) (ht : 4 ≤ t ∧ t ≤ 16 ∧ t % 2 = 0) (hl : len ≤ 31) (hf : len ≤ fuel) (hs : Streamable inp out len) :
    Ccm.encrypt E iv A len inp out t m fuel =
      .done (storeAt m out (ccmCipher E iv (bytesAt m inp len)), ccmTag E iv A (bytesAt m inp len) t) :=
  Ccm.encrypt_spec E hE iv A len inp out t m fuel hiv.1 hiv.2 ht.1 ht.2.1 ht.2.2 hl hf hs

/-- C26 (decryption), for at most 31 bytes: accepted exactly when the tag is the SP 800-38C tag of the recovered
plaintext; nothing is written on rejection. -/
theorem C26_ccm_decrypt_partial (E : List (BitVec 8) → List (BitVec 8)) (hE : ∀ x, x.length = 16 → (E x).length = 16)
    (iv A T : List (BitVec 8)) (len inp out : Nat) (m : Mem) (fuel : Nat)
    (hiv : 7 ≤ iv.length ∧ iv.length ≤ 13) (ht : 4 ≤ T.length ∧ T.length ≤ 16 ∧ T.length % 2 = 0) (hl : len ≤ 31) (hf : len ≤ fuel)
    (hs : Streamable inp out len) :
    Ccm.decrypt E iv A len inp out T m fuel = .done (
      if T = ccmTag E iv A (ccmCipher E iv (bytesAt m inp len)) T.length then (true, storeAt m out (ccmCipher E iv (bytesAt m inp len)))
      else (false, m)) :=
  Ccm.decrypt_spec E hE iv A T len inp out m fuel hiv.1 hiv.2 ht.1 ht.2.1 ht.2.2 hl hf hs

/-- C26 (round trip), for at most 31 bytes. -/
theorem C26_ccm_roundtrip_partial (E : List (BitVec 8) → List (BitVec 8)) (hE : ∀ x, x.length = 16 → (E x).length = 16)
    (iv A : List (BitVec 8)) (len inp out out2 t : Nat) (m : Mem) (fuel : Nat)
    (hiv : 7 ≤ iv.length ∧ iv.length ≤ 13) (ht : 4 ≤ t ∧ t ≤ 16 ∧ t % 2 = 0) (hl : len ≤ 31) (hf : len ≤ fuel)
    (hs : Streamable inp out len) (hs2 : Streamable out out2 len) :
    ∃ m1 T m2, Ccm.encrypt E iv A len inp out t m fuel = .done (m1, T) ∧ T.length = t ∧
      Ccm.decrypt E iv A len out out2 T m1 fuel = .done (true, m2) ∧ bytesAt m2 out2 len = bytesAt m inp len := by
  have hEi : ∀ i, ((fun i => E (ccmCtr iv (i + 1))) i).length = 16 := fun i => hE _ (Ccm.length_ctr iv hiv.2 _)
  obtain ⟨P, hP⟩ : ∃ P, P = bytesAt m inp len := ⟨_, rfl⟩
  have hPl : P.length = len := by rw [hP, Aead.length_bytesAt]
  have hTl : (ccmTag E iv A P t).length = t := by
    unfold ccmTag
    simp [xorBytes, Ccm.length_ccmMac E hE, hE _ (Ccm.length_ctr iv hiv.2 0)]
    omega
  have hCl : (ccmCipher E iv P).length = len := by
    unfold ccmCipher
    rw [Aead.length_streamXor 16 (by omega) _ hEi, hPl]
  have hst : ∀ (m : Mem) (p : Nat) (s : List (BitVec 8)) (n : Nat), s.length = n → bytesAt (storeAt m p s) p n = s := by
    intro m p s n hn
    subst hn
    apply Aead.list_ext_getD (by rw [Aead.length_bytesAt])
    intro k hk
    rw [Aead.length_bytesAt] at hk
    rw [Aead.getD_bytesAt _ _ _ _ hk]
    unfold storeAt
    rw [if_pos (by omega), show p + k - p = k by omega]
  have hb := hst m out (ccmCipher E iv P) len hCl
  have hPP : ccmCipher E iv (ccmCipher E iv P) = P := Aead.streamXor_twice 16 (by omega) _ hEi _
  refine ⟨_, _, storeAt (storeAt m out (ccmCipher E iv P)) out2 P, C26_ccm_encrypt_partial E hE iv A len inp out t m fuel hiv ht hl hf hs, ?_, ?_, ?_⟩
  · rw [← hP]; exact hTl
  · rw [← hP, C26_ccm_decrypt_partial E hE iv A _ len out out2 _ fuel hiv (by rw [hTl]; exact ht) hl hf hs2, hb, hPP, hTl, if_pos rfl]
  · rw [hst _ _ _ _ hPl, hP]

/-- C26 (refusals).  Nonce, tag and message lengths outside the limits of SP 800-38C are refused. -/
theorem C26_ccm_refusals (E : List (BitVec 8) → List (BitVec 8)) (iv A T : List (BitVec 8)) (len inp out t : Nat) (m : Mem) (fuel : Nat)
    (hlen : len < 2 ^ 64) :
    (¬ (7 ≤ iv.length ∧ iv.length ≤ 13) ∨ t ∉ [4, 6, 8, 10, 12, 14, 16] ∨ 256 ^ (15 - iv.length) ≤ len →
      Ccm.encrypt E iv A len inp out t m fuel = .refused) ∧
    (¬ (7 ≤ iv.length ∧ iv.length ≤ 13) ∨ T.length ∉ [4, 6, 8, 10, 12, 14, 16] ∨ 256 ^ (15 - iv.length) ≤ len →
      Ccm.decrypt E iv A len inp out T m fuel = .refused) := by
  have key : ∀ t, ¬ (7 ≤ iv.length ∧ iv.length ≤ 13) ∨ t ∉ [4, 6, 8, 10, 12, 14, 16] ∨ 256 ^ (15 - iv.length) ≤ len → Ccm.bad iv.length len t := by
    intro t h
    unfold Ccm.bad
    rcases h with h | h | h
    · left; omega
    · right; left
      simp only [List.mem_cons, List.not_mem_nil, or_false] at h
      omega
    · right; right
      have e : 256 ^ (15 - iv.length) = 2 ^ ((15 - iv.length) * 8) := by
        rw [Nat.mul_comm, Nat.pow_mul]
      rw [e] at h
      refine ⟨?_, h⟩
      by_contra hc
      have := Nat.pow_le_pow_right (n := 2) (by omega) (show 64 ≤ (15 - iv.length) * 8 by omega)
      omega
  constructor
  · intro h; unfold Ccm.encrypt; rw [if_pos (key t h)]
  · intro h; unfold Ccm.decrypt; rw [if_pos (key _ h)]

/-- Negation of C26 for longer messages: with valid parameters and 32 or more bytes, neither encryption nor decryption
ever returns: after any number of iterations the loop is still running. -/
theorem C26_never_terminates (E : List (BitVec 8) → List (BitVec 8)) (iv A T : List (BitVec 8)) (len inp out t : Nat) (m : Mem)
    (hiv : 7 ≤ iv.length ∧ iv.length ≤ 13) (ht : 4 ≤ t ∧ t ≤ 16 ∧ t % 2 = 0) (hT : T.length = t)
    (hl : 32 ≤ len) (hq : len < 256 ^ (15 - iv.length)) :
    (∀ fuel, Ccm.encrypt E iv A len inp out t m fuel = .running) ∧ ∀ fuel, Ccm.decrypt E iv A len inp out T m fuel = .running := by
  have e : 256 ^ (15 - iv.length) = 2 ^ ((15 - iv.length) * 8) := by
    rw [Nat.mul_comm, Nat.pow_mul]
  have hb : ¬ Ccm.bad iv.length len t := by unfold Ccm.bad; rw [e] at hq; omega
  constructor
  · intro fuel
    unfold Ccm.encrypt
    rw [if_neg hb, Ccm.loop_stuck _ len hl (Ccm.encStep_stuck E iv.length inp out) fuel _ (by simp [Ccm.start])]
  · intro fuel
    unfold Ccm.decrypt
    rw [hT, if_neg hb, Ccm.loop_stuck _ len hl (Ccm.decStep_stuck E iv.length inp) fuel _ (by simp [Ccm.start])]

/-- Non-vacuity for C26: parameters meeting the hypotheses of the partial theorems, and of the negation. -/
example : ∃ (E : List (BitVec 8) → List (BitVec 8)) (iv : List (BitVec 8)), (∀ x, x.length = 16 → (E x).length = 16) ∧
    (7 ≤ iv.length ∧ iv.length ≤ 13) ∧ (4 ≤ 8 ∧ 8 ≤ 16 ∧ 8 % 2 = 0) ∧ 24 ≤ 31 ∧ Streamable 1000 1000 24 ∧ 32 ≤ 32 ∧ 32 < 256 ^ (15 - iv.length) :=
  ⟨fun x => x.map (· ^^^ 0x5a#8), List.replicate 12 7#8, by intro x h; simpa using h, by decide, by decide, by omega, Or.inl (le_refl _), by omega, by decide⟩

end Props
