import Verif.Lemmas.Rsa
import Mathlib.Tactic.NormNum.Prime

/-!
# Property C32: the RSA private-key operation inverts the public-key operation

`Spec.ValidRsaKey` is the standard's notion of a valid (multi-prime) private key.
-/

namespace Props
open Vlong Spec Rsa

/-- C32: `rsa_enc` computes `m^e mod n` (working variables at least as long as `n`, with a word to
spare over its value). -/
theorem C32_enc (c : Nat) (n e M : List W) (he : e ≠ []) (hn : n.length ≤ c)
    (hroom : val n * 2 ^ 32 ≤ 2 ^ (32 * c)) (hM : val M < val n) :
    ∃ C, enc c n e M = some C ∧ C.length = c ∧ val C = val M ^ val e % val n :=
  enc_val c n e M he hn hroom hM

/-- C32: for every valid key with any number of primes, and every `C`, `rsa_fastdec` returns the number
below the modulus that is congruent to `C^d_i` modulo every prime `r_i`. -/
theorem C32_fastdec (cf vm cm : Nat) (n e : Nat) (q dQ : List W) (l : List Triple) (C : List W)
    (hkey : ValidRsaKey n e (val q) (val dQ) (l.map fun x => (val x.r, val x.d, val x.t)))
    (hq : q.length ≤ cf ∧ val q * 2 ^ 32 ≤ 2 ^ (32 * cf) ∧ dQ ≠ [])
    (hl : ∀ x ∈ l, x.r.length ≤ cf ∧ val x.r * 2 ^ 32 ≤ 2 ^ (32 * cf) ∧ x.d ≠ [] ∧ x.t ≠ [])
    (hvm : n < 2 ^ (32 * vm)) (hcm : n < 2 ^ (32 * cm)) :
    ∃ M, fastdec cf vm cm q dQ l C = some M ∧ M.length = cm ∧ val M < n ∧
      val M % val q = val C ^ val dQ % val q ∧
      ∀ x ∈ l, val M % val x.r = val C ^ val x.d % val x.r := by
  obtain ⟨k1, k2, k3, k4⟩ := hkey
  obtain ⟨m, m1, m2⟩ := crt_exists e (val C) (val q) _ k3 (val C ^ val dQ)
  have hag : ∀ x ∈ l, m ≡ val C ^ val x.d [MOD val x.r] := fun x hx =>
    m2 (val x.r, val x.d, val x.t) (List.mem_map.mpr ⟨x, hx, rfl⟩)
  obtain ⟨o, a1, a2, a3, a4⟩ := fastdec_val cf vm cm C q dQ e m l hq.1 hq.2.1 k1 hq.2.2
    (fun x hx => ⟨(hl x hx).1, (hl x hx).2.1, (hl x hx).2.2.1, (hl x hx).2.2.2⟩) k3 m1 hag
    (by rw [k4] at hvm; exact hvm) (by rw [k4] at hcm; exact hcm)
  refine ⟨o, a1, a2, by rw [k4]; exact a3, ?_, ?_⟩
  · exact (a4.of_dvd (dvd_chainProduct _ _)).trans m1
  · intro x hx
    have := (validChain_mem _ _ _ k3) (val x.r, val x.d, val x.t) (List.mem_map.mpr ⟨x, hx, rfl⟩)
    exact (a4.of_dvd this.2.2.1).trans (hag x hx)

/-- C32: decryption inverts encryption: for every valid key, every number of primes and every `m < n`,
`rsa_fastdec` applied to `m^e mod n` returns `m`. -/
theorem C32_dec_enc (cf vm cm : Nat) (n e : Nat) (q dQ : List W) (l : List Triple) (m : Nat) (C : List W)
    (hkey : ValidRsaKey n e (val q) (val dQ) (l.map fun x => (val x.r, val x.d, val x.t)))
    (hq : q.length ≤ cf ∧ val q * 2 ^ 32 ≤ 2 ^ (32 * cf) ∧ dQ ≠ [])
    (hl : ∀ x ∈ l, x.r.length ≤ cf ∧ val x.r * 2 ^ 32 ≤ 2 ^ (32 * cf) ∧ x.d ≠ [] ∧ x.t ≠ [])
    (hvm : n < 2 ^ (32 * vm)) (hcm : n < 2 ^ (32 * cm))
    (hm : m < n) (hC : val C = m ^ e % n) :
    ∃ M, fastdec cf vm cm q dQ l C = some M ∧ M.length = cm ∧ val M = m := by
  obtain ⟨M, a1, a2, a3, a4, a5⟩ := C32_fastdec cf vm cm n e q dQ l C hkey hq hl hvm hcm
  obtain ⟨k1, k2, k3, k4⟩ := hkey
  refine ⟨M, a1, a2, ?_⟩
  have hpow : ∀ r d, r.Prime → r ∣ n → ExponentFor e r d → val C ^ d ≡ m [MOD r] := by
    intro r d hr hd he
    have h1 : val C ≡ m ^ e [MOD r] := by
      rw [hC]; exact (Nat.mod_modEq _ _).of_dvd hd
    refine (h1.pow d).trans ?_
    rw [← pow_mul]
    exact fermat_exp m e d r hr he
  have hmod : val M ≡ m [MOD n] := by
    rw [k4]
    apply chain_modEq e _ _ k3
    · exact Nat.ModEq.trans a4 (hpow _ _ k1 (by rw [k4]; exact dvd_chainProduct _ _) k2)
    · intro x hx
      obtain ⟨y, hy, rfl⟩ := List.mem_map.mp hx
      obtain ⟨v1, v2, v3, -⟩ := (validChain_mem _ _ _ k3) _ hx
      exact Nat.ModEq.trans (a5 y hy) (hpow _ _ v1 (by rw [k4]; exact v3) v2)
  unfold Nat.ModEq at hmod
  rwa [Nat.mod_eq_of_lt a3, Nat.mod_eq_of_lt hm] at hmod

/-- C32: signing and then verifying: `rsa_enc` applied to the result of `rsa_fastdec` gives back `C`. -/
theorem C32_enc_dec (cf vm cm c : Nat) (n e q dQ : List W) (l : List Triple) (C : List W)
    (hkey : ValidRsaKey (val n) (val e) (val q) (val dQ) (l.map fun x => (val x.r, val x.d, val x.t)))
    (hq : q.length ≤ cf ∧ val q * 2 ^ 32 ≤ 2 ^ (32 * cf) ∧ dQ ≠ [])
    (hl : ∀ x ∈ l, x.r.length ≤ cf ∧ val x.r * 2 ^ 32 ≤ 2 ^ (32 * cf) ∧ x.d ≠ [] ∧ x.t ≠ [])
    (hvm : val n < 2 ^ (32 * vm)) (hcm : val n < 2 ^ (32 * cm))
    (he : e ≠ []) (hn : n.length ≤ c) (hroom : val n * 2 ^ 32 ≤ 2 ^ (32 * c)) (hC : val C < val n) :
    ∃ M C', fastdec cf vm cm q dQ l C = some M ∧ enc c n e M = some C' ∧ val C' = val C := by
  obtain ⟨M, a1, a2, a3, a4, a5⟩ := C32_fastdec cf vm cm (val n) (val e) q dQ l C hkey hq hl hvm hcm
  obtain ⟨k1, k2, k3, k4⟩ := hkey
  obtain ⟨C', b1, b2, b3⟩ := C32_enc c n e M he hn hroom a3
  refine ⟨M, C', a1, b1, ?_⟩
  have hpow : ∀ r d, r.Prime → ExponentFor (val e) r d → val M % r = val C ^ d % r →
      val M ^ val e ≡ val C [MOD r] := by
    intro r d hr he h
    refine (Nat.ModEq.pow (val e) h).trans ?_
    rw [← pow_mul, Nat.mul_comm]
    exact fermat_exp _ _ d r hr he
  have hmod : val M ^ val e ≡ val C [MOD val n] := by
    rw [k4]
    apply chain_modEq (val e) _ _ k3
    · exact hpow _ _ k1 k2 a4
    · intro x hx
      obtain ⟨y, hy, rfl⟩ := List.mem_map.mp hx
      obtain ⟨v1, v2, v3, -⟩ := (validChain_mem _ _ _ k3) _ hx
      exact hpow _ _ v1 v2 (a5 y hy)
  rw [b3, hmod, Nat.mod_eq_of_lt hC]

/-- Three-prime toy key meeting the hypotheses: `n = 11 * 17 * 23`, `e = 3`. -/
theorem C32_example_key : ValidRsaKey 4301 3 11 7 [(17, 11, 14), (23, 15, 8)] := by
  refine ⟨by norm_num, ⟨2, rfl⟩, ⟨by norm_num, ⟨2, rfl⟩, rfl, by norm_num, ⟨2, rfl⟩, rfl, trivial⟩, rfl⟩

/-- The hypotheses of `C32_dec_enc` are met by that key (two-word factors, two-word modulus). -/
example : ∃ M, fastdec 2 2 2 [11] [7] [⟨[17], [11], [14]⟩, ⟨[23], [15], [8]⟩] [1740, 0] = some M ∧
    M.length = 2 ∧ val M = 4000 :=
  C32_dec_enc 2 2 2 4301 3 [11] [7] [⟨[17], [11], [14]⟩, ⟨[23], [15], [8]⟩] 4000 [1740, 0]
    C32_example_key (by decide)
    (by
      intro x hx
      simp only [List.mem_cons, List.not_mem_nil, or_false] at hx
      rcases hx with rfl | rfl <;> decide)
    (by decide) (by decide) (by decide) (by decide)

end Props
