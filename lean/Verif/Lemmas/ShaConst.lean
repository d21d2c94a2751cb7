import Verif.Lemmas.Sha
import Mathlib.Data.Nat.Prime.Basic

/-!
# The constants of SHA-2 are the roots of the first primes
-/

namespace Fips180
open Spec.Sha

/-- Trial division. -/
def testPrime (n : Nat) : Bool := decide (2 ≤ n) && (List.range' 2 (n - 2)).all fun d => n % d != 0

theorem testPrime_iff (n : Nat) : testPrime n = true ↔ Nat.Prime n := by
  unfold testPrime
  rw [Bool.and_eq_true, decide_eq_true_iff, List.all_eq_true, Nat.prime_def_lt']
  refine and_congr_right fun h2 => ⟨fun h m h3 h4 h5 => ?_, fun h d hd => ?_⟩
  · have := h m (by rw [List.mem_range'_1]; omega)
    rw [bne_iff_ne] at this
    exact this (Nat.mod_eq_zero_of_dvd h5)
  · rw [List.mem_range'_1] at hd
    rw [bne_iff_ne]
    exact fun h0 => h d (by omega) (by omega) (Nat.dvd_of_mod_eq_zero h0)

/-- The first 80 primes. -/
def first80 : List Nat := [2, 3, 5, 7, 11, 13, 17, 19, 23, 29, 31, 37, 41, 43, 47, 53, 59, 61, 67, 71, 73, 79, 83, 89, 97, 101, 103,
  107, 109, 113, 127, 131, 137, 139, 149, 151, 157, 163, 167, 173, 179, 181, 191, 193, 197, 199, 211, 223, 227, 229, 233, 239, 241, 251,
  257, 263, 269, 271, 277, 281, 283, 293, 307, 311, 313, 317, 331, 337, 347, 349, 353, 359, 367, 373, 379, 383, 389, 397, 401, 409]

theorem first80_count : ∀ i < 80, testPrime (first80.getD i 0) = true ∧ Nat.count (fun n => testPrime n = true) (first80.getD i 0) = i := by
  decide +kernel

theorem prime_eq (i : Nat) (h : i < 80) : prime i = first80.getD i 0 := by
  unfold prime
  obtain ⟨h1, h2⟩ := first80_count i h
  have hp : Nat.Prime = fun n => testPrime n = true := by
    funext n
    exact propext (testPrime_iff n).symm
  rw [hp]
  conv_lhs => rw [← h2]
  exact Nat.nth_count h1

theorem cbrt_eq {x c : Nat} (h1 : c ^ 3 ≤ x) (h2 : x < (c + 1) ^ 3) : cbrt x = c := by
  unfold cbrt
  rw [Nat.findGreatest_eq_iff]
  refine ⟨le_trans ?_ h1, fun _ => h1, fun k hk hk' h => ?_⟩
  · exact Nat.le_self_pow (by decide) c
  · have := Nat.pow_le_pow_left (show c + 1 ≤ k by omega) 3
    omega

theorem cbrtFrac_eq {n p : Nat} {k : BitVec n} (h : ∃ a < 8, (a * 2 ^ n + k.toNat) ^ 3 ≤ p * 2 ^ (3 * n) ∧
    p * 2 ^ (3 * n) < (a * 2 ^ n + k.toNat + 1) ^ 3) : k = cbrtFrac n p := by
  obtain ⟨a, _, h1, h2⟩ := h
  unfold cbrtFrac
  rw [cbrt_eq h1 h2]
  apply BitVec.eq_of_toNat_eq
  rw [BitVec.toNat_ofNat, Nat.mul_add_mod_self_right, Nat.mod_eq_of_lt k.isLt]

theorem sqrtFrac_eq {n p : Nat} {k : BitVec n} (h : ∃ a < 8, (a * 2 ^ n + k.toNat) * (a * 2 ^ n + k.toNat) ≤ p * 2 ^ (2 * n) ∧
    p * 2 ^ (2 * n) < (a * 2 ^ n + k.toNat + 1) * (a * 2 ^ n + k.toNat + 1)) : k = sqrtFrac n p := by
  obtain ⟨a, _, h1, h2⟩ := h
  unfold sqrtFrac
  rw [← Nat.eq_sqrt.2 ⟨h1, h2⟩]
  apply BitVec.eq_of_toNat_eq
  rw [BitVec.toNat_ofNat, Nat.mul_add_mod_self_right, Nat.mod_eq_of_lt k.isLt]

theorem k256 : ∀ t < 64, at_ kSha256 t = cbrtFrac 32 (prime t) := by
  intro t ht
  rw [prime_eq t (by omega)]
  apply cbrtFrac_eq
  revert t
  decide +kernel

theorem k512 : ∀ t < 80, at_ kSha512 t = cbrtFrac 64 (prime t) := by
  intro t ht
  rw [prime_eq t ht]
  apply cbrtFrac_eq
  revert t
  decide +kernel

theorem fits256 : Fits par256 fn256 where
  S0 x := by simp only [par256, fn256]; rw [rotr_eq _ _ (by decide), rotr_eq _ _ (by decide), rotr_eq _ _ (by decide)]
  S1 x := by simp only [par256, fn256]; rw [rotr_eq _ _ (by decide), rotr_eq _ _ (by decide), rotr_eq _ _ (by decide)]
  s0 x := by simp only [par256, fn256]; rw [rotr_eq _ _ (by decide), rotr_eq _ _ (by decide)]
  s1 x := by simp only [par256, fn256]; rw [rotr_eq _ _ (by decide), rotr_eq _ _ (by decide)]
  rounds := rfl
  K := k256

theorem fits512 : Fits par512 fn512 where
  S0 x := by simp only [par512, fn512]; rw [rotr_eq _ _ (by decide), rotr_eq _ _ (by decide), rotr_eq _ _ (by decide)]
  S1 x := by simp only [par512, fn512]; rw [rotr_eq _ _ (by decide), rotr_eq _ _ (by decide), rotr_eq _ _ (by decide)]
  s0 x := by simp only [par512, fn512]; rw [rotr_eq _ _ (by decide), rotr_eq _ _ (by decide)]
  s1 x := by simp only [par512, fn512]; rw [rotr_eq _ _ (by decide), rotr_eq _ _ (by decide)]
  rounds := rfl
  K := k512

theorem sha256_comp : sha2 par256 = comp256 := by
  funext H blk
  exact sha2_comp fits256 H blk _ (ld32_eq blk)

theorem sha512_comp : sha2 par512 = comp512 := by
  funext H blk
  exact sha2_comp fits512 H blk _ (ld64_eq blk)

/-! ## Initial values -/

theorem iv_sqrt {n : Nat} (off : Nat) (l : List (BitVec n)) (hl : l.length = 8) (ho : off ≤ 8)
    (h : ∀ i < 8, ∃ a < 8, (a * 2 ^ n + (l.getD i 0).toNat) * (a * 2 ^ n + (l.getD i 0).toNat) ≤ first80.getD (off + i) 0 * 2 ^ (2 * n) ∧
      first80.getD (off + i) 0 * 2 ^ (2 * n) < (a * 2 ^ n + (l.getD i 0).toNat + 1) * (a * 2 ^ n + (l.getD i 0).toNat + 1)) :
    l = (List.range 8).map fun i => sqrtFrac n (prime (off + i)) := by
  apply List.ext_getElem
  · simpa using hl
  · intro i h1 h2
    rw [List.getElem_map, List.getElem_range, prime_eq _ (by omega), ← sqrtFrac_eq (h i (by omega)), List.getD_eq_getElem _ _ h1]

theorem h0_256 : algSha256.H0 = iv256 := by
  have := iv_sqrt 0 algSha256.H0 rfl (by decide) (by decide +kernel)
  simpa [iv256] using this

theorem h0_512 : algSha512.H0 = iv512 := by
  have := iv_sqrt 0 algSha512.H0 rfl (by decide) (by decide +kernel)
  simpa [iv512] using this

theorem h0_384 : algSha384.H0 = iv384 := iv_sqrt 8 algSha384.H0 rfl (by decide) (by decide +kernel)

theorem h0_224 : algSha224.H0 = iv224 := by
  have h : iv224 = iv384.map (·.setWidth 32) := by
    unfold iv224 iv384
    rw [List.map_map]
    rfl
  rw [h, ← h0_384]
  decide +kernel

theorem h0_t224 : algSha512t224.H0 = ivT (ascii "SHA-512/224") := by
  unfold ivT
  rw [← h0_512, ← sha512_comp]
  decide +kernel

theorem h0_t256 : algSha512t256.H0 = ivT (ascii "SHA-512/256") := by
  unfold ivT
  rw [← h0_512, ← sha512_comp]
  decide +kernel

end Fips180
