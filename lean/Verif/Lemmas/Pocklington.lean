import Mathlib.FieldTheory.Finite.Basic
import Mathlib.GroupTheory.OrderOfElement
import Mathlib.Data.Nat.Prime.Basic
import Mathlib.Tactic.NormNum.Prime

/-! Pocklington certificates, checked by the kernel's evaluator. -/

namespace Pock

/-- `b · a^e mod n`, by `k` square-and-multiply steps. -/
def pmAux (n : Nat) : (k a e b : Nat) → Nat
  | 0, _, _, b => b
  | k + 1, a, e, b => pmAux n k (a * a % n) (e / 2) (if e % 2 = 1 then b * a % n else b)

/-- `a^e mod n` for `e < 2^512`. -/
def pm (n a e : Nat) : Nat := pmAux n 512 (a % n) e (1 % n)

theorem pmAux_eq (n k a e b : Nat) (he : e < 2 ^ k) : pmAux n k a e b ≡ b * a ^ e [MOD n] := by
  induction k generalizing a e b with
  | zero =>
    have : e = 0 := by simpa using he
    subst this; simp [pmAux, Nat.ModEq]
  | succ k ih =>
    unfold pmAux
    have h1 : e / 2 < 2 ^ k := by rw [pow_succ] at he; omega
    refine (ih _ _ _ h1).trans ?_
    have h2 : (a * a % n) ^ (e / 2) ≡ a ^ (2 * (e / 2)) [MOD n] := by
      rw [pow_mul, sq]; exact (Nat.mod_modEq _ _).pow _
    have h3 := Nat.div_add_mod e 2
    split
    · rename_i h
      rw [h] at h3
      calc b * a % n * (a * a % n) ^ (e / 2) ≡ b * a * a ^ (2 * (e / 2)) [MOD n] :=
            (Nat.mod_modEq _ _).mul h2
        _ = b * a ^ e := by conv_rhs => rw [← h3, pow_succ]
                            ring
    · rename_i h
      have h4 : 2 * (e / 2) = e := by omega
      rw [h4] at h2
      exact (Nat.ModEq.refl b).mul h2

theorem pm_eq (n a e : Nat) (he : e < 2 ^ 512) : pm n a e ≡ a ^ e [MOD n] := by
  unfold pm
  refine (pmAux_eq n 512 _ e _ he).trans ?_
  calc 1 % n * (a % n) ^ e ≡ 1 * a ^ e [MOD n] := (Nat.mod_modEq _ _).mul ((Nat.mod_modEq _ _).pow _)
    _ = a ^ e := one_mul _

/-- The test: `Fs` are the prime factors, with multiplicity, of the factored part of `n - 1`. -/
def check (n a : Nat) (Fs : List Nat) : Bool :=
  let F := Fs.prod
  decide (1 < n) && decide (n < 2 ^ 512) && decide ((n - 1) % F = 0) && decide (n < (F + 1) * (F + 1)) &&
    decide (pm n a (n - 1) = 1) &&
    Fs.all fun q => decide (Nat.gcd (pm n a ((n - 1) / q) + n - 1) n = 1)

/-- Every prime factor of `n` is one modulo the factored part. -/
theorem dvd_of_check {n a : Nat} {Fs : List Nat} (hp : ∀ q ∈ Fs, q.Prime) (h1 : 1 < n) (h512 : n < 2 ^ 512)
    (hF : (n - 1) % Fs.prod = 0) (hpow : pm n a (n - 1) = 1)
    (hall : ∀ q ∈ Fs, Nat.gcd (pm n a ((n - 1) / q) + n - 1) n = 1) {r : Nat} (hrp : r.Prime) (hrn : r ∣ n) :
    Fs.prod ∣ r - 1 := by
  set F := Fs.prod with hFd
  have hFn : F ∣ n - 1 := Nat.dvd_of_mod_eq_zero hF
  have hFpos : 0 < F := Nat.pos_of_dvd_of_pos hFn (by omega)
  haveI : Fact r.Prime := ⟨hrp⟩
  obtain ⟨R, hR⟩ := hFn
  have hap : (a : ZMod r) ^ (n - 1) = 1 := by
    have := (pm_eq n a (n - 1) (by omega)).symm
    rw [hpow] at this
    have := this.of_dvd hrn
    have := (ZMod.natCast_eq_natCast_iff _ _ r).mpr this
    simpa using this
  have hord : orderOf ((a : ZMod r) ^ R) = F := by
    apply orderOf_eq_of_pow_and_pow_div_prime hFpos
    · rw [← pow_mul, Nat.mul_comm, ← hR]; exact hap
    · intro q hq hqF h1'
      have hqm : q ∈ Fs := by
        obtain ⟨q', hq', hd⟩ := (Prime.dvd_prod_iff hq.prime).mp (hFd ▸ hqF)
        have := (Nat.prime_dvd_prime_iff_eq hq (hp q' hq')).mp hd
        rwa [this]
      have hg := hall q hqm
      have e : R * (F / q) = (n - 1) / q := by
        rw [hR, mul_comm F, Nat.mul_div_assoc _ hqF]
      rw [← pow_mul, e] at h1'
      have hle : (n - 1) / q < 2 ^ 512 := lt_of_le_of_lt (Nat.div_le_self _ _) (by omega)
      have h2 := (ZMod.natCast_eq_natCast_iff _ _ r).mpr ((pm_eq n a ((n - 1) / q) hle).of_dvd hrn)
      rw [Nat.cast_pow, h1'] at h2
      have h3 : r ∣ pm n a ((n - 1) / q) + n - 1 := by
        rw [← ZMod.natCast_eq_zero_iff, Nat.add_sub_assoc (by omega), Nat.cast_add, h2, Nat.cast_sub (by omega),
          (ZMod.natCast_eq_zero_iff n r).mpr hrn]
        simp
      have h4 : r ∣ 1 := by rw [← hg]; exact Nat.dvd_gcd h3 hrn
      exact hrp.one_lt.ne' (Nat.dvd_one.mp h4)
  have hne : (a : ZMod r) ^ R ≠ 0 := by
    intro h0
    have : ((a : ZMod r) ^ R) ^ F = 0 := by rw [h0, zero_pow hFpos.ne']
    rw [← pow_mul, Nat.mul_comm, ← hR, hap] at this
    exact one_ne_zero this
  rw [← hord]; exact ZMod.orderOf_dvd_card_sub_one hne

theorem prime_of_check (n a : Nat) (Fs : List Nat) (hp : ∀ q ∈ Fs, q.Prime) (h : check n a Fs = true) :
    n.Prime := by
  unfold check at h
  simp only [Bool.and_eq_true, decide_eq_true_eq, List.all_eq_true] at h
  obtain ⟨⟨⟨⟨⟨h1, h512⟩, hF⟩, hlt⟩, hpow⟩, hall⟩ := h
  by_contra hnp
  have hrp : n.minFac.Prime := Nat.minFac_prime (by omega)
  have hsq : n.minFac * n.minFac ≤ n := by
    have := Nat.minFac_sq_le_self (by omega) hnp
    rwa [sq] at this
  have hdvd := dvd_of_check hp h1 h512 hF hpow hall hrp (Nat.minFac_dvd n)
  have : Fs.prod ≤ n.minFac - 1 := Nat.le_of_dvd (by have := hrp.one_lt; omega) hdvd
  have hFr : Fs.prod + 1 ≤ n.minFac := by have := hrp.one_lt; omega
  have := Nat.mul_le_mul hFr hFr
  omega

/-- The test with the cube root (Brillhart, Lehmer, Selfridge 1975): `s` is the integer square root of the discriminant. -/
def check3 (n a s : Nat) (Fs : List Nat) : Bool :=
  let F := Fs.prod
  let c1 := (n - 1) / F % F
  let c2 := (n - 1) / F / F
  decide (1 < n) && decide (n < 2 ^ 512) && decide ((n - 1) % F = 0) && decide (n < F * F * F) &&
    decide (pm n a (n - 1) = 1) && decide (4 * c2 + s * s < c1 * c1) && decide (c1 * c1 < 4 * c2 + (s + 1) * (s + 1)) &&
    Fs.all fun q => decide (Nat.gcd (pm n a ((n - 1) / q) + n - 1) n = 1)

theorem prime_of_check3 (n a s : Nat) (Fs : List Nat) (hp : ∀ q ∈ Fs, q.Prime) (h : check3 n a s Fs = true) :
    n.Prime := by
  unfold check3 at h
  simp only [Bool.and_eq_true, decide_eq_true_eq, List.all_eq_true] at h
  obtain ⟨⟨⟨⟨⟨⟨⟨h1, h512⟩, hF⟩, hlt⟩, hpow⟩, hs1⟩, hs2⟩, hall⟩ := h
  by_contra hnp
  have hrp : n.minFac.Prime := Nat.minFac_prime (by omega)
  have hsq : n.minFac * n.minFac ≤ n := by
    have := Nat.minFac_sq_le_self (by omega) hnp
    rwa [sq] at this
  obtain ⟨A, hA⟩ := dvd_of_check hp h1 h512 hF hpow hall hrp (Nat.minFac_dvd n)
  generalize hr : n.minFac = r at *
  have hrn : r ∣ n := hr ▸ Nat.minFac_dvd n
  obtain ⟨m, hm⟩ := hrn
  generalize Fs.prod = F at *
  have hr1 := hrp.one_lt
  have hFpos : 0 < F := by
    rcases Nat.eq_zero_or_pos F with h0 | h0
    · subst h0; omega
    · exact h0
  have hrA : r = F * A + 1 := by omega
  have hmr : r ≤ m := by
    by_contra hc
    have : r * m < r * r := Nat.mul_lt_mul_of_pos_left (by omega) (by omega)
    omega
  -- the cofactor is one modulo `F` too
  have hmF : F ∣ m - 1 := by
    have e : n - 1 = F * (A * m) + (m - 1) := by
      rw [hm, hrA]
      have : (F * A + 1) * m = F * (A * m) + m := by ring
      omega
    have := Nat.dvd_of_mod_eq_zero hF
    rw [e] at this
    exact (Nat.dvd_add_right (Dvd.intro _ rfl)).mp this
  obtain ⟨B, hB⟩ := hmF
  have hmB : m = F * B + 1 := by omega
  have hA1 : 1 ≤ A := by
    rcases Nat.eq_zero_or_pos A with h0 | h0
    · subst h0; omega
    · exact h0
  have hB1 : 1 ≤ B := by
    rcases Nat.eq_zero_or_pos B with h0 | h0
    · subst h0; omega
    · exact h0
  have hn : n = F * (F * (A * B) + (A + B)) + 1 := by rw [hm, hrA, hmB]; ring
  have hAB : A * B < F := by
    by_contra hc
    have h2 : F * (F * F) ≤ F * (F * (A * B)) := Nat.mul_le_mul_left _ (Nat.mul_le_mul_left _ (by omega))
    have h3 : F * (F * (A * B) + (A + B)) = F * (F * (A * B)) + F * (A + B) := by ring
    have h4 : F * F * F = F * (F * F) := by ring
    omega
  have hsum : A + B ≤ A * B + 1 := by
    obtain ⟨a', rfl⟩ := Nat.exists_eq_add_of_le hA1
    obtain ⟨b', rfl⟩ := Nat.exists_eq_add_of_le hB1
    have : (1 + a') * (1 + b') = 1 + a' + b' + a' * b' := by ring
    omega
  have hsF : A + B < F := by
    by_contra hc
    have e1 : A + B = F := by omega
    have e2 : A * B = F - 1 := by omega
    have e3 : F * (F * (A * B) + (A + B)) = F * F * F := by
      rw [e1, e2]
      obtain ⟨f, rfl⟩ := Nat.exists_eq_add_of_le hFpos
      rw [show Nat.succ 0 + f - 1 = f by omega]
      simp only [Nat.succ_eq_add_one, Nat.zero_add]
      ring
    omega
  have hc : (n - 1) / F = F * (A * B) + (A + B) := by
    rw [hn, Nat.add_sub_cancel, Nat.mul_div_cancel_left _ hFpos]
  rw [hc] at hs1 hs2
  rw [Nat.mul_add_mod, Nat.mod_eq_of_lt hsF, Nat.mul_add_div hFpos, Nat.div_eq_of_lt hsF, Nat.add_zero] at hs1 hs2
  have key : ∀ t u : Nat, A + B = 2 * u + t → A * B = u * (u + t) → False := by
    intro t u e1 e2
    rw [e1, e2] at hs1 hs2
    have e3 : (2 * u + t) * (2 * u + t) = 4 * (u * (u + t)) + t * t := by ring
    rw [e3] at hs1 hs2
    have l1 : s < t := by
      by_contra hc
      have := Nat.mul_le_mul (show t ≤ s by omega) (show t ≤ s by omega)
      omega
    have l2 : t < s + 1 := by
      by_contra hc
      have := Nat.mul_le_mul (show s + 1 ≤ t by omega) (show s + 1 ≤ t by omega)
      omega
    omega
  rcases Nat.le_total A B with hle | hle
  · obtain ⟨t, rfl⟩ := Nat.exists_eq_add_of_le hle
    exact key t A (by omega) rfl
  · obtain ⟨t, rfl⟩ := Nat.exists_eq_add_of_le hle
    exact key t B (by omega) (by ring)

end Pock
