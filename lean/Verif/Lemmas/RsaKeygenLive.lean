import Verif.Lemmas.RsaKeygenAll
import Verif.Props.NumTheory

/-! RSA key generation: it returns when the generator gives primes. -/

namespace RsaKeygen
open Vlong Spec RsaDer NumTheory

/-- Five draws in a row that give bases which a prime candidate passes. -/
theorem mrRun_prime {w : List W} {rng : Rng} (hrng : ∀ k, (rng k).length = w.length) (hp : (val w).Prime) (hodd : val w % 2 = 1)
    (htop : val w < 2 ^ (32 * (w.length - 1))) (hn : 2 ≤ w.length) :
    ∀ (it k fuel : Nat), it ≤ fuel → (∀ j < it, ∃ a, condBase w (rng (k + j)) = some a ∧ ¬ val w ∣ val a) →
      mrRun w rng fuel k it = some (true, k + it) := by
  intro it
  induction it with
  | zero => intro k fuel _ _; cases fuel <;> simp [mrRun]
  | succ it ih =>
    intro k fuel hf h
    obtain ⟨fuel, rfl⟩ : ∃ x, fuel = x + 1 := ⟨fuel - 1, by omega⟩
    obtain ⟨a, a1, a2⟩ := h 0 (by omega)
    rw [Nat.add_zero] at a1
    obtain ⟨b1, b2, -⟩ := Props.C37_bases w (rng k) a (hrng k) hn htop a1
    obtain ⟨r, r1, r2⟩ := Props.C37_round_prime w a hp hodd b1 htop b2
    have hr : r = true := r2.mpr a2
    rw [mrRun, a1]
    simp only [r1, hr]
    rw [ih (k + 1) fuel (by omega) (fun j hj => by
      have := h (j + 1) (by omega)
      rwa [show k + (j + 1) = k + 1 + j by omega] at this)]
    congr 2; omega

theorem primes_total {rng : Rng} {junk : Junk} {mf cf f b : Nat} (hrng : ∀ k, (rng k).length = f) (hf : f < 2 ^ 32) (hcf : 0 < cf)
    (w : Nat → List W) :
    ∀ (flds : List Nat) (ul i0 : Nat) (s : St), s.k = 6 * i0 → (∀ x ∈ flds, x < ul) → flds.Nodup →
      (∀ i < flds.length, genOdd b (rng (6 * (i0 + i))) = some (w (i0 + i)) ∧
        mrRun (w (i0 + i)) rng mf (6 * (i0 + i) + 1) 5 = some (true, 6 * (i0 + i) + 6)) →
      ∃ s', primes rng junk mf cf f b flds ul s = some (s', ul + flds.length * (f + 1)) ∧
        (∀ j < ul, j ∉ flds → s'.m j = s.m j) ∧
        ∀ (i : Nat) (hi : i < flds.length), Holds s'.m (ul + i * (f + 1)) (w (i0 + i)) ∧
          s'.m flds[i] = BitVec.ofNat 32 (4 * (ul + i * (f + 1))) := by
  intro flds
  induction flds with
  | nil => intro ul i0 s _ _ _ _; exact ⟨s, by simp [primes], by simp, by simp⟩
  | cons fld flds ih =>
    intro ul i0 s hk hlt hnd hyp
    obtain ⟨g1, g2⟩ := hyp 0 (by simp)
    rw [Nat.add_zero] at g1 g2
    obtain ⟨cf', rfl⟩ : ∃ x, cf = x + 1 := ⟨cf - 1, by omega⟩
    have hl : (w i0).length = f := (genOdd_length g1).1.trans (hrng _)
    have hs : search rng junk mf f b ul (cf' + 1) s =
        some ⟨scratch (s.m.wr ul (w i0)) (ul + (f + 1)) (ul + 4 * (f + 1)) (junk 0 (6 * i0 + 6)), 6 * i0 + 6⟩ := by
      rw [search, hk, g1]
      simp only [g2, if_true]
    generalize hm1 : scratch (s.m.wr ul (w i0)) (ul + (f + 1)) (ul + 4 * (f + 1)) (junk 0 (6 * i0 + 6)) = m1 at hs
    have hH : Holds m1 ul (w i0) := by
      rw [← hm1]
      exact (wr_holds _ _ _ (by omega)).congr fun j h1 h2 => scratch_out _ _ _ _ (by omega)
    have hfr : ∀ j < ul, m1 j = s.m j := fun j hj => by
      rw [← hm1, scratch_out _ _ _ _ (by omega), wr_out _ _ _ (by omega)]
    have hfl := hlt fld (by simp)
    simp only [List.nodup_cons] at hnd
    obtain ⟨s', e1, e2, e3⟩ := ih (ul + (f + 1)) (i0 + 1) ⟨m1.put fld (BitVec.ofNat 32 (4 * ul)), 6 * i0 + 6⟩ (by simp only; omega)
      (fun x hx => by have := hlt x (by simp [hx]); omega) hnd.2
      (fun i hi => by
        have := hyp (i + 1) (by simp; omega)
        rwa [show i0 + (i + 1) = i0 + 1 + i by omega] at this)
    refine ⟨s', ?_, ?_, ?_⟩
    · rw [primes, hs]
      simp only [Option.bind_eq_bind, Option.bind_some]
      rw [e1]
      congr 2
      simp only [List.length_cons, Nat.add_mul]; omega
    · intro j hj hjn
      simp only [List.mem_cons, not_or] at hjn
      rw [e2 j (by omega) hjn.2]
      simp only
      rw [put_ne _ _ hjn.1, hfr j hj]
    · intro i hi
      cases i with
      | zero =>
        simp only [Nat.zero_mul, Nat.add_zero, List.getElem_cons_zero]
        refine ⟨hH.congr fun j h1 h2 => ?_, ?_⟩
        · rw [e2 j (by omega) (fun hc => by have := hlt j (by simp [hc]); omega)]
          exact put_ne _ _ (by omega)
        · rw [e2 fld (by omega) hnd.1]; exact put_self _ _ _
      | succ i =>
        have := e3 i (by simpa using hi)
        rw [show ul + (f + 1) + i * (f + 1) = ul + (i + 1) * (f + 1) by rw [Nat.add_mul]; omega,
          show i0 + 1 + i = i0 + (i + 1) by omega] at this
        simpa using this

/-- Up to 21 factors whose top five bits are set: the product has the full length. -/
theorem no_shrink {b : Nat} (hb : 5 ≤ b) : ∀ (l : List Nat), (∀ x ∈ l, 31 * 2 ^ (b - 5) ≤ x) → 31 ^ l.length * 2 ^ ((b - 5) * l.length) ≤ l.prod := by
  intro l
  induction l with
  | nil => simp
  | cons a l ih =>
    intro h
    have h1 := h a (by simp)
    have h2 := ih fun x hx => h x (by simp [hx])
    simp only [List.length_cons, List.prod_cons]
    calc _ = (31 * 2 ^ (b - 5)) * (31 ^ l.length * 2 ^ ((b - 5) * l.length)) := by
          rw [Nat.mul_add, Nat.mul_one, Nat.pow_add 2, Nat.pow_succ]; ring
      _ ≤ _ := Nat.mul_le_mul h1 h2

theorem full_length {b k : Nat} (hb : 5 ≤ b) (l : List Nat) (h : ∀ x ∈ l, 31 * 2 ^ (b - 5) ≤ x) (hk : l.length = k) (h1 : 1 ≤ k)
    (h2 : k ≤ 21) : 2 ^ (b * k - 1) ≤ l.prod := by
  refine le_trans ?_ (no_shrink hb l h)
  rw [hk]
  have hexp : b * k - 1 = (5 * k - 1) + (b - 5) * k := by
    obtain ⟨a, rfl⟩ : ∃ a, b = a + 5 := ⟨b - 5, by omega⟩
    rw [Nat.add_mul, Nat.add_sub_cancel]; omega
  rw [hexp, Nat.pow_add]
  refine Nat.mul_le_mul_right _ ?_
  interval_cases k <;> norm_num

theorem phi_prime_dvd {l : List Nat} {P : Nat → List W} : Nat.gcd 65537 (phi l P) ≠ 1 ↔ ∃ x ∈ l, 65537 ∣ val (P x) - 1 := by
  have hp : Nat.Prime 65537 := by norm_num
  have h1 : Nat.gcd 65537 (phi l P) ≠ 1 ↔ 65537 ∣ phi l P := hp.dvd_iff_not_coprime.symm
  rw [h1]
  unfold phi
  rw [hp.prime.dvd_prod_iff]
  simp

end RsaKeygen
