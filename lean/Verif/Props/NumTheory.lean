import Verif.Lemmas.MillerRabin
import Verif.Props.Vlong
import Mathlib.Tactic.NormNum.Prime

/-!
# Properties C36, C37: extended Euclid and the Miller-Rabin test

`Spec.val` / `Spec.sval` are the unsigned / two's-complement readings of a word list.
-/

namespace Props
open Vlong Spec NumTheory

/-! ## C36 modular inversion -/

/-- C36: for operands of any equal word count, `EGCD` ends; it returns a (signed) inverse of `x`
modulo `p` when `gcd(x,p) = 1`, and NULL otherwise. -/
theorem C36_egcd (n fuel : Nat) (x p : List W) (hn : 0 < n) (lx : x.length = n) (lp : p.length = n)
    (hf : val x + 2 ≤ fuel) :
    (Nat.gcd (val x) (val p) = 1 → ∃ y, egcd fuel n n n n x p = some (some y) ∧ y.length = n ∧
      (sval y * val x) % val p = 1 % val p) ∧
    (Nat.gcd (val x) (val p) ≠ 1 → egcd fuel n n n n x p = some none) :=
  egcd_val n fuel x p hn lx lp hf

/-- C36: whatever is returned is an inverse (no assumption on the gcd). -/
theorem C36_egcd_sound (n fuel : Nat) (x p y : List W) (hn : 0 < n) (lx : x.length = n)
    (lp : p.length = n) (hf : val x + 2 ≤ fuel) (h : egcd fuel n n n n x p = some (some y)) :
    (sval y * val x) % val p = 1 % val p ∧ Nat.gcd (val x) (val p) = 1 := by
  obtain ⟨h1, h2⟩ := C36_egcd n fuel x p hn lx lp hf
  by_cases hg : Nat.gcd (val x) (val p) = 1
  · obtain ⟨y', e, -, hv⟩ := h1 hg
    rw [h] at e
    cases e
    exact ⟨hv, hg⟩
  · rw [h2 hg] at h; simp at h

/-- C36, as the RSA key generator uses it (`rsa-keygen.c:233-236`): the returned value after
`vlong_imod_inplace` is the inverse in `[0, p)`. -/
theorem C36_egcd_imod (n fuel : Nat) (x p y : List W) (hn : 0 < n) (lx : x.length = n)
    (lp : p.length = n) (hp : 1 < val p) (hf : val x + 2 ≤ fuel)
    (h : egcd fuel n n n n x p = some (some y)) :
    val (imodInplace y p) < val p ∧ val (imodInplace y p) * val x % val p = 1 := by
  obtain ⟨h1, -⟩ := C36_egcd n fuel x p hn lx lp hf
  obtain ⟨hs, hg⟩ := C36_egcd_sound n fuel x p y hn lx lp hf h
  obtain ⟨y', e, ly, -⟩ := h1 hg
  rw [h] at e; cases e
  obtain ⟨-, hv⟩ := C04_imod y p (by intro h; simp [h] at ly; omega) (by omega) (by omega)
  have hp0 : (0 : Int) < val p := by exact_mod_cast (by omega : 0 < val p)
  constructor
  · have := Int.emod_lt_of_pos (sval y) hp0
    rw [← hv] at this; exact_mod_cast this
  · have : ((val (imodInplace y p) * val x % val p : Nat) : Int) = 1 := by
      push_cast
      rw [hv, (Int.mod_modEq (sval y) (val p)).mul_right (val x : Int), hs]
      exact Int.emod_eq_of_lt (by decide) (by exact_mod_cast hp)
    exact_mod_cast this

example : egcd 9 1 1 1 1 [7] [26] = some (some [0xfffffff5]) := by decide +kernel
example : egcd 9 1 1 1 1 [6] [27] = some none := by decide +kernel
example : imodInplace [0xfffffff5] [26] = [15] := by decide +kernel

/-! ## C37 Miller-Rabin -/

/-- C37, exact meaning of one round: for every odd candidate `w ≥ 3` with a zero top word and every
base with a zero top word, the round accepts exactly when `w` is a strong probable prime to that
base. -/
theorem C37_round (w b : List W) (hodd : val w % 2 = 1) (hw : 3 ≤ val w)
    (hl : b.length = w.length) (htop : val w < 2 ^ (32 * (w.length - 1)))
    (hb : val b < 2 ^ (32 * (w.length - 1))) :
    ∃ r, round w b = some r ∧ (r = true ↔ StrongProbablePrime (val w) (val b)) :=
  round_val w b hodd hw hl htop hb

/-- C37: on a prime a round accepts exactly when the base is not a multiple of the prime. -/
theorem C37_round_prime (w b : List W) (hp : (val w).Prime) (hodd : val w % 2 = 1)
    (hl : b.length = w.length) (htop : val w < 2 ^ (32 * (w.length - 1)))
    (hb : val b < 2 ^ (32 * (w.length - 1))) :
    ∃ r, round w b = some r ∧ (r = true ↔ ¬ val w ∣ val b) := by
  obtain ⟨r, h1, h2⟩ := round_val w b hodd (by have := hp.two_le; omega) hl htop hb
  exact ⟨r, h1, h2.trans (spp_prime _ _ hp hodd)⟩

/-- C37: every base the code derives from a generator output fits the rounds' requirements:
it keeps the top word zero (and is odd). -/
theorem C37_bases (w d b : List W) (hl : d.length = w.length) (hn : 2 ≤ w.length)
    (htop : val w < 2 ^ (32 * (w.length - 1))) (h : condBase w d = some b) :
    b.length = w.length ∧ val b < 2 ^ (32 * (w.length - 1)) ∧ val b % 2 = 1 :=
  condBase_val w d b hl hn (top_of_val_lt _ _ htop) h

/-- C37: what the answers mean, for every odd candidate, every generator and every number of rounds:
"composite" means that some drawn base is a Miller-Rabin witness, "probable prime" that
as many successive draws as there were rounds gave bases to which `w` is a strong probable
prime. -/
theorem C37_answers (w : List W) (iterations : Nat) (rng : Nat → List W) (fuel : Nat)
    (hrng : ∀ k, (rng k).length = w.length)
    (hodd : val w % 2 = 1) (hw : 3 ≤ val w) (htop : val w < 2 ^ (32 * (w.length - 1))) :
    (millerRabin w iterations rng fuel = some false →
      ∃ k b, condBase w (rng k) = some b ∧ ¬ StrongProbablePrime (val w) (val b)) ∧
    (millerRabin w iterations rng fuel = some true →
      ∃ ks : List Nat, ks.length = iterations ∧ ks.Pairwise (· < ·) ∧ ∀ k ∈ ks,
        ∃ b, condBase w (rng k) = some b ∧ StrongProbablePrime (val w) (val b)) := by
  obtain ⟨h1, h2⟩ := rounds_val w rng hrng hodd hw htop fuel 0 iterations
  constructor
  · intro h
    obtain ⟨j, b, -, h3⟩ := h1 h
    exact ⟨j, b, h3⟩
  · intro h
    obtain ⟨js, a, b, c⟩ := h2 h
    exact ⟨js, a, b, fun k hk => (c k hk).2⟩

/-- C37: the routine ends as soon as the generator has given enough values above 1. -/
theorem C37_ends (w : List W) (iterations : Nat) (rng : Nat → List W) (fuel : Nat)
    (hrng : ∀ k, (rng k).length = w.length)
    (hodd : val w % 2 = 1) (hw : 3 ≤ val w) (htop : val w < 2 ^ (32 * (w.length - 1)))
    (hgood : ∀ k, 1 < val (rng k)) (hf : iterations ≤ fuel) :
    millerRabin w iterations rng fuel ≠ none := by
  refine rounds_total w rng hrng hodd hw htop ?_ fuel 0 iterations hf
  intro k hk
  have hne : rng k ≠ [] := by
    intro h; have := hgood k; rw [h] at this; simp [val] at this
  have := (condBase_none w (rng k) hne).mp hk
  have := hgood k
  omega

/-- C37 (partial: the bases must not be multiples of the candidate, see `C37_prime_rejected`):
an odd prime is never reported composite. -/
theorem C37_prime_accepted_partial (w : List W) (iterations : Nat) (rng : Nat → List W) (fuel : Nat)
    (hrng : ∀ k, (rng k).length = w.length)
    (hp : (val w).Prime) (hodd : val w % 2 = 1) (htop : val w < 2 ^ (32 * (w.length - 1)))
    (hbase : ∀ k b, condBase w (rng k) = some b → ¬ val w ∣ val b) :
    millerRabin w iterations rng fuel ≠ some false := by
  intro h
  obtain ⟨h1, -⟩ := C37_answers w iterations rng fuel hrng hodd (by have := hp.two_le; omega) htop
  obtain ⟨k, b, hb, hn⟩ := h1 h
  exact hn ((spp_prime _ _ hp hodd).mpr (hbase k b hb))

/-- C37, in particular: when every prepared base is below the candidate, as the comment in the code
intends ("Generate b in ]1, w-1["), an odd prime is accepted. -/
theorem C37_prime_accepted_small_bases (w : List W) (iterations : Nat) (rng : Nat → List W) (fuel : Nat)
    (hrng : ∀ k, (rng k).length = w.length)
    (hp : (val w).Prime) (hodd : val w % 2 = 1) (htop : val w < 2 ^ (32 * (w.length - 1)))
    (hbase : ∀ k b, condBase w (rng k) = some b → val b < val w) (hgood : ∀ k, 1 < val (rng k))
    (hf : iterations ≤ fuel) :
    millerRabin w iterations rng fuel = some true := by
  have hn : 2 ≤ w.length := by
    by_contra h
    rw [show w.length - 1 = 0 by omega] at htop
    have := hp.two_le
    simp at htop; omega
  have h1 := C37_prime_accepted_partial w iterations rng fuel hrng hp hodd htop (by
    intro k b hb hd
    have h3 := C37_bases w (rng k) b (hrng k) hn htop hb
    have := Nat.le_of_dvd (by omega) hd
    have := hbase k b hb
    omega)
  have h2 := C37_ends w iterations rng fuel hrng hodd (by have := hp.two_le; omega) htop hgood hf
  cases h : millerRabin w iterations rng fuel with
  | none => exact absurd h h2
  | some r =>
    cases r with
    | false => exact absurd h h1
    | true => rfl

/-- C37, finding: without that condition the property fails.  The code only compares one word of
the draw with the candidate, and afterwards sets low bits, so the base may be a multiple of
the candidate; then a prime is rejected. -/
theorem C37_prime_rejected :
    ∃ (w : List W) (rng : Nat → List W), (val w).Prime ∧ val w % 2 = 1 ∧
      val w < 2 ^ (32 * (w.length - 1)) ∧ (∀ k, (rng k).length = w.length ∧ 1 < val (rng k)) ∧
      millerRabin w 1 rng 1 = some false :=
  ⟨[3, 0], fun _ => [4, 0], (by rw [show val [(3 : W), 0] = 3 from rfl]; norm_num), by decide, by decide,
    fun _ => ⟨rfl, (by decide : 1 < val [(4 : W), 0])⟩, by decide +kernel⟩

/-- C37, finding: the "fast" reduction the test passes to the multiplier is a reduction only for an
object of exactly the modulus' size: a longer object can come back unreduced. -/
theorem C37_fast_reduction_needs_equal_size :
    ∃ rem b r : List W, b.length ≤ rem.length ∧ remvFast rem b = some r ∧ val r ≠ val rem % val b :=
  ⟨[0, 1, 0], [0x80000001], [0, 1, 0], by decide, by decide +kernel, by decide⟩

example : (val [(1000003 : W), 0]) < 2 ^ (32 * ([(1000003 : W), 0].length - 1)) ∧
    val [(1000003 : W), 0] % 2 = 1 := by decide
example : (val [(1000003 : W), 0]).Prime := by
  rw [show val [(1000003 : W), 0] = 1000003 from rfl]; norm_num
example : condBase [1000003, 0] [4, 7] = some [0xAA55, 0] := by decide +kernel
example : val [(0xAA55 : W), 0] < val [(1000003 : W), 0] := by decide
example : round [101, 0] [2, 0] = some true ∧ round [561, 0] [2, 0] = some false := by decide +kernel

end Props
