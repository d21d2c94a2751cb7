import Verif.Model.Ghash
import Verif.Spec.Gf128
import Mathlib.Algebra.Polynomial.Degree.Lemmas
import Mathlib.Algebra.CharP.Two
import Mathlib.Tactic.Ring
import Mathlib.Tactic.LinearCombination
import Mathlib.Algebra.Field.ZMod
import Mathlib.Tactic.ComputeDegree
import Mathlib.Tactic.IntervalCases

namespace Ghash
open Spec Polynomial

/-- Bit `i` of a pair of words, most significant first. -/
def bit (g : G) (i : Nat) : Bool := if i < 64 then g.w0.getMsbD i else g.w1.getMsbD (i - 64)

def c2 (b : Bool) : ZMod 2 := if b then 1 else 0

theorem c2_xor (a b : Bool) : c2 (a ^^ b) = c2 a + c2 b := by
  cases a <;> cases b <;> decide

/-- Polynomial of a bit function. -/
noncomputable def polN (n : Nat) (f : Nat → Bool) : (ZMod 2)[X] := ∑ i ∈ Finset.range n, C (c2 (f i)) * X ^ i

noncomputable def pol (f : Nat → Bool) : (ZMod 2)[X] := polN 128 f

theorem pol_xor (f g : Nat → Bool) : pol (fun i => f i ^^ g i) = pol f + pol g := by
  unfold pol polN
  rw [← Finset.sum_add_distrib]
  refine Finset.sum_congr rfl fun i _ => ?_
  rw [c2_xor, C_add, add_mul]

theorem pol_congr {f g : Nat → Bool} (h : ∀ i, i < 128 → f i = g i) : pol f = pol g := by
  unfold pol polN
  refine Finset.sum_congr rfl fun i hi => ?_
  rw [h i (Finset.mem_range.mp hi)]

theorem pol_zero : pol (fun _ => false) = 0 := by
  unfold pol polN
  refine Finset.sum_eq_zero fun i _ => ?_
  simp [c2]

theorem mask_eq (w : D) (k : Nat) : ~~~ ((w >>> k &&& 1#64) - 1#64) = if w.getLsbD k then BitVec.allOnes 64 else 0#64 := by
  have h : w >>> k &&& 1#64 = if w.getLsbD k then 1#64 else 0#64 := by
    rw [BitVec.and_one_eq_setWidth_ofBool_getLsbD, BitVec.getLsbD_ushiftRight, Nat.add_zero]
    cases w.getLsbD k <;> decide
  rw [h]
  cases w.getLsbD k <;> decide

theorem bit_gx (Y : G) (i : Nat) (hi : i < 128) : bit (gx Y) i = ((decide (i ≠ 0) && bit Y (i - 1)) ^^
    (bit Y 127 && (decide (i = 0) || decide (i = 1) || decide (i = 2) || decide (i = 7)))) := by
  have hm := mask_eq Y.w1 0
  rw [BitVec.ushiftRight_zero] at hm
  have h127 : bit Y 127 = Y.w1.getLsbD 0 := by
    simp [bit, BitVec.getMsbD]
  unfold gx
  simp only [hm, h127]
  unfold bit
  simp only []
  cases hb : Y.w1.getLsbD 0
  · simp only [if_neg (Bool.false_ne_true), BitVec.and_zero, BitVec.xor_zero, Bool.false_and, Bool.xor_false]
    by_cases h1 : i < 64
    · rw [if_pos h1, if_pos (by omega : i - 1 < 64), BitVec.getMsbD_ushiftRight]
      by_cases h0 : i = 0
      · simp [h0]
      · simp [h0]; omega
    · rw [if_neg h1, BitVec.getMsbD_or, BitVec.getMsbD_ushiftRight, BitVec.getMsbD_shiftLeft]
      by_cases h0 : i = 64
      · subst h0; simp
      · rw [if_neg (by omega : ¬ i - 1 < 64)]
        have e1 : decide (i - 64 < 64) = true := by simp; omega
        have e2 : ¬ (i - 64 < 1) := by omega
        have e3 : i - 1 - 64 = i - 64 - 1 := by omega
        have e4 : Y.w0.getMsbD (i - 64 + 63) = false := by
          apply BitVec.getMsbD_of_ge; omega
        simp [e1, e2, e3, e4]
        omega
  · simp only [if_pos, Bool.true_and]
    by_cases h1 : i < 64
    · rw [if_pos h1, if_pos (by omega : i - 1 < 64), BitVec.getMsbD_xor, BitVec.getMsbD_ushiftRight, BitVec.and_allOnes]
      have : (0xE100000000000000#64).getMsbD i = (decide (i = 0) || decide (i = 1) || decide (i = 2) || decide (i = 7)) := by
        revert i; decide
      rw [this]
      by_cases h0 : i = 0
      · simp [h0]
      · have : decide (i < 64) = true := by simpa using h1
        simp [h0]; omega
    · rw [if_neg h1, BitVec.getMsbD_or, BitVec.getMsbD_ushiftRight, BitVec.getMsbD_shiftLeft]
      by_cases h0 : i = 64
      · subst h0; simp
      · rw [if_neg (by omega : ¬ i - 1 < 64)]
        have e1 : decide (i - 64 < 64) = true := by simp; omega
        have e2 : ¬ (i - 64 < 1) := by omega
        have e3 : i - 1 - 64 = i - 64 - 1 := by omega
        have e4 : Y.w0.getMsbD (i - 64 + 63) = false := by
          apply BitVec.getMsbD_of_ge; omega
        have e5 : (decide (i = 0) || decide (i = 1) || decide (i = 2) || decide (i = 7)) = false := by simp; omega
        simp [e1, e2, e3, e4, e5]
        omega

theorem shift_gen (n : Nat) (f : Nat → Bool) :
    (∑ i ∈ Finset.range (n + 1), C (c2 (decide (i ≠ 0) && f (i - 1))) * X ^ i) + C (c2 (f n)) * X ^ (n + 1) =
      X * ∑ i ∈ Finset.range (n + 1), C (c2 (f i)) * (X : (ZMod 2)[X]) ^ i := by
  rw [Finset.sum_range_succ', Finset.sum_range_succ, mul_add, Finset.mul_sum]
  have h0 : C (c2 (decide ((0 : Nat) ≠ 0) && f (0 - 1))) * X ^ 0 = (0 : (ZMod 2)[X]) := by simp [c2]
  rw [h0, add_zero]
  have h1 : ∀ i ∈ Finset.range n, C (c2 (decide (i + 1 ≠ 0) && f (i + 1 - 1))) * (X : (ZMod 2)[X]) ^ (i + 1) = X * (C (c2 (f i)) * X ^ i) := by
    intro i _
    have : (decide (i + 1 ≠ 0) && f (i + 1 - 1)) = f i := by simp
    rw [this]
    ring
  rw [Finset.sum_congr rfl h1]
  ring

theorem shift_genN (n : Nat) (f : Nat → Bool) :
    polN (n + 1) (fun i => decide (i ≠ 0) && f (i - 1)) + C (c2 (f n)) * X ^ (n + 1) = X * polN (n + 1) f := shift_gen n f

theorem pol_shift (f : Nat → Bool) : pol (fun i => decide (i ≠ 0) && f (i - 1)) + C (c2 (f 127)) * X ^ 128 = X * pol f := by
  have := shift_genN 127 f
  unfold pol
  rw [← this]

theorem pol_fold : pol (fun i => decide (i = 0) || decide (i = 1) || decide (i = 2) || decide (i = 7)) = 1 + X + X ^ 2 + X ^ 7 := by
  unfold pol polN
  have h : ∀ i ∈ Finset.range 128, C (c2 (decide (i = 0) || decide (i = 1) || decide (i = 2) || decide (i = 7))) * (X : (ZMod 2)[X]) ^ i =
      if i ∈ ({0, 1, 2, 7} : Finset Nat) then X ^ i else 0 := by
    intro i _
    by_cases h : i = 0 ∨ i = 1 ∨ i = 2 ∨ i = 7
    · have e : (decide (i = 0) || decide (i = 1) || decide (i = 2) || decide (i = 7)) = true := by simp; tauto
      rw [e, if_pos (by simpa using h)]
      simp [c2]
    · have e : (decide (i = 0) || decide (i = 1) || decide (i = 2) || decide (i = 7)) = false := by simp; tauto
      rw [e, if_neg (by simpa using h)]
      simp [c2]
  rw [Finset.sum_congr rfl h, Finset.sum_ite_mem, show Finset.range 128 ∩ {0, 1, 2, 7} = ({0, 1, 2, 7} : Finset Nat) by decide]
  rw [Finset.sum_insert (by decide), Finset.sum_insert (by decide), Finset.sum_insert (by decide), Finset.sum_singleton]
  ring

/-- Multiplying by `x`, up to a multiple of the modulus. -/
theorem pol_gx (Y : G) : gfMod ∣ pol (bit (gx Y)) - X * pol (bit Y) := by
  rw [pol_congr (bit_gx Y), pol_xor, ← pol_shift]
  cases bit Y 127
  · simp only [Bool.false_and, pol_zero]
    simp [c2]
  · simp only [Bool.true_and, pol_fold]
    refine ⟨1, ?_⟩
    have h2 : (2 : (ZMod 2)[X]) = 0 := CharTwo.two_eq_zero
    unfold gfMod
    simp only [c2, if_true, C_1]
    linear_combination (-(X : (ZMod 2)[X]) ^ 128) * h2

theorem bit_mulStep (Xg : G) (s : G × G) (i : Nat) (hi : i < 128) :
    (∀ j, bit (mulStep Xg s i).1 j = (bit s.1 j ^^ (bit Xg i && bit s.2 j))) ∧ (mulStep Xg s i).2 = gx s.2 := by
  refine ⟨fun j => ?_, rfl⟩
  unfold mulStep
  simp only [mask_eq]
  have hb : (if i / 64 = 0 then Xg.w0 else Xg.w1).getLsbD (63 - (i &&& 63)) = bit Xg i := by
    unfold bit
    have : i &&& 63 = i % 64 := Nat.and_two_pow_sub_one_eq_mod i 6
    rw [this]
    by_cases h : i < 64
    · rw [if_pos (by omega), if_pos h, BitVec.getMsbD]
      rw [Nat.mod_eq_of_lt h]
      simp [h]
    · rw [if_neg (by omega), if_neg h, BitVec.getMsbD]
      have e : i % 64 = i - 64 := by omega
      rw [e]
      have : decide (i - 64 < 64) = true := by simp; omega
      simp [this]
  rw [hb]
  cases bit Xg i
  · simp [bit]
  · simp only [if_true, BitVec.and_allOnes, Bool.true_and]
    unfold bit
    by_cases h : j < 64 <;> simp [h]

theorem dvd_comb (m a b c d e f : (ZMod 2)[X]) (h1 : m ∣ a - b * f) (h2 : m ∣ d - e * f) : m ∣ a + c * d - (b + c * e) * f := by
  have := dvd_add h1 (Dvd.dvd.mul_left h2 c)
  have e : a + c * d - (b + c * e) * f = a - b * f + c * (d - e * f) := by ring
  rw [e]; exact this

theorem dvd_comb2 (m a c d f : (ZMod 2)[X]) (h1 : m ∣ a - X * c) (h2 : m ∣ c - d * f) : m ∣ a - d * X * f := by
  have := dvd_add h1 (Dvd.dvd.mul_left h2 X)
  have e : a - d * X * f = a - X * c + X * (c - d * f) := by ring
  rw [e]; exact this

theorem polN_succ (n : Nat) (f : Nat → Bool) : polN (n + 1) f = polN n f + C (c2 (f n)) * X ^ n := Finset.sum_range_succ _ _

theorem mul_loop (Xg Y : G) (n : Nat) (hn : n ≤ 128) :
    gfMod ∣ pol (bit ((List.range n).foldl (mulStep Xg) (⟨0, 0⟩, Y)).1) - polN n (bit Xg) * pol (bit Y) ∧
    gfMod ∣ pol (bit ((List.range n).foldl (mulStep Xg) (⟨0, 0⟩, Y)).2) - X ^ n * pol (bit Y) := by
  induction n with
  | zero =>
    have : pol (bit ⟨0, 0⟩) = 0 := by
      rw [← pol_zero]
      exact pol_congr fun i _ => by simp [bit]
    rw [List.range_zero, List.foldl_nil]
    simp only [this]
    simp [polN]
  | succ n ih =>
    obtain ⟨h1, h2⟩ := ih (by omega)
    rw [List.range_succ, List.foldl_append, List.foldl_cons, List.foldl_nil]
    obtain ⟨s, hs⟩ : ∃ s, s = (List.range n).foldl (mulStep Xg) (⟨0, 0⟩, Y) := ⟨_, rfl⟩
    rw [← hs] at h1 h2 ⊢
    obtain ⟨b1, b2⟩ := bit_mulStep Xg s n (by omega)
    constructor
    · rw [pol_congr fun i _ => b1 i, pol_xor, polN_succ]
      have : pol (fun j => bit Xg n && bit s.2 j) = C (c2 (bit Xg n)) * pol (bit s.2) := by
        cases bit Xg n
        · simp [pol_zero, c2]
        · simp [c2]
      rw [this]
      generalize pol (bit s.1) = A at *
      generalize pol (bit s.2) = B at *
      generalize pol (bit Y) = Yp at *
      generalize polN n (bit Xg) = P at *
      generalize gfMod = m at *
      exact dvd_comb _ _ _ _ _ _ _ h1 h2
    · rw [b2, pow_succ]
      have h3 := pol_gx s.2
      generalize pol (bit (gx s.2)) = A at *
      generalize pol (bit s.2) = B at *
      generalize pol (bit Y) = Yp at *
      generalize gfMod = m at *
      exact dvd_comb2 _ _ _ _ _ h3 h2

theorem gfMod_monic : gfMod.Monic := by
  unfold gfMod
  monicity!

theorem gfMod_degree : gfMod.degree = 128 := by
  unfold gfMod
  compute_degree!

theorem pol_degree (f : Nat → Bool) : (pol f).degree < gfMod.degree := by
  rw [gfMod_degree]
  unfold pol polN
  refine lt_of_le_of_lt (degree_sum_le _ _) ?_
  rw [Finset.sup_lt_iff (by exact WithBot.bot_lt_coe 128)]
  intro i hi
  refine lt_of_le_of_lt (degree_C_mul_X_pow_le _ _) ?_
  exact_mod_cast Finset.mem_range.mp hi

theorem pol_mul (Xg Y : G) : pol (bit (mul Xg Y)) = (pol (bit Xg) * pol (bit Y)) %ₘ gfMod := by
  have h : gfMod ∣ pol (bit (mul Xg Y)) - pol (bit Xg) * pol (bit Y) := by
    have := (mul_loop Xg Y 128 (le_refl _)).1
    rw [show mul Xg Y = ((List.range 128).foldl (mulStep Xg) (⟨0, 0⟩, Y)).1 from rfl, show pol (bit Xg) = polN 128 (bit Xg) from rfl]
    exact this
  have e := (modByMonic_eq_self_iff gfMod_monic).mpr (pol_degree (bit (mul Xg Y)))
  rw [← e]
  apply modByMonic_eq_of_dvd_sub gfMod_monic
  exact h

/-! Bytes. -/

theorem bit_load (p : List Byte) (i : Nat) (hi : i < 128) : bit (load p) i = (p.getD (i / 8) 0).getMsbD (i % 8) := by
  have hb : ∀ k j, j < 64 → (be64 p k).getMsbD j = (p.getD (8 * k + j / 8) 0).getMsbD (j % 8) := by
    intro k j hj
    unfold be64
    simp only [BitVec.getMsbD_append]
    have : j / 8 < 8 := by omega
    have hd : j = 8 * (j / 8) + j % 8 := by omega
    have hm : j % 8 < 8 := by omega
    generalize j / 8 = q at *
    generalize j % 8 = r at *
    subst hd
    interval_cases q <;> simp <;> (repeat rw [if_neg (by omega)]) <;> (try rw [if_pos (by omega)]) <;> (congr 1 <;> omega)
  unfold bit load
  simp only []
  by_cases h : i < 64
  · rw [if_pos h, hb 0 i h]; simp
  · rw [if_neg h, hb 1 (i - 64) (by omega)]
    rw [show 8 * 1 + (i - 64) / 8 = i / 8 by omega, show (i - 64) % 8 = i % 8 by omega]

theorem gfPoly_eq (b : List Byte) : gfPoly b = pol (fun i => (b.getD (i / 8) 0).getMsbD (i % 8)) := rfl

theorem gfPoly_load (p : List Byte) : gfPoly p = pol (bit (load p)) := by
  rw [gfPoly_eq]
  exact pol_congr fun i hi => (bit_load p i hi).symm

theorem put64_bit (v : D) (k r : Nat) (hk : k < 8) (hr : r < 8) : ((put64 v).getD k 0).getMsbD r = v.getMsbD (8 * k + r) := by
  have hg : ∀ m, m ≤ 56 → ((v >>> m).setWidth 8 : Byte).getMsbD r = v.getMsbD (56 - m + r) := by
    intro m hm
    rw [BitVec.getMsbD_setWidth]
    simp only [BitVec.getMsbD_ushiftRight]
    have : decide (8 - 64 ≤ r) = true := by simp
    simp
    rw [show r + 56 - m = 56 - m + r by omega]
    have h1 : decide (r + 56 < 64) = true := by simp; omega
    have h2 : decide (r + 56 < m) = false := by simp; omega
    rw [h1, h2]; rfl
  have h0 := hg 0 (by omega)
  rw [BitVec.ushiftRight_zero] at h0
  unfold put64
  interval_cases k <;> simp only [List.getD_cons_zero, List.getD_cons_succ]
  · exact hg 56 (by omega)
  · exact hg 48 (by omega)
  · exact hg 40 (by omega)
  · exact hg 32 (by omega)
  · exact hg 24 (by omega)
  · exact hg 16 (by omega)
  · exact hg 8 (by omega)
  · exact h0

theorem gfPoly_store (g : G) : gfPoly (store g) = pol (bit g) := by
  rw [gfPoly_eq]
  refine pol_congr fun i hi => ?_
  unfold store bit
  have hl : (put64 g.w0).length = 8 := rfl
  rw [List.getD_eq_getElem?_getD, List.getElem?_append, hl]
  by_cases h : i < 64
  · rw [if_pos (by omega), if_pos h, ← List.getD_eq_getElem?_getD, put64_bit _ _ _ (by omega) (by omega)]
    rw [show 8 * (i / 8) + i % 8 = i by omega]
  · rw [if_neg (by omega), if_neg h, ← List.getD_eq_getElem?_getD, put64_bit _ _ _ (by omega) (by omega)]
    rw [show 8 * (i / 8 - 8) + i % 8 = i - 64 by omega]

theorem gfPoly_xor (a b : List Byte) (h : a.length = b.length) : gfPoly (xorBytes a b) = gfPoly a + gfPoly b := by
  rw [gfPoly_eq, gfPoly_eq, gfPoly_eq, ← pol_xor]
  refine pol_congr fun i _ => ?_
  rw [← BitVec.getMsbD_xor]
  congr 1
  unfold xorBytes
  simp only [List.getD_eq_getElem?_getD, List.getElem?_zipWith]
  by_cases hi : i / 8 < a.length
  · rw [List.getElem?_eq_getElem hi, List.getElem?_eq_getElem (h ▸ hi)]
    rfl
  · rw [List.getElem?_eq_none (by omega), List.getElem?_eq_none (by omega)]
    rfl

theorem store_length (g : G) : (store g).length = 16 := rfl

/-- The block operation of GHASH. -/
theorem hash1block_spec (Y H Xb : List Byte) (hY : Y.length = 16) (hX : Xb.length = 16) :
    IsGfProduct (xorBytes Y Xb) H (hash1block Y H Xb) := by
  refine ⟨rfl, ?_⟩
  unfold hash1block
  simp only []
  rw [gfPoly_store, pol_mul, gfPoly_xor _ _ (by omega), gfPoly_load H, gfPoly_load Y, gfPoly_load Xb, ← pol_xor]
  have e : pol (bit ⟨(load Y).w0 ^^^ (load Xb).w0, (load Y).w1 ^^^ (load Xb).w1⟩) = pol (fun i => bit (load Y) i ^^ bit (load Xb) i) := by
    refine pol_congr fun i _ => ?_
    unfold bit
    split <;> simp
  rw [e]

/-- A block is determined by its polynomial. -/
theorem pol_inj {f g : Nat → Bool} (h : pol f = pol g) (i : Nat) (hi : i < 128) : f i = g i := by
  have hc : ∀ f : Nat → Bool, (pol f).coeff i = c2 (f i) := by
    intro f
    unfold pol polN
    rw [finset_sum_coeff, Finset.sum_eq_single i]
    · simp
    · intro b _ hb
      rw [coeff_C_mul_X_pow, if_neg (Ne.symm hb)]
    · intro h
      exact absurd (Finset.mem_range.mpr hi) h
  have := (hc f).symm.trans ((congrArg (fun p => p.coeff i) h).trans (hc g))
  revert this
  cases f i <;> cases g i <;> decide

theorem gfPoly_inj {a b : List Byte} (ha : a.length = 16) (hb : b.length = 16) (h : gfPoly a = gfPoly b) : a = b := by
  rw [gfPoly_eq, gfPoly_eq] at h
  apply List.ext_getElem (by omega)
  intro k h1 h2
  apply BitVec.eq_of_getMsbD_eq
  intro r hr
  have := pol_inj h (8 * k + r) (by omega)
  rw [show (8 * k + r) / 8 = k by omega, show (8 * k + r) % 8 = r by omega] at this
  rw [List.getD_eq_getElem?_getD, List.getD_eq_getElem?_getD, List.getElem?_eq_getElem h1, List.getElem?_eq_getElem h2] at this
  exact this

theorem product_unique {a b c d : List Byte} (h1 : IsGfProduct a b c) (h2 : IsGfProduct a b d) : c = d :=
  gfPoly_inj h1.1 h2.1 (h1.2.trans h2.2.symm)

end Ghash
