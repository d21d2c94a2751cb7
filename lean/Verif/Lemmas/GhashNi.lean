import Verif.Model.GhashNi
import Verif.Lemmas.Ghash

namespace Ghash
open Spec Polynomial Spec.Isa

noncomputable def P {w : Nat} (x : BitVec w) : (ZMod 2)[X] := polN w x.getLsbD

theorem polN_congr {n : Nat} {f g : Nat → Bool} (h : ∀ i, i < n → f i = g i) : polN n f = polN n g := by
  unfold polN
  refine Finset.sum_congr rfl fun i hi => ?_
  rw [h i (Finset.mem_range.mp hi)]

theorem polN_zero {n : Nat} {f : Nat → Bool} (h : ∀ i, i < n → f i = false) : polN n f = 0 := by
  unfold polN
  refine Finset.sum_eq_zero fun i hi => ?_
  rw [h i (Finset.mem_range.mp hi)]
  simp [c2]

theorem polN_add (m n : Nat) (f : Nat → Bool) : polN (m + n) f = polN m f + X ^ m * polN n (fun i => f (m + i)) := by
  unfold polN
  rw [Finset.sum_range_add, Finset.mul_sum]
  congr 1
  refine Finset.sum_congr rfl fun i _ => ?_
  rw [pow_add]; ring

theorem P_xor {w : Nat} (x y : BitVec w) : P (x ^^^ y) = P x + P y := by
  unfold P polN
  rw [← Finset.sum_add_distrib]
  refine Finset.sum_congr rfl fun i _ => ?_
  rw [BitVec.getLsbD_xor, c2_xor, C_add, add_mul]

theorem P_zero {w : Nat} : P (0#w) = 0 := polN_zero fun i _ => by simp

theorem P_shl (a : BitVec 64) (i : Nat) (hi : i ≤ 64) : P (a.setWidth 128 <<< i) = X ^ i * P a := by
  unfold P
  have e : (128 : Nat) = i + (64 + (64 - i)) := by omega
  rw [show polN 128 (a.setWidth 128 <<< i).getLsbD = polN (i + (64 + (64 - i))) (a.setWidth 128 <<< i).getLsbD from by rw [← e]]
  rw [polN_add, polN_zero (f := (a.setWidth 128 <<< i).getLsbD), zero_add, polN_add,
    polN_zero (f := fun k => (a.setWidth 128 <<< i).getLsbD (i + (64 + k))), mul_zero, add_zero]
  · refine congrArg (X ^ i * ·) (polN_congr fun k hk => ?_)
    rw [BitVec.getLsbD_shiftLeft, BitVec.getLsbD_setWidth]
    have h1 : decide (i + k < 128) = true := by simp; omega
    have h2 : decide (i + k < i) = false := by simp
    have h3 : decide (i + k - i < 128) = true := by simp; omega
    rw [h1, h2, h3, Nat.add_sub_cancel_left]; simp
  · intro k hk
    rw [BitVec.getLsbD_shiftLeft, BitVec.getLsbD_setWidth]
    rw [BitVec.getLsbD_of_ge a _ (by omega)]; simp
  · intro k hk
    rw [BitVec.getLsbD_shiftLeft]
    simp [hk]

theorem P_clmul (a b : BitVec 64) : P (clmul a b) = P a * P b := by
  have h : ∀ n, n ≤ 64 → P ((List.range n).foldl (fun p i => if b.getLsbD i then p ^^^ (a.setWidth 128 <<< i) else p) 0#128) =
      P a * polN n b.getLsbD := by
    intro n
    induction n with
    | zero => intro _; rw [List.range_zero, List.foldl_nil, P_zero]; simp [polN]
    | succ n ih =>
      intro hn
      rw [List.range_succ, List.foldl_append, List.foldl_cons, List.foldl_nil, polN_succ, mul_add, ← ih (by omega)]
      cases b.getLsbD n
      · simp [c2]
      · rw [if_pos rfl, P_xor, P_shl _ _ (by omega)]
        simp only [c2, if_true, C_1]; ring
  exact h 64 (Nat.le_refl _)

theorem P_split (x : V) : P x = P (x.setWidth 64) + X ^ 64 * P ((x >>> 64).setWidth 64) := by
  unfold P
  rw [show polN 128 x.getLsbD = polN (64 + 64) x.getLsbD from rfl, polN_add]
  refine congrArg₂ (· + ·) (polN_congr fun i hi => ?_) (congrArg (X ^ 64 * ·) (polN_congr fun i hi => ?_))
  · simp [BitVec.getLsbD_setWidth, hi]
  · simp [BitVec.getLsbD_setWidth, hi]

theorem P_shl64 (x : V) : P (x <<< 64) = X ^ 64 * P (x.setWidth 64) := by
  rw [← P_shl _ _ (Nat.le_refl _)]
  refine congrArg P ?_
  apply BitVec.eq_of_getLsbD_eq
  intro i hi
  simp only [BitVec.getLsbD_shiftLeft, BitVec.getLsbD_setWidth]
  have : decide (i - 64 < 64) = true := by simp; omega
  rw [this]
  have : decide (i - 64 < 128) = true := by simp; omega
  rw [this]; simp

theorem P_87 : P (0x87#64) = 1 + X + X ^ 2 + X ^ 7 := by
  rw [← pol_fold]
  unfold P pol
  rw [show polN 128 (fun i => decide (i = 0) || decide (i = 1) || decide (i = 2) || decide (i = 7)) =
    polN (64 + 64) (fun i => decide (i = 0) || decide (i = 1) || decide (i = 2) || decide (i = 7)) from rfl, polN_add]
  rw [polN_zero (f := fun i => decide (64 + i = 0) || decide (64 + i = 1) || decide (64 + i = 2) || decide (64 + i = 7)) (fun i _ => by simp; omega), mul_zero, add_zero]
  refine polN_congr fun i hi => ?_
  revert i; decide

/-- The multiplication and reduction by 64-bit halves common to the three variants. -/
def core (x y : V) : V :=
  let p := 0x87#64
  let b := clmul (x.setWidth 64) ((y >>> 64).setWidth 64) ^^^ clmul ((x >>> 64).setWidth 64) (y.setWidth 64)
  let d := clmul ((x >>> 64).setWidth 64) ((y >>> 64).setWidth 64)
  let c := clmul p ((d >>> 64).setWidth 64)
  clmul (x.setWidth 64) (y.setWidth 64) ^^^ b <<< 64 ^^^ clmul p ((b >>> 64).setWidth 64) ^^^ clmul p (d.setWidth 64) ^^^ c <<< 64 ^^^
    clmul p ((c >>> 64).setWidth 64)

theorem core_alg (x0 x1 y0 y1 b0 b1 d0 d1 c0 c1 p T m : (ZMod 2)[X]) (hb : b0 + T * b1 = x0 * y1 + x1 * y0) (hd : d0 + T * d1 = x1 * y1)
    (hc : c0 + T * c1 = p * d1) (hm : m = T ^ 2 + p) :
    m ∣ (x0 * y0 + T * b0 + p * b1 + p * d0 + T * c0 + p * c1) - (x0 + T * x1) * (y0 + T * y1) := by
  refine ⟨b1 + d0 + T * d1 + c1, ?_⟩
  have h2 : (2 : (ZMod 2)[X]) = 0 := CharTwo.two_eq_zero
  rw [hm]
  linear_combination T * hb + T ^ 2 * hd + T * hc - (T ^ 2 * b1 + T ^ 2 * d0 + T ^ 3 * d1 + T ^ 2 * c1) * h2

theorem core_dvd (x y : V) : gfMod ∣ P (core x y) - P x * P y := by
  unfold core
  rw [P_split x, P_split y]
  obtain ⟨b, hb⟩ : ∃ b, b = clmul (x.setWidth 64) ((y >>> 64).setWidth 64) ^^^ clmul ((x >>> 64).setWidth 64) (y.setWidth 64) := ⟨_, rfl⟩
  obtain ⟨d, hd⟩ : ∃ b, b = clmul ((x >>> 64).setWidth 64) ((y >>> 64).setWidth 64) := ⟨_, rfl⟩
  simp only [← hb, ← hd]
  obtain ⟨c, hc⟩ : ∃ b, b = clmul (0x87#64) ((d >>> 64).setWidth 64) := ⟨_, rfl⟩
  simp only [← hc]
  have b' := congrArg P hb
  have d' := congrArg P hd
  have c' := congrArg P hc
  rw [P_split, P_xor, P_clmul, P_clmul] at b'
  rw [P_split, P_clmul] at d' c'
  have hm : gfMod = (X ^ 64) ^ 2 + P (0x87#64) := by
    rw [P_87]
    unfold gfMod
    ring
  simp only [P_xor, P_shl64, P_clmul]
  generalize P (0x87#64) = p at *
  generalize (X : (ZMod 2)[X]) ^ 64 = T at *
  generalize gfMod = m at *
  generalize P (x.setWidth 64) = x0 at *
  generalize P (y.setWidth 64) = y0 at *
  generalize P ((x >>> 64).setWidth 64) = x1 at *
  generalize P ((y >>> 64).setWidth 64) = y1 at *
  generalize P (b.setWidth 64) = b0 at *
  generalize P ((b >>> 64).setWidth 64) = b1 at *
  generalize P (c.setWidth 64) = c0 at *
  generalize P ((c >>> 64).setWidth 64) = c1 at *
  generalize P (d.setWidth 64) = d0 at *
  generalize P ((d >>> 64).setWidth 64) = d1 at *
  exact core_alg _ _ _ _ _ _ _ _ _ _ _ _ _ b' d' c' hm

theorem core_spec (x y : V) : P (core x y) = (P x * P y) %ₘ gfMod := by
  have hdeg : (P (core x y)).degree < gfMod.degree := pol_degree (core x y).getLsbD
  have e := (modByMonic_eq_self_iff gfMod_monic).mpr hdeg
  rw [← e]
  exact modByMonic_eq_of_dvd_sub gfMod_monic (core_dvd x y)

/-! Mirroring the bits in each octet. -/

/-- The bit position moved by one exchange step. -/
def flip (k i : Nat) : Nat := if i / k % 2 = 1 then i - k else i + k

theorem step_arm (x : V) (k : Nat) (m m' : V) (hk : k = 1 ∨ k = 2 ∨ k = 4) (hm : ∀ i, i < 128 → m.getLsbD i = decide (i / k % 2 = 1))
    (hm' : ∀ i, i < 128 → m'.getLsbD i = decide (i / k % 2 = 0)) (i : Nat) (hi : i < 128) :
    ((x &&& m) >>> k ||| (x &&& m') <<< k).getLsbD i = x.getLsbD (flip k i) := by
  rw [BitVec.getLsbD_or, BitVec.getLsbD_ushiftRight, BitVec.getLsbD_shiftLeft, BitVec.getLsbD_and, BitVec.getLsbD_and]
  unfold flip
  by_cases h : i / k % 2 = 1
  · rw [if_pos h]
    have h1 : m'.getLsbD (i - k) = true := by
      rw [hm' _ (by omega)]
      simp only [decide_eq_true_eq]
      rcases hk with rfl | rfl | rfl <;> omega
    have h2 : (x.getLsbD (k + i) && m.getLsbD (k + i)) = false := by
      by_cases hl : k + i < 128
      · rw [hm _ hl]
        have : decide ((k + i) / k % 2 = 1) = false := by
          simp only [decide_eq_false_iff_not]
          rcases hk with rfl | rfl | rfl <;> omega
        rw [this, Bool.and_false]
      · rw [BitVec.getLsbD_of_ge x _ (by omega), Bool.false_and]
    have h3 : decide (i < k) = false := by
      simp only [decide_eq_false_iff_not]
      rcases hk with rfl | rfl | rfl <;> omega
    rw [h1, h2, h3]
    simp [hi]
  · rw [if_neg h]
    have h1 : m.getLsbD (k + i) = true := by
      rw [hm _ (by rcases hk with rfl | rfl | rfl <;> omega)]
      simp only [decide_eq_true_eq]
      rcases hk with rfl | rfl | rfl <;> omega
    have h2 : (!decide (i < k) && (x.getLsbD (i - k) && m'.getLsbD (i - k))) = false := by
      by_cases hl : i < k
      · simp [hl]
      · rw [hm' _ (by omega)]
        have : decide ((i - k) / k % 2 = 0) = false := by
          simp only [decide_eq_false_iff_not]
          rcases hk with rfl | rfl | rfl <;> omega
        rw [this]; simp
    rw [h1, Bool.and_assoc, h2, Nat.add_comm k i]
    simp

theorem flip_lt (k i : Nat) (hk : k = 1 ∨ k = 2 ∨ k = 4) (hi : i < 128) : flip k i < 128 := by
  unfold flip
  rcases hk with rfl | rfl | rfl <;> split <;> omega

theorem flips (i : Nat) (hi : i < 128) : flip 1 (flip 2 (flip 4 i)) = 8 * (i / 8) + (7 - i % 8) := by
  revert i; decide

theorem mask_a : ∀ i, i < 128 → (spread 0xaaaa#128).getLsbD i = decide (i / 1 % 2 = 1) := by decide
theorem mask_5 : ∀ i, i < 128 → (spread 0xaaaa#128 >>> 1).getLsbD i = decide (i / 1 % 2 = 0) := by decide
theorem mask_c : ∀ i, i < 128 → (spread 0xcccc#128).getLsbD i = decide (i / 2 % 2 = 1) := by decide
theorem mask_3 : ∀ i, i < 128 → (spread 0xcccc#128 >>> 2).getLsbD i = decide (i / 2 % 2 = 0) := by decide
theorem mask_f : ∀ i, i < 128 → (spread 0xf0f0#128).getLsbD i = decide (i / 4 % 2 = 1) := by decide
theorem mask_0 : ∀ i, i < 128 → (spread 0xf0f0#128 >>> 4).getLsbD i = decide (i / 4 % 2 = 0) := by decide

theorem mirrorArm_bit (x : V) (i : Nat) (hi : i < 128) : (mirrorArm x).getLsbD i = x.getLsbD (8 * (i / 8) + (7 - i % 8)) := by
  unfold mirrorArm
  simp only []
  rw [step_arm _ 4 _ _ (by simp) mask_f mask_0 i hi, step_arm _ 2 _ _ (by simp) mask_c mask_3 _ (flip_lt _ _ (by simp) hi),
    step_arm _ 1 _ _ (by simp) mask_a mask_5 _ (flip_lt _ _ (by simp) (flip_lt _ _ (by simp) hi)), flips i hi]

theorem map16_bit (f : BitVec 16 → BitVec 16) (x : V) (i : Nat) (hi : i < 128) :
    (map16 f x).getLsbD i = (f (x.extractLsb' (16 * (i / 16)) 16)).getLsbD (i % 16) := by
  unfold map16
  simp only [BitVec.getLsbD_append]
  have : i / 16 < 8 := by omega
  have hd : i = 16 * (i / 16) + i % 16 := by omega
  have hm : i % 16 < 16 := by omega
  generalize i / 16 = q at *
  generalize i % 16 = r at *
  subst hd
  interval_cases q <;> simp <;> (repeat rw [if_neg (by omega)]) <;> (try rw [if_pos (by omega)]) <;> (congr 1 <;> omega)

theorem srli16_arm (x m : V) (k : Nat) (hk : k = 1 ∨ k = 2 ∨ k = 4) (hm : ∀ i, i < 128 → m.getLsbD i = decide (i / k % 2 = 1)) :
    srli16 (x &&& m) k = (x &&& m) >>> k := by
  apply BitVec.eq_of_getLsbD_eq
  intro i hi
  unfold srli16
  rw [map16_bit _ _ _ hi, BitVec.getLsbD_ushiftRight, BitVec.getLsbD_ushiftRight, BitVec.getLsbD_extractLsb']
  by_cases h : k + i % 16 < 16
  · rw [show 16 * (i / 16) + (k + i % 16) = k + i by omega]
    simp [h]
  · simp only [h, decide_false, Bool.false_and]
    rw [BitVec.getLsbD_and]
    by_cases hl : k + i < 128
    · rw [hm _ hl]
      have : decide ((k + i) / k % 2 = 1) = false := by
        simp only [decide_eq_false_iff_not]
        rcases hk with rfl | rfl | rfl <;> omega
      rw [this, Bool.and_false]
    · rw [BitVec.getLsbD_of_ge x _ (by omega), Bool.false_and]

theorem slli16_arm (x m : V) (k : Nat) (hk : k = 1 ∨ k = 2 ∨ k = 4) (hm : ∀ i, i < 128 → m.getLsbD i = decide (i / k % 2 = 0)) :
    slli16 (x &&& m) k = (x &&& m) <<< k := by
  apply BitVec.eq_of_getLsbD_eq
  intro i hi
  unfold slli16
  rw [map16_bit _ _ _ hi, BitVec.getLsbD_shiftLeft, BitVec.getLsbD_shiftLeft, BitVec.getLsbD_extractLsb']
  by_cases h : i % 16 < k
  · simp only [h, decide_true, Bool.not_true, Bool.and_false, Bool.false_and]
    by_cases hl : i < k
    · simp [hl]
    · rw [BitVec.getLsbD_and, hm _ (by omega)]
      have : decide ((i - k) / k % 2 = 0) = false := by
        simp only [decide_eq_false_iff_not]
        rcases hk with rfl | rfl | rfl <;> omega
      rw [this]; simp
  · rw [show 16 * (i / 16) + (i % 16 - k) = i - k by omega]
    have h1 : decide (i % 16 < k) = false := by simpa using h
    have h2 : decide (i < k) = false := by simp; omega
    have h3 : decide (i % 16 - k < 16) = true := by simp; omega
    have h4 : decide (i % 16 < 16) = true := by simp; omega
    rw [h1, h2, h3, h4]
    simp [hi]

theorem mirrorX86_eq (x : V) : mirrorX86 x = mirrorArm x := by
  have a1 : set1 0xaa#8 = spread 0xaaaa#128 := by decide
  have a2 : set1 0x55#8 = spread 0xaaaa#128 >>> 1 := by decide
  have a3 : set1 0xcc#8 = spread 0xcccc#128 := by decide
  have a4 : set1 0x33#8 = spread 0xcccc#128 >>> 2 := by decide
  have a5 : set1 0xf0#8 = spread 0xf0f0#128 := by decide
  have a6 : set1 0x0f#8 = spread 0xf0f0#128 >>> 4 := by decide
  unfold mirrorX86 mirrorArm
  simp only [a1, a2, a3, a4, a5, a6]
  rw [srli16_arm _ _ 1 (by simp) mask_a, slli16_arm _ _ 1 (by simp) mask_5, srli16_arm _ _ 2 (by simp) mask_c, slli16_arm _ _ 2 (by simp) mask_3,
    srli16_arm _ _ 4 (by simp) mask_f, slli16_arm _ _ 4 (by simp) mask_0]

theorem mulArm_core (x y : V) : mulArm x y = mirrorArm (core (mirrorArm x) (mirrorArm y)) := rfl

theorem lo_extract (x : V) : x.extractLsb' 0 64 = x.setWidth 64 := by
  apply BitVec.eq_of_getLsbD_eq; intro i hi; simp [BitVec.getLsbD_extractLsb', BitVec.getLsbD_setWidth, hi]

theorem hi_extract (x : V) : x.extractLsb' 64 64 = (x >>> 64).setWidth 64 := by
  apply BitVec.eq_of_getLsbD_eq; intro i hi; simp [BitVec.getLsbD_extractLsb', BitVec.getLsbD_setWidth, hi]

theorem clmul_imm (a b : V) : clmulepi64 a b 0x00#8 = clmul (a.setWidth 64) (b.setWidth 64) ∧
    clmulepi64 a b 0x01#8 = clmul ((a >>> 64).setWidth 64) (b.setWidth 64) ∧
    clmulepi64 a b 0x10#8 = clmul (a.setWidth 64) ((b >>> 64).setWidth 64) ∧
    clmulepi64 a b 0x11#8 = clmul ((a >>> 64).setWidth 64) ((b >>> 64).setWidth 64) := by
  rw [← lo_extract, ← lo_extract, ← hi_extract, ← hi_extract]
  exact ⟨rfl, rfl, rfl, rfl⟩

theorem mulX86_core (x y : V) : mulX86 x y = mirrorArm (core (mirrorArm x) (mirrorArm y)) := by
  unfold mulX86
  simp only [mirrorX86_eq, (clmul_imm _ _).1, (clmul_imm _ _).2.1, (clmul_imm _ _).2.2.1, (clmul_imm _ _).2.2.2, slliSi,
    show 8 * 8 = 64 from rfl, show (0x87#128).setWidth 64 = 0x87#64 from rfl]
  generalize mirrorArm x = x
  generalize mirrorArm y = y
  unfold core
  simp only []
  rw [BitVec.xor_comm (clmul ((x >>> 64).setWidth 64) (y.setWidth 64))]

theorem clmul_zero (b : BitVec 64) : clmul b 0#64 = 0#128 := by
  unfold clmul
  have : ∀ l : List Nat, l.foldl (fun p i => if (0#64).getLsbD i then p ^^^ (b.setWidth 128 <<< i) else p) 0#128 = 0#128 := by
    intro l
    induction l with
    | nil => rfl
    | cons a l ih => rw [List.foldl_cons]; simpa using ih
  exact this _

theorem pmsum_zero (a b : BitVec 64) : pmsum 0 a 0 b = clmul a b := by
  unfold pmsum
  rw [show clmul 0 0 = 0#128 from clmul_zero 0, BitVec.zero_xor]

theorem mulPpc_core (x y : V) : mulPpc x y = mirrorArm (core (mirrorArm x) (mirrorArm y)) := by
  unfold mulPpc
  simp only [pmsum_zero]
  rfl

/-! Octets. -/

set_option maxRecDepth 4000 in
theorem load_bit (p : List Byte) (i : Nat) (hi : i < 128) : (Isa.load p).getLsbD i = (p.getD (i / 8) 0).getLsbD (i % 8) := by
  unfold Isa.load
  simp only [BitVec.getLsbD_append]
  have : i / 8 < 16 := by omega
  have hd : i = 8 * (i / 8) + i % 8 := by omega
  have hm : i % 8 < 8 := by omega
  generalize i / 8 = q at *
  generalize i % 8 = r at *
  subst hd
  interval_cases q <;> simp <;> (repeat rw [if_neg (by omega)]) <;> (try rw [if_pos (by omega)]) <;> (congr 1 <;> omega)

theorem le64_bit (p : List Byte) (k i : Nat) (hi : i < 64) : (le64 p k).getLsbD i = (p.getD (8 * k + i / 8) 0).getLsbD (i % 8) := by
  unfold le64
  simp only [BitVec.getLsbD_append]
  have : i / 8 < 8 := by omega
  have hd : i = 8 * (i / 8) + i % 8 := by omega
  have hm : i % 8 < 8 := by omega
  generalize i / 8 = q at *
  generalize i % 8 = r at *
  subst hd
  interval_cases q <;> simp <;> (repeat rw [if_neg (by omega)]) <;> (try rw [if_pos (by omega)]) <;> (congr 1 <;> omega)

theorem loadArm_eq (p : List Byte) : loadArm p = Isa.load p := by
  apply BitVec.eq_of_getLsbD_eq
  intro i hi
  rw [load_bit p i hi]
  unfold loadArm
  simp only [BitVec.getLsbD_xor, BitVec.getLsbD_shiftLeft, BitVec.getLsbD_setWidth, BitVec.zero_xor]
  by_cases h : i < 64
  · rw [le64_bit p 0 i h]
    simp [h, hi]
  · rw [BitVec.getLsbD_of_ge (le64 p 0) _ (by omega), le64_bit p 1 _ (by omega)]
    rw [show 8 * 1 + (i - 64) / 8 = i / 8 by omega, show (i - 64) % 8 = i % 8 by omega]
    have : decide (i - 64 < 128) = true := by simp; omega
    simp [h, hi, this]

theorem storeArm_eq (v : V) : storeArm v = Isa.store v := by
  have : ∀ k, k < 8 → (v.setWidth 64 >>> (8 * k)).setWidth 8 = v.extractLsb' (8 * k) 8 ∧
      ((v >>> 64).setWidth 64 >>> (8 * k)).setWidth 8 = v.extractLsb' (8 * (k + 8)) 8 := by
    intro k hk
    constructor
    · apply BitVec.eq_of_getLsbD_eq
      intro i hi
      have : 8 * k + i < 64 := by omega
      simp [BitVec.getLsbD_extractLsb', BitVec.getLsbD_setWidth, hi, this]
    · apply BitVec.eq_of_getLsbD_eq
      intro i hi
      have : 8 * k + i < 64 := by omega
      simp only [BitVec.getLsbD_extractLsb', BitVec.getLsbD_setWidth, BitVec.getLsbD_ushiftRight, hi, this, decide_true, Bool.true_and]
      congr 1; omega
  unfold storeArm putLe64 Isa.store
  simp only [show List.range 8 = [0, 1, 2, 3, 4, 5, 6, 7] from rfl,
    show List.range 16 = [0, 1, 2, 3, 4, 5, 6, 7, 8, 9, 10, 11, 12, 13, 14, 15] from rfl, List.map_cons, List.map_nil, List.cons_append, List.nil_append]
  rw [(this 0 (by omega)).1, (this 1 (by omega)).1, (this 2 (by omega)).1, (this 3 (by omega)).1, (this 4 (by omega)).1, (this 5 (by omega)).1,
    (this 6 (by omega)).1, (this 7 (by omega)).1,
    (this 0 (by omega)).2, (this 1 (by omega)).2, (this 2 (by omega)).2, (this 3 (by omega)).2, (this 4 (by omega)).2, (this 5 (by omega)).2,
    (this 6 (by omega)).2, (this 7 (by omega)).2]

theorem P_mirror_load (p : List Byte) : P (mirrorArm (Isa.load p)) = gfPoly p := by
  rw [gfPoly_eq]
  unfold P pol
  refine polN_congr fun i hi => ?_
  rw [mirrorArm_bit _ _ hi, load_bit _ _ (by omega), show (8 * (i / 8) + (7 - i % 8)) / 8 = i / 8 by omega,
    show (8 * (i / 8) + (7 - i % 8)) % 8 = 7 - i % 8 by omega, BitVec.getMsbD]
  have : decide (i % 8 < 8) = true := by simp; omega
  rw [this, Bool.true_and, show 8 - 1 - i % 8 = 7 - i % 8 by omega]

theorem gfPoly_store_mirror (v : V) : gfPoly (Isa.store (mirrorArm v)) = P v := by
  rw [gfPoly_eq]
  unfold P pol
  refine polN_congr fun i hi => ?_
  unfold Isa.store
  rw [List.getD_eq_getElem?_getD, List.getElem?_map, List.getElem?_range (by omega), Option.map_some, Option.getD_some, BitVec.getMsbD,
    BitVec.getLsbD_extractLsb', mirrorArm_bit _ _ (by omega)]
  have h1 : decide (i % 8 < 8) = true := by simp; omega
  have h2 : decide (8 - 1 - i % 8 < 8) = true := by simp; omega
  rw [h1, h2, Bool.true_and, Bool.true_and]
  congr 1; omega

theorem mirror_xor (x y : V) : mirrorArm (x ^^^ y) = mirrorArm x ^^^ mirrorArm y := by
  apply BitVec.eq_of_getLsbD_eq
  intro i hi
  rw [BitVec.getLsbD_xor, mirrorArm_bit _ _ hi, mirrorArm_bit _ _ hi, mirrorArm_bit _ _ hi, BitVec.getLsbD_xor]

theorem isa_store_length (v : V) : (Isa.store v).length = 16 := by simp [Isa.store]

theorem gfPoly_opt (Y : List Byte) (Xo : Option (List Byte)) :
    P (mirrorArm (match Xo with | some X => Isa.load Y ^^^ Isa.load X | none => Isa.load Y)) =
      gfPoly Y + (match Xo with | some X => gfPoly X | none => 0) := by
  cases Xo with
  | none => simp only [P_mirror_load, add_zero]
  | some X => simp only [mirror_xor, P_xor, P_mirror_load]

theorem core_product (Y H : List Byte) (Xo : Option (List Byte)) :
    gfPoly (Isa.store (mirrorArm (core (mirrorArm (match Xo with | some X => Isa.load Y ^^^ Isa.load X | none => Isa.load Y)) (mirrorArm (Isa.load H))))) =
      ((gfPoly Y + (match Xo with | some X => gfPoly X | none => 0)) * gfPoly H) %ₘ gfMod := by
  rw [gfPoly_store_mirror, core_spec, gfPoly_opt, P_mirror_load]

theorem variants_eq (Y H : List Byte) (Xo : Option (List Byte)) :
    hash1blockX86 Y H Xo = Isa.store (mirrorArm (core (mirrorArm (match Xo with | some X => Isa.load Y ^^^ Isa.load X | none => Isa.load Y)) (mirrorArm (Isa.load H)))) ∧
    hash1blockArm Y H Xo = Isa.store (mirrorArm (core (mirrorArm (match Xo with | some X => Isa.load Y ^^^ Isa.load X | none => Isa.load Y)) (mirrorArm (Isa.load H)))) ∧
    hash1blockPpc Y H Xo = Isa.store (mirrorArm (core (mirrorArm (match Xo with | some X => Isa.load Y ^^^ Isa.load X | none => Isa.load Y)) (mirrorArm (Isa.load H)))) := by
  unfold hash1blockX86 hash1blockArm hash1blockPpc
  simp only [mulX86_core, mulArm_core, mulPpc_core, storeArm_eq, loadArm_eq]
  exact ⟨rfl, rfl, rfl⟩

end Ghash
