import Verif.Lemmas.EdDsaDec
import Mathlib.NumberTheory.LegendreSymbol.Basic

/-! The abscissa of EdDSA point decoding. -/

namespace EdDsa
open Vlong Ec Spec

section
variable {p : Nat} [hp : Fact p.Prime]

theorem half_pow {x : ZMod p} (hx : x ≠ 0) : x ^ (p / 2) = 1 ∨ x ^ (p / 2) = -1 :=
  ZMod.pow_div_two_eq_neg_one_or_one p hx

theorem full_pow {x : ZMod p} (h : p % 2 = 1) (hx : x ≠ 0) : (x ^ 2) ^ (p / 2) = 1 := by
  rw [← pow_mul, show 2 * (p / 2) = p - 1 by omega, ZMod.pow_card_sub_one_eq_one hx]

/-- The candidate for `p ≡ 5 (mod 8)`: `V X² = U w` with `w` the power `(p - 1) / 4`. -/
theorem root5_sq (h5 : p % 8 = 5) (U V : ZMod p) :
    V * ((U * (V * V * V * (V * V * V) * V)) ^ ((p - 5) / 2 ^ 3) * (V * V * V) * U) ^ 2 =
      U * (U * V ^ 7) ^ (p / 4) := by
  have e : p / 4 = 2 * ((p - 5) / 2 ^ 3) + 1 := by omega
  rw [e, show U * (V * V * V * (V * V * V) * V) = U * V ^ 7 by ring]
  generalize (p - 5) / 2 ^ 3 = m
  rw [pow_succ (U * V ^ 7), pow_mul' (U * V ^ 7)]
  ring

theorem root5_complete (h5 : p % 8 = 5) {U V X : ZMod p} (hV : V ≠ 0) (h : V * X ^ 2 = U) :
    U * (U * V ^ 7) ^ (p / 4) = U ∨ U * (U * V ^ 7) ^ (p / 4) = -U := by
  by_cases hX : X = 0
  · left; rw [← h, hX]; ring
  · have e : (U * V ^ 7) ^ (p / 4) = (V ^ 4 * X) ^ (p / 2) := by
      rw [show p / 2 = 2 * (p / 4) by omega, pow_mul, ← h]; congr 1; ring
    rw [e]
    rcases half_pow (mul_ne_zero (pow_ne_zero 4 hV) hX) with h | h <;> rw [h]
    · left; ring
    · right; ring

theorem root3_sq (h3 : p % 4 = 3) (U V : ZMod p) :
    V * ((U * U * (U * U) * U * (V * V * V)) ^ ((p - 3) / 2 ^ 2) * (U * U) * U * V) ^ 2 =
      U * (U ^ 5 * V ^ 3) ^ (p / 2) := by
  have e : p / 2 = 2 * ((p - 3) / 2 ^ 2) + 1 := by omega
  rw [e, show U * U * (U * U) * U * (V * V * V) = U ^ 5 * V ^ 3 by ring]
  generalize (p - 3) / 2 ^ 2 = m
  rw [pow_succ (U ^ 5 * V ^ 3), pow_mul' (U ^ 5 * V ^ 3)]
  ring

theorem root3_complete (h3 : p % 4 = 3) {U V X : ZMod p} (hV : V ≠ 0) (h : V * X ^ 2 = U) :
    U * (U ^ 5 * V ^ 3) ^ (p / 2) = U := by
  by_cases hX : X = 0
  · rw [← h, hX]; ring
  · have e : U ^ 5 * V ^ 3 = (V ^ 4 * X ^ 5) ^ 2 := by rw [← h]; ring
    rw [e, full_pow (by omega) (mul_ne_zero (pow_ne_zero 4 hV) (pow_ne_zero 5 hX)), mul_one]
end

section
variable {C : EdCurve} {c p : Nat} [hp : Fact p.Prime] {a d : ZMod p} (hC : SigOk C c p a d)
include hC

omit hC in
/-- What a square root of the curve equation has to satisfy. -/
theorem onEd_iff {a d : ZMod p} {du X Y : ZMod p} (hdu : du ≠ 0) :
    OnEd a d X Y ↔ (du * (d * Y ^ 2 - a)) * X ^ 2 = du * (Y ^ 2 - 1) := by
  unfold OnEd
  constructor
  · intro h; linear_combination (-du) * h
  · intro h
    apply mul_left_cancel₀ hdu
    linear_combination -h

omit hC in
theorem v_ne {a d : ZMod p} [hE : EdComplete a d] {du : ZMod p} (Y : ZMod p) (hdu : du ≠ 0) :
    du * (d * Y ^ 2 - a) ≠ 0 := by
  have := ed_g (a := a) (d := d) Y
  exact mul_ne_zero hdu (fun h => this (by linear_combination -h))

/-- Words of an element, exact also for zero. -/
def Exact (c p : Nat) (l : List W) (X : ZMod p) : Prop := Rep c p 1 l X ∧ val l = X.val

omit hC in
theorem Exact.of_rep {l : List W} {X : ZMod p} (h : Rep c p 1 l X) (h0 : X = 0 → val l = 0) : Exact c p l X := by
  refine ⟨h, ?_⟩
  by_cases hX : X = 0
  · rw [h0 hX, hX, ZMod.val_zero]
  · exact Ecc.val_of_rep h hX

theorem negp_rep {l : List W} {x : ZMod p} (h : Rep c p 1 l x) :
    Rep c p 1 (subv c C.p l) (-x) ∧ val (subv c C.p l) = p - val l := by
  have hF := hC.ok.fld
  have hle := h.le
  have hl : (subv c C.p l).length = c := length_addKernel _ _ _ _ _
  have hroom := hF.room
  have hlt : p - val l < 2 ^ (32 * c) := by
    have h2 := hF.two
    have : p * 1 ≤ p * 2 ^ 42 := Nat.mul_le_mul_left _ (by norm_num)
    have h3 : p < 2 ^ (32 * c) ∨ p = 2 ^ (32 * c) := by
      rcases Nat.lt_or_ge p (2 ^ (32 * c)) with h | h
      · exact Or.inl h
      · right
        have : p * 1 ≤ p * 2 ^ 42 := Nat.mul_le_mul_left _ (by norm_num)
        omega
    have : p * 2 ≤ p * 2 ^ 42 := Nat.mul_le_mul_left _ (by norm_num)
    omega
  have hv : val (subv c C.p l) = p - val l := by
    apply nat_of_modEq hl _ hlt
    refine (subv_modEq c _ _).trans (modEq_of_eq ?_)
    rw [hC.pw]; omega
  refine ⟨⟨hl, by rw [hv]; omega, ?_⟩, hv⟩
  rw [hv, Nat.cast_sub (by omega), h.res]; simp

variable [hE : EdComplete a d]

/-- `getx_p25519`. -/
theorem getx25519_spec (ha : a = -1) (h5 : p % 8 = 5) (hi : ((val po2_25519 : Nat) : ZMod p) ^ 2 = -1)
    {k : Nat} (hk : k ≤ 2 ^ 7) {y : List W} {Y : ZMod p} (hy : Rep c p k y Y) :
    (∀ x, getx25519 C c y = some x → ∃ X, Exact c p x X ∧ OnEd a d X Y) ∧
    (getx25519 C c y = none → ∀ X, ¬ OnEd a d X Y) := by
  have hF := hC.ok.fld
  have hdu := hC.ok.du
  have hz := mul_rr hF hy hy hk
  have hu := u_rep hC hz
  have hv := v_rep hC hz _ _ (du_int hC) (Or.inl rfl)
  have eV : (C.dUnder.toNat : ZMod p) * (d * (Y * Y)) + ((C.dUnder.toNat : Int) : ZMod p) =
      C.dUnder.toNat * (d * Y ^ 2 - a) := by rw [ha]; push_cast; ring
  rw [eV] at hv
  have eU : (C.dUnder.toNat : ZMod p) * (Y * Y - 1) = C.dUnder.toNat * (Y ^ 2 - 1) := by ring
  rw [eU] at hu
  have hon : ∀ X, OnEd a d X Y ↔ _ := fun X => onEd_iff (X := X) (Y := Y) hdu
  have hV := v_ne (a := a) (d := d) Y hdu
  have hU0 : (C.dUnder.toNat : ZMod p) * (Y ^ 2 - 1) = 0 → Y * Y = 1 := by
    intro h
    rcases mul_eq_zero.mp h with h | h
    · exact absurd h hdu
    · linear_combination h
  unfold getx25519
  simp only
  obtain ⟨hu, hu0⟩ := hu
  generalize imod C.aux (imuls (adds c (mulM C.aux c y y 1) (-1) 0) (adds c (mulM C.aux c y y 1) (-1) 0)
    (C.dUnder.signExtend 64) false) = u at hu hu0 ⊢
  generalize imod C.aux (adds c (imuls (cpy c (mulM C.aux c y y 1)) (cpy c (mulM C.aux c y y 1)) C.dOver64 false)
    (C.dUnder.signExtend 64) 0) = v at hv ⊢
  generalize (C.dUnder.toNat : ZMod p) * (Y ^ 2 - 1) = U at *
  generalize (C.dUnder.toNat : ZMod p) * (d * Y ^ 2 - a) = V at *
  have n1 : (1 : Nat) ≤ 2 ^ 7 := by norm_num
  have r1 := mul_rr hF hv hv n1
  have r2 := mul_rr hF r1 hv n1
  have r3 := mul_rr hF r2 r2 n1
  have r4 := mul_rr hF r3 hv n1
  have r5 := mul_rr hF r4 hu n1
  have r6 := pow_rep hC 5 (by norm_num) (-5) (by decide) 3 (by norm_num) (by
    have := three hC; omega) n1 r5
  have r7 := mul_rr hF r6 (cpy_rep hF r2) n1
  have r8 := mul_rr hF r7 hu n1
  have r8z : val u = 0 → val (mulM C.aux c (mulM C.aux c (modexpShiftAdded C.aux c (mulM C.aux c (mulM C.aux c
    (mulM C.aux c (mulM C.aux c (mulM C.aux c v v 1) v 1) (mulM C.aux c (mulM C.aux c v v 1) v 1) 1) v 1) u 1) (-5) 3)
    (cpy c (mulM C.aux c (mulM C.aux c v v 1) v 1)) 1) u 1) = 0 := fun h0 =>
      (mulM_zero hF hC.zero (Rep.ne_nil hF hu) (r7.le.trans (Nat.mul_le_mul_right _ n1))).mpr (Or.inr h0)
  generalize mulM C.aux c (mulM C.aux c (modexpShiftAdded C.aux c (mulM C.aux c (mulM C.aux c
    (mulM C.aux c (mulM C.aux c (mulM C.aux c v v 1) v 1) (mulM C.aux c (mulM C.aux c v v 1) v 1) 1) v 1) u 1) (-5) 3)
    (cpy c (mulM C.aux c (mulM C.aux c v v 1) v 1)) 1) u 1 = x at r8 r8z ⊢
  rw [mul_comm (V * V * V * (V * V * V) * V) U] at r8
  have hsq := root5_sq h5 U V
  have hcomp : ∀ X, V * X ^ 2 = U → _ := fun X h => root5_complete h5 hV h
  rw [← hsq] at hcomp
  generalize (U * (V * V * V * (V * V * V) * V)) ^ ((p - 5) / 2 ^ 3) * (V * V * V) * U = X1 at r8 hsq hcomp
  have w1 := mul_rr hF r8 r8 n1
  have w2 := mul_rr hF hv w1 n1
  rw [← pow_two] at w2
  have heq : val (mulM C.aux c v (mulM C.aux c x x 1) 1) = val u ↔ V * X1 ^ 2 = U := by
    constructor
    · intro h
      rw [← w2.res, ← hu.res, h]
    · intro h
      by_cases hU : U = 0
      · have hu' := hu0 (hU0 hU)
        rw [hu', mulM_zero hF hC.zero (Rep.ne_nil hF w1) (hv.le.trans (Nat.mul_le_mul_right _ n1))]
        right
        rw [mulM_zero hF hC.zero (Rep.ne_nil hF r8) (r8.le.trans (Nat.mul_le_mul_right _ n1))]
        left; exact r8z hu'
      · rw [Ecc.val_of_rep w2 (by rw [h]; exact hU), Ecc.val_of_rep hu hU, h]
  have hxe : V * X1 ^ 2 = U ∨ V * X1 ^ 2 = -U → X1 = 0 → val x = 0 := by
    intro h h0
    have hU : U = 0 := by
      rw [h0] at h
      rcases h with h | h
      · rw [← h]; ring
      · linear_combination h
    exact r8z (hu0 (hU0 hU))
  have hneg := negp_rep hC w2
  have heq2 : ¬ V * X1 ^ 2 = U → (val (subv c C.p (mulM C.aux c v (mulM C.aux c x x 1) 1)) = val u ↔ V * X1 ^ 2 = -U) := by
    intro hne
    constructor
    · intro h
      have : -(V * X1 ^ 2) = U := by rw [← hneg.1.res, ← hu.res, h]
      linear_combination -this
    · intro h
      have hU : U ≠ 0 := by
        rintro rfl
        rw [neg_zero] at h
        exact hne h
      rw [Ecc.val_of_rep hneg.1 (by rw [h, neg_neg]; exact hU), Ecc.val_of_rep hu hU, h, neg_neg]
  have c1 : (cmpvShifted (mulM C.aux c v (mulM C.aux c x x 1) 1) u 0 = 0) ↔ V * X1 ^ 2 = U := by
    rw [Ecc.cmp0, Ecc.cmpRes_zero, heq]
  have c2 : ¬ V * X1 ^ 2 = U → ((cmpvShifted (subv c C.p (mulM C.aux c v (mulM C.aux c x x 1) 1)) u 0 = 0) ↔
      V * X1 ^ 2 = -U) := by
    intro h
    rw [Ecc.cmp0, Ecc.cmpRes_zero, heq2 h]
  by_cases g1 : V * X1 ^ 2 = U
  · rw [if_pos (c1.mpr g1)]
    refine ⟨fun x' e => ?_, fun e => by simp at e⟩
    obtain rfl := Option.some.inj e
    exact ⟨X1, Exact.of_rep r8 (hxe (Or.inl g1)), (hon X1).mpr g1⟩
  · rw [if_neg (c1.not.mpr g1)]
    by_cases g2 : V * X1 ^ 2 = -U
    · rw [if_pos ((c2 g1).mpr g2)]
      refine ⟨fun x' e => ?_, fun e => by simp at e⟩
      obtain rfl := Option.some.inj e
      have hlen : po2_25519 ≠ [] := by decide
      have r9 := mul_rep hF (r8.le.trans (Nat.mul_le_mul_right _ n1)) r8.res hlen rfl
      refine ⟨X1 * (val po2_25519 : Nat), Exact.of_rep (cpy_rep hF r9) ?_, (hon _).mpr ?_⟩
      · intro h0
        have hpo : ((val po2_25519 : Nat) : ZMod p) ≠ 0 := by
          intro h
          rw [h] at hi
          have : (0 : ZMod p) = 1 := by linear_combination -hi
          exact zero_ne_one this
        have := hxe (Or.inr g2) ((mul_eq_zero.mp h0).resolve_right hpo)
        rw [cpy_self r9.len, mulM_zero hF hC.zero hlen (r8.le.trans (Nat.mul_le_mul_right _ n1))]
        left; exact this
      · rw [mul_pow, hi]; linear_combination -g2
    · rw [if_neg ((c2 g1).not.mpr g2)]
      refine ⟨fun x' e => by simp at e, fun _ X hX => ?_⟩
      rcases hcomp X ((hon X).mp hX) with h | h
      · exact g1 h
      · exact g2 h

/-- `getx_p448`. -/
theorem getx448_spec (ha : a = 1) (h3 : p % 4 = 3)
    {k : Nat} (hk : k ≤ 2 ^ 7) {y : List W} {Y : ZMod p} (hy : Rep c p k y Y) :
    (∀ x, getx448 C c y = some x → ∃ X, Exact c p x X ∧ OnEd a d X Y) ∧
    (getx448 C c y = none → ∀ X, ¬ OnEd a d X Y) := by
  have hF := hC.ok.fld
  have hdu := hC.ok.du
  have hz := mul_rr hF hy hy hk
  have hu := u_rep hC hz
  have hb : ((-C.dUnder).signExtend 64).toInt = -(C.dUnder.toNat : Int) := by
    have := hC.ok.dul
    have e : C.dUnder.toInt = C.dUnder.toNat := BitVec.toInt_eq_toNat_of_lt (by omega)
    rw [sx32, neg32 (by rw [e]; omega), e]
  have hv := v_rep hC hz _ _ hb (Or.inr rfl)
  have eV : (C.dUnder.toNat : ZMod p) * (d * (Y * Y)) + ((-(C.dUnder.toNat : Int) : Int) : ZMod p) =
      C.dUnder.toNat * (d * Y ^ 2 - a) := by rw [ha]; push_cast; ring
  rw [eV] at hv
  have eU : (C.dUnder.toNat : ZMod p) * (Y * Y - 1) = C.dUnder.toNat * (Y ^ 2 - 1) := by ring
  rw [eU] at hu
  have hon : ∀ X, OnEd a d X Y ↔ _ := fun X => onEd_iff (X := X) (Y := Y) hdu
  have hV := v_ne (a := a) (d := d) Y hdu
  have hU0 : (C.dUnder.toNat : ZMod p) * (Y ^ 2 - 1) = 0 → Y * Y = 1 := by
    intro h
    rcases mul_eq_zero.mp h with h | h
    · exact absurd h hdu
    · linear_combination h
  unfold getx448
  simp only
  obtain ⟨hu, hu0⟩ := hu
  generalize imod C.aux (imuls (adds c (mulM C.aux c y y 1) (-1) 0) (adds c (mulM C.aux c y y 1) (-1) 0)
    (C.dUnder.signExtend 64) false) = u at hu hu0 ⊢
  generalize imod C.aux (adds c (imuls (cpy c (mulM C.aux c y y 1)) (cpy c (mulM C.aux c y y 1)) C.dOver64 false)
    ((-C.dUnder).signExtend 64) 0) = v at hv ⊢
  generalize (C.dUnder.toNat : ZMod p) * (Y ^ 2 - 1) = U at *
  generalize (C.dUnder.toNat : ZMod p) * (d * Y ^ 2 - a) = V at *
  have n1 : (1 : Nat) ≤ 2 ^ 7 := by norm_num
  have r1 := mul_rr hF hv hv n1
  have r2 := mul_rr hF r1 hv n1
  have r3 := mul_rr hF hu hu n1
  have r4 := mul_rr hF r3 r3 n1
  have r5 := mul_rr hF r4 hu n1
  have r6 := mul_rr hF r5 r2 n1
  have r7 := pow_rep hC 3 (by norm_num) (-3) (by decide) 2 (by norm_num) (by
    have := three hC; omega) n1 r6
  have r8 := mul_rr hF r7 r3 n1
  have r9 := mul_rr hF r8 hu n1
  have r10 := mul_rr hF r9 hv n1
  have r10z : val u = 0 → val (mulM C.aux c (mulM C.aux c (mulM C.aux c (modexpShiftAdded C.aux c (mulM C.aux c (mulM C.aux c
    (mulM C.aux c (mulM C.aux c u u 1) (mulM C.aux c u u 1) 1) u 1) (mulM C.aux c (mulM C.aux c v v 1) v 1) 1) (-3) 2)
    (mulM C.aux c u u 1) 1) u 1) v 1) = 0 := by
    intro h0
    rw [mulM_zero hF hC.zero (Rep.ne_nil hF hv) (r9.le.trans (Nat.mul_le_mul_right _ n1))]
    left
    rw [mulM_zero hF hC.zero (Rep.ne_nil hF hu) (r8.le.trans (Nat.mul_le_mul_right _ n1))]
    right; exact h0
  generalize mulM C.aux c (mulM C.aux c (mulM C.aux c (modexpShiftAdded C.aux c (mulM C.aux c (mulM C.aux c
    (mulM C.aux c (mulM C.aux c u u 1) (mulM C.aux c u u 1) 1) u 1) (mulM C.aux c (mulM C.aux c v v 1) v 1) 1) (-3) 2)
    (mulM C.aux c u u 1) 1) u 1) v 1 = x at r10 r10z ⊢
  have hsq := root3_sq h3 U V
  have hcomp : ∀ X, V * X ^ 2 = U → _ := fun X h => root3_complete h3 hV h
  rw [← hsq] at hcomp
  generalize (U * U * (U * U) * U * (V * V * V)) ^ ((p - 3) / 2 ^ 2) * (U * U) * U * V = X1 at r10 hsq hcomp
  have w1 := mul_rr hF r10 r10 n1
  have w2 := mul_rr hF hv w1 n1
  rw [← pow_two] at w2
  have heq : val (mulM C.aux c v (mulM C.aux c x x 1) 1) = val u ↔ V * X1 ^ 2 = U := by
    constructor
    · intro h
      rw [← w2.res, ← hu.res, h]
    · intro h
      by_cases hU : U = 0
      · have hu' := hu0 (hU0 hU)
        rw [hu', mulM_zero hF hC.zero (Rep.ne_nil hF w1) (hv.le.trans (Nat.mul_le_mul_right _ n1))]
        right
        rw [mulM_zero hF hC.zero (Rep.ne_nil hF r10) (r10.le.trans (Nat.mul_le_mul_right _ n1))]
        left; exact r10z hu'
      · rw [Ecc.val_of_rep w2 (by rw [h]; exact hU), Ecc.val_of_rep hu hU, h]
  have hxe : V * X1 ^ 2 = U → X1 = 0 → val x = 0 := by
    intro h h0
    have hU : U = 0 := by rw [← h, h0]; ring
    exact r10z (hu0 (hU0 hU))
  have c1 : (cmpvShifted (mulM C.aux c v (mulM C.aux c x x 1) 1) u 0 = 0) ↔ V * X1 ^ 2 = U := by
    rw [Ecc.cmp0, Ecc.cmpRes_zero, heq]
  by_cases g1 : V * X1 ^ 2 = U
  · rw [if_pos (c1.mpr g1)]
    refine ⟨fun x' e => ?_, fun e => by simp at e⟩
    obtain rfl := Option.some.inj e
    exact ⟨X1, Exact.of_rep r10 (hxe g1), (hon X1).mpr g1⟩
  · rw [if_neg (c1.not.mpr g1)]
    exact ⟨fun x' e => by simp at e, fun _ X hX => g1 (hcomp X ((hon X).mp hX))⟩

end
end EdDsa
