import Verif.Lemmas.EcExact

/-!
# Points read from an encoding, and the words of the point at infinity

A base point may have coordinates of up to twice the prime. If a scalar multiple is the point at infinity,
the words of its `z` coordinate are all zero (not the prime).
-/

namespace Ec
open Vlong Spec WeierstrassCurve

section
variable {C : Curve} {c p : Nat} [Fact p.Prime] {a b : ZMod p}

/-- The words `P`, with numbers up to twice the prime, denote the curve point `Q`. -/
def Pt2 (c : Nat) (P : Xyz) (Q : (shortW a b).Point) : Prop :=
  ∃ x y z : ZMod p, PRep2 c p P x y z ∧ Coords x y z Q

theorem Pt.two {P : Xyz} {Q : (shortW a b).Point} (h : Pt c P Q) : Pt2 c P Q := by
  obtain ⟨x, y, z, r, h⟩ := h
  exact ⟨x, y, z, r.two, h⟩

theorem pointAdd_pt2 (hC : CurveOk C c p a b) (h2 : (2 : ZMod p) ≠ 0) (hT : NoTwoTorsion a b)
    {P1 P2 : Xyz} {Q1 Q2 : (shortW a b).Point} (h1 : Pt2 c P1 Q1) (h2' : Pt2 c P2 Q2) :
    Pt c (pointAdd C c P1 P2) (Q1 + Q2) := by
  obtain ⟨x1, y1, z1, r1, c1⟩ := h1
  obtain ⟨x2, y2, z2, r2, c2⟩ := h2'
  exact ⟨_, _, _, pointAdd_rep2 hC r1 r2, add_coords h2 hT c1 c2⟩

theorem pointDbl_pt2 (hC : CurveOk C c p a b) (h2 : (2 : ZMod p) ≠ 0) (hT : NoTwoTorsion a b)
    {P1 : Xyz} {Q1 : (shortW a b).Point} (h1 : Pt2 c P1 Q1) (h0 : Q1 ≠ 0) :
    Pt c (pointDbl C c P1) (Q1 + Q1) ∧ Q1 + Q1 ≠ 0 := by
  obtain ⟨x1, y1, z1, r1, c1⟩ := h1
  obtain ⟨d1, d2⟩ := dbl_coords h2 hT h0 c1
  exact ⟨⟨_, _, _, pointDbl_rep2 hC r1, d1⟩, d2⟩

/-- If the two symmetric sums of the addition formulas vanish and both `y` are non-zero, the words of the new
`z` are all zero. -/
theorem pointAdd_z (hC : CurveOk C c p a b) (hZ : RedZero C.aux.modfunc c (p * 2 ^ 40)) {p1 p2 : Xyz}
    {x1 y1 z1 x2 y2 z2 : ZMod p} (h1 : PRep2 c p p1 x1 y1 z1) (h2 : PRep2 c p p2 x2 y2 z2)
    (hy1 : y1 ≠ 0) (hy2 : y2 ≠ 0) (e3 : x1 * y2 + x2 * y1 = 0) (e5 : y1 * z2 + y2 * z1 = 0) :
    ∀ r, r = pointAdd C c p1 p2 → val r.z = 0 := by
  intro r hr
  unfold pointAdd at hr
  extract_lets -merge f o t0q1 t1q1 t2q1 t3q1 t3q2 t4q1 t5q1 t3q3 t4q2 t4q3 t3q4 t3q5 t4q4 t4q5 t5q2 t5q3 xq1 t4q6 t5q4 t5q5 t4q7 t4q8 t5q6 t5q7 xq2 xq3 yq1 t5q8 xq4 xq5 t5q9 t5q10 zq1 zq2 xq6 xq7 zq3 zq4 xq8 xq9 zq5 yq2 t1q2 t1q3 t2q2 t2q3 t1q4 t1q5 t2q4 t2q5 t2q6 t2q7 t0q2 t4q9 t4q10 t4q11 t0q3 yq3 yq4 t0q4 xq10 xq11 xq12 t0q5 zq6 zq7 zq8 at hr
  have hF := hC.fld
  have h_t0q1 : Rep c p _ t0q1 _ := mul_rr hF h1.x h2.x (by norm_num)
  have h_t1q1 : Rep c p _ t1q1 _ := mul_rr hF h1.y h2.y (by norm_num)
  have h_t2q1 : Rep c p _ t2q1 _ := mul_rr hF h1.z h2.z (by norm_num)
  have h_t3q1 : Rep c p _ t3q1 _ := add_rep hF h1.x h1.y (by norm_num)
  have h_t3q2 : Rep c p _ t3q2 _ := mod_rep hF h_t3q1 (by norm_num)
  have h_t4q1 : Rep c p _ t4q1 _ := add_rep hF h2.x h2.y (by norm_num)
  have h_t5q1 : Rep c p _ t5q1 _ := mul_rr hF h_t3q2 h_t4q1 (by norm_num)
  have h_t4q2 : Rep c p _ t4q2 _ := add_rep hF h_t0q1 h_t1q1 (by norm_num)
  have h_t4q3 : Rep c p _ t4q3 _ := mod_rep hF h_t4q2 (by norm_num)
  have h_t5q6 : Rep c p _ t5q6 _ := add_rep hF h1.y h1.z (by norm_num)
  have h_t5q7 : Rep c p _ t5q7 _ := mod_rep hF h_t5q6 (by norm_num)
  have h_xq2 : Rep c p _ xq2 _ := add_rep hF h2.y h2.z (by norm_num)
  have h_xq3 : Rep c p _ xq3 _ := mod_rep hF h_xq2 (by norm_num)
  have h_yq1 : Rep c p _ yq1 _ := mul_rr hF h_t5q7 h_xq3 (by norm_num)
  have h_xq4 : Rep c p _ xq4 _ := add_rep hF h_t1q1 h_t2q1 (by norm_num)
  have h_xq5 : Rep c p _ xq5 _ := mod_rep hF h_xq4 (by norm_num)
  have vy1 : val p1.y ≠ 0 := by
    intro h; apply hy1; rw [← h1.y.res, h]; simp
  have vy2 : val p2.y ≠ 0 := by
    intro h; apply hy2; rw [← h2.y.res, h]; simp
  have le7 : ∀ {k : Nat} {l : List W} {x : ZMod p}, Rep c p k l x → k ≤ 2 ^ 7 → val l ≤ 2 ^ 7 * p :=
    fun h hk => h.le.trans (Nat.mul_le_mul_right _ hk)
  have n_t1 : val t1q1 ≠ 0 := by
    intro h
    rcases (mulM_zero hF hZ (Rep.ne_nil hF h2.y) (le7 h1.y (by norm_num))).mp h with h | h
    · exact vy1 h
    · exact vy2 h
  have s3 : val t3q1 = _ := add_val hF h1.x h1.y (by norm_num)
  have n_t3q2 : val t3q2 ≠ 0 := by
    intro h
    have := (mod_zero hF hZ h_t3q1 (by norm_num)).mp h
    omega
  have s4 : val t4q1 = _ := add_val hF h2.x h2.y (by norm_num)
  have n_t5q1 : val t5q1 ≠ 0 := by
    intro h
    rcases (mulM_zero hF hZ (Rep.ne_nil hF h_t4q1) (le7 h_t3q2 (by norm_num))).mp h with h | h
    · exact n_t3q2 h
    · omega
  have s42 : val t4q2 = _ := add_val hF h_t0q1 h_t1q1 (by norm_num)
  have n_t4q3 : val t4q3 ≠ 0 := by
    intro h
    have := (mod_zero hF hZ h_t4q2 (by norm_num)).mp h
    omega
  have z3 : val t3q5 = 0 := by
    apply imod_sub_self hF hZ
    show val t3q3 = _
    have : t3q3 = t5q1 := cpy_self h_t5q1.len
    rw [this]
    refine rep_unique hF h_t5q1 (h_t4q3.of_eq ?_) n_t5q1 n_t4q3
    linear_combination (-1 : ZMod p) * e3
  have s5 : val t5q6 = _ := add_val hF h1.y h1.z (by norm_num)
  have n_t5q7 : val t5q7 ≠ 0 := by
    intro h
    have := (mod_zero hF hZ h_t5q6 (by norm_num)).mp h
    omega
  have s6 : val xq2 = _ := add_val hF h2.y h2.z (by norm_num)
  have n_xq3 : val xq3 ≠ 0 := by
    intro h
    have := (mod_zero hF hZ h_xq2 (by norm_num)).mp h
    omega
  have n_yq1 : val yq1 ≠ 0 := by
    intro h
    rcases (mulM_zero hF hZ (Rep.ne_nil hF h_xq3) (le7 h_t5q7 (by norm_num))).mp h with h | h
    · exact n_t5q7 h
    · exact n_xq3 h
  have s7 : val xq4 = _ := add_val hF h_t1q1 h_t2q1 (by norm_num)
  have n_xq5 : val xq5 ≠ 0 := by
    intro h
    have := (mod_zero hF hZ h_xq4 (by norm_num)).mp h
    omega
  have z5 : val t5q10 = 0 := by
    apply imod_sub_self hF hZ
    show val t5q8 = _
    have : t5q8 = yq1 := cpy_self h_yq1.len
    rw [this]
    refine rep_unique hF h_yq1 (h_xq5.of_eq ?_) n_yq1 n_xq5
    linear_combination (-1 : ZMod p) * e5
  have hc := hF.cpos
  have len0 : ∀ l m : List W, (addv c l m).length = c := fun l m => length_addKernel _ _ _ _ _
  have hz5 : zq5 ≠ [] := by
    intro h
    have : zq5.length = c := len0 _ _
    rw [h] at this; simp at this; omega
  have ht1 : t1q5.length = c := hF.red.len _ (len0 _ _)
  have ht1' : t1q5 ≠ [] := by
    intro h; rw [h] at ht1; simp at ht1; omega
  have v1 : val t0q5 = 0 := (mulM_zero hF hZ hz5 (by rw [z5]; omega)).mpr (Or.inl z5)
  have v2 : val zq6 = 0 := (mulM_zero hF hZ ht1' (by rw [z3]; omega)).mpr (Or.inl z3)
  have v3 : val zq7 = 0 := by
    have : (val zq7 : Int) ≡ ((0 : Nat) : Int) [ZMOD 2 ^ (32 * c)] := by
      have := addv_modEq c t0q5 zq6
      rw [v1, v2] at this
      exact this
    exact nat_of_modEq (len0 _ _) this (by positivity)
  have hp := hF.two
  have v4 : val zq8 = 0 := (hZ zq7 (len0 _ _) (by rw [v3]; positivity)).mpr v3
  rw [hr]
  exact v4

/-- The sum of two opposite points. -/
theorem opposite_coords (hT : NoTwoTorsion a b) {x1 y1 z1 x2 y2 z2 : ZMod p} {Q1 Q2 : (shortW a b).Point}
    (h1 : Coords x1 y1 z1 Q1) (h2 : Coords x2 y2 z2 Q2) (h0 : Q1 ≠ 0) (hs : Q1 + Q2 = 0) :
    y1 ≠ 0 ∧ y2 ≠ 0 ∧ x1 * y2 + x2 * y1 = 0 ∧ y1 * z2 + y2 * z1 = 0 := by
  have e : Q2 = -Q1 := by rw [eq_neg_iff_add_eq_zero, add_comm]; exact hs
  subst e
  rcases Q1 with _ | ⟨x, y, h⟩
  · exact absurd rfl h0
  · rw [Affine.Point.neg_some] at h2
    obtain ⟨g1, g2, g3⟩ := h1
    obtain ⟨k1, k2, k3⟩ := h2
    have hn : (shortW a b).negY x y = -y := by simp [Affine.negY, shortW]
    rw [hn] at k3
    have hy : y ≠ 0 := y_ne hT h.1
    refine ⟨?_, ?_, ?_, ?_⟩
    · rw [g3]; exact mul_ne_zero hy g1
    · rw [k3]; exact mul_ne_zero (neg_ne_zero.mpr hy) k1
    · rw [g2, g3, k2, k3]; ring
    · rw [g3, k3]; ring

/-- Words denoting `Q`, with an all-zero `z` if `Q` is the point at infinity. -/
def PtZ (c : Nat) (P : Xyz) (Q : (shortW a b).Point) : Prop := Pt c P Q ∧ (Q = 0 → val P.z = 0)

theorem pointAdd_ptZ (hC : CurveOk C c p a b) (hZ : RedZero C.aux.modfunc c (p * 2 ^ 40)) (h2 : (2 : ZMod p) ≠ 0)
    (hT : NoTwoTorsion a b) {P1 P2 : Xyz} {Q1 Q2 : (shortW a b).Point} (h1 : Pt2 c P1 Q1) (h2' : Pt2 c P2 Q2)
    (h0 : Q1 ≠ 0) : PtZ c (pointAdd C c P1 P2) (Q1 + Q2) := by
  refine ⟨pointAdd_pt2 hC h2 hT h1 h2', fun hs => ?_⟩
  obtain ⟨x1, y1, z1, r1, c1⟩ := h1
  obtain ⟨x2, y2, z2, r2, c2⟩ := h2'
  obtain ⟨a1, a2, a3, a4⟩ := opposite_coords hT c1 c2 h0 hs
  exact pointAdd_z hC hZ r1 r2 a1 a2 a3 a4 _ rfl

theorem subst_ptZ {P1 P2 : Xyz} {Q1 Q2 : (shortW a b).Point} (h1 : PtZ c P1 Q1) (h2 : PtZ c P2 Q2)
    (mask : W) (n : Nat) (hn : n = 0 ∨ n = 1) (hm : mask = BitVec.ofNat 32 n) :
    PtZ c (xyzSubst P1 P2 mask) (if n = 1 then Q2 else Q1) := by
  have e : xyzSubst P1 P2 mask = if n = 1 then P2 else P1 := by
    obtain ⟨⟨x1, y1, z1, r1, c1⟩, -⟩ := h1
    obtain ⟨⟨x2, y2, z2, r2, c2⟩, -⟩ := h2
    unfold xyzSubst
    rw [substWords_eq _ _ _ n hn hm (by rw [r1.x.len, r2.x.len]),
      substWords_eq _ _ _ n hn hm (by rw [r1.y.len, r2.y.len]),
      substWords_eq _ _ _ n hn hm (by rw [r1.z.len, r2.z.len])]
    split <;> rfl
  rw [e]
  split
  · exact h2
  · exact h1

theorem scaleLoop_ptZ (hC : CurveOk C c p a b) (hZ : RedZero C.aux.modfunc c (p * 2 ^ 40)) (h2 : (2 : ZMod p) ≠ 0)
    (hT : NoTwoTorsion a b) (s : List W) (k i : Nat) (hk : k + i = 32 * s.length) {A T : Xyz}
    {QA QT : (shortW a b).Point} (hA : PtZ c A QA) (hT' : Pt2 c T QT) (h0 : QT ≠ 0) :
    PtZ c (scaleLoop C c s k i A T) (QA + (val s / 2 ^ i) • QT) := by
  induction k generalizing i A T QA QT with
  | zero =>
    have : val s / 2 ^ i = 0 := by
      apply Nat.div_eq_of_lt
      have := val_lt s
      rwa [show i = 32 * s.length by omega]
    rw [this, zero_nsmul, add_zero]
    exact hA
  | succ k ih =>
    unfold scaleLoop
    have hsub := subst_ptZ hA (pointAdd_ptZ hC hZ h2 hT hT' hA.1.two h0) _ (val s / 2 ^ i % 2) (by omega)
      (scalar_bit s i)
    have hdm : val s / 2 ^ i = 2 * (val s / 2 ^ (i + 1)) + val s / 2 ^ i % 2 := by
      rw [Nat.pow_succ, ← Nat.div_div_eq_div_mul]; omega
    have hval : (if val s / 2 ^ i % 2 = 1 then QT + QA else QA) = QA + (val s / 2 ^ i % 2) • QT := by
      rcases Nat.mod_two_eq_zero_or_one (val s / 2 ^ i) with h | h <;> rw [h]
      · simp
      · simp [add_comm]
    rw [hval] at hsub
    simp only
    obtain ⟨d1, d2⟩ := pointDbl_pt2 hC h2 hT hT' h0
    have hsum : QA + (val s / 2 ^ i) • QT =
        QA + (val s / 2 ^ i % 2) • QT + (val s / 2 ^ (i + 1)) • (QT + QT) := by
      conv_lhs => rw [hdm]
      rw [add_smul, mul_comm, mul_smul, two_smul, add_assoc, add_comm (_ • QT)]
    rw [hsum]
    split
    · rename_i hk0
      have hz : val s / 2 ^ (i + 1) = 0 := by
        apply Nat.div_eq_of_lt
        have := val_lt s
        rwa [show i + 1 = 32 * s.length by omega]
      rw [hz, zero_nsmul, add_zero]
      exact hsub
    · exact ih (i + 1) (by omega) hsub d1.two d2

theorem copy_pt2 {P : Xyz} {Q : (shortW a b).Point} (h : Pt2 c P Q) : xyzCopy c P = P := by
  obtain ⟨x, y, z, r, -⟩ := h
  unfold xyzCopy
  rw [cpy_self r.x.len, cpy_self r.y.len, cpy_self r.z.len]

theorem scaleAccumulate_ptZ (hC : CurveOk C c p a b) (hZ : RedZero C.aux.modfunc c (p * 2 ^ 40))
    (h2 : (2 : ZMod p) ≠ 0) (hT : NoTwoTorsion a b) (s : List W) {A B : Xyz} {QA QB : (shortW a b).Point}
    (hA : PtZ c A QA) (hB : Pt2 c B QB) (h0 : QB ≠ 0) :
    PtZ c (scaleAccumulate C c A B s) (QA + val s • QB) := by
  unfold scaleAccumulate
  rw [copy_pt2 hB]
  have := scaleLoop_ptZ hC hZ h2 hT s (s.length * 32) 0 (by omega) hA hB h0
  simpa using this

theorem inf_ptZ (hC : CurveOk C c p a b) : PtZ c (xyzInf c) (0 : (shortW a b).Point) :=
  ⟨inf_pt hC, fun _ => val_replicate_zero c⟩

end

end Ec
