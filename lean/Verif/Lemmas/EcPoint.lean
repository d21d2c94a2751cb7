import Verif.Lemmas.EcExp
import Verif.Model.Ecp
import Mathlib.Tactic.LinearCombination

/-! The register programs of `ecp-xyz.c` compute the formulas over the prime field. -/

namespace Ec
open Vlong Spec

/-- What a curve context has to satisfy: a sound field, and coefficients denoting `a` and `b`. -/
structure CurveOk (C : Curve) (c p : Nat) (a b : ZMod p) : Prop where
  fld : FieldOk C.aux c p
  ca : ((C.a.toInt : Int) : ZMod p) = a
  cb : (val C.b : ZMod p) = b
  ble : val C.b ≤ p
  bne : C.b ≠ []

/-- The three coordinates of a point are sound words for `x`, `y`, `z`. -/
structure PRep (c p : Nat) (P : Xyz) (x y z : ZMod p) : Prop where
  x : Rep c p 1 P.x x
  y : Rep c p 1 P.y y
  z : Rep c p 1 P.z z

/-- The same with numbers of up to twice the prime, as read from an encoding. -/
structure PRep2 (c p : Nat) (P : Xyz) (x y z : ZMod p) : Prop where
  x : Rep c p 2 P.x x
  y : Rep c p 2 P.y y
  z : Rep c p 2 P.z z

theorem PRep.two {c p : Nat} {P : Xyz} {x y z : ZMod p} (h : PRep c p P x y z) : PRep2 c p P x y z :=
  ⟨h.x.mono (by decide), h.y.mono (by decide), h.z.mono (by decide)⟩

theorem PRep.of_eq {c p : Nat} {P : Xyz} {x y z x' y' z' : ZMod p} (h : PRep c p P x y z)
    (h1 : x = x') (h2 : y = y') (h3 : z = z') : PRep c p P x' y' z' := by
  subst h1 h2 h3; exact h

section
variable {aux : Aux} {c p : Nat} (hF : FieldOk aux c p)
include hF

theorem modadd {a b : List W} {x y : ZMod p} (ha : Rep c p 1 a x) (hb : Rep c p 1 b y) :
    Rep c p 1 (aux.modfunc (addv c a b)) (x + y) :=
  mod_rep hF (add_rep hF ha hb (by norm_num)) (by norm_num)

theorem modsub {a b : List W} {x y : ZMod p} (ha : Rep c p 1 a x) (hb : Rep c p 1 b y) :
    Rep c p 1 (imod aux (subv c a b)) (x - y) :=
  imod_rep hF (sub_rep hF ha hb (by norm_num)) (by norm_num)

theorem imuls3 {o a : List W} {x : ZMod p} (ha : Rep c p 1 a x) (ho : o.length = c) :
    Rep c p 3 (imuls o a 3 false) (3 * x) := by
  have := imuls_pos_rep hF 3 3 (by decide) (by norm_num) ha ho (by norm_num) (out := o)
  exact (this.mono (by norm_num)).of_eq (by norm_num)
end

theorem a64_toInt (C : Curve) : C.a64.toInt = C.a.toInt := by
  unfold Curve.a64
  rw [BitVec.toInt_signExtend_of_le (by norm_num)]

theorem imulsA {C : Curve} {c p : Nat} {a b : ZMod p} (hC : CurveOk C c p a b) {o l : List W} {x : ZMod p}
    (h : Rep c p 1 l x) (ho : o.length = c) : Rep c p 1 (imod C.aux (imuls o l C.a64 false)) (a * x) := by
  have h1 := BitVec.le_toInt C.a
  have h2 := BitVec.toInt_lt (x := C.a)
  have := imuls_rep hC.fld C.a64 h ho (by rw [a64_toInt]; simpa using h1)
    (by rw [a64_toInt]; simpa using h2) (by norm_num) (out := o)
  refine (imod_rep hC.fld this (by norm_num)).of_eq ?_
  rw [a64_toInt, hC.ca]


section
variable {aux : Aux} {c p : Nat} (hF : FieldOk aux c p)
include hF
theorem mulsn2 {o a : List W} {x : ZMod p} (ha : Rep c p 1 a x) (ho : o.length = c) :
    Rep c p 2 (muls o a 2 false) (2 * x) := by
  have := muls_rep hF 2 ha ho (by decide)
  exact (this.mono (k' := 2) (by decide)).of_eq (by rw [show (2 : W).toNat = 2 from rfl]; norm_num)
theorem mulsn3 {o a : List W} {x : ZMod p} (ha : Rep c p 1 a x) (ho : o.length = c) :
    Rep c p 3 (muls o a 3 false) (3 * x) := by
  have := muls_rep hF 3 ha ho (by decide)
  exact (this.mono (k' := 3) (by decide)).of_eq (by rw [show (3 : W).toNat = 3 from rfl]; norm_num)
theorem mulsn4 {o a : List W} {x : ZMod p} (ha : Rep c p 1 a x) (ho : o.length = c) :
    Rep c p 4 (muls o a 4 false) (4 * x) := by
  have := muls_rep hF 4 ha ho (by decide)
  exact (this.mono (k' := 4) (by decide)).of_eq (by rw [show (4 : W).toNat = 4 from rfl]; norm_num)
theorem mulsn8 {o a : List W} {x : ZMod p} (ha : Rep c p 1 a x) (ho : o.length = c) :
    Rep c p 8 (muls o a 8 false) (8 * x) := by
  have := muls_rep hF 8 ha ho (by decide)
  exact (this.mono (k' := 8) (by decide)).of_eq (by rw [show (8 : W).toNat = 8 from rfl]; norm_num)
end

/-- Complete addition of Renes, Costello and Batina. -/
theorem pointAdd_rep2 {C : Curve} {c p : Nat} {a b : ZMod p} (hC : CurveOk C c p a b) {p1 p2 : Xyz}
    {x1 y1 z1 x2 y2 z2 : ZMod p} (h1 : PRep2 c p p1 x1 y1 z1) (h2 : PRep2 c p p2 x2 y2 z2) :
    PRep c p (pointAdd C c p1 p2)
      ((x1 * y2 + x2 * y1) * (y1 * y2 - a * (x1 * z2 + x2 * z1) - 3 * b * z1 * z2) -
        (y1 * z2 + y2 * z1) * (a * x1 * x2 + 3 * b * (x1 * z2 + x2 * z1) - a ^ 2 * z1 * z2))
      ((3 * x1 * x2 + a * z1 * z2) * (a * x1 * x2 + 3 * b * (x1 * z2 + x2 * z1) - a ^ 2 * z1 * z2) +
        (y1 * y2 + a * (x1 * z2 + x2 * z1) + 3 * b * z1 * z2) *
          (y1 * y2 - a * (x1 * z2 + x2 * z1) - 3 * b * z1 * z2))
      ((y1 * z2 + y2 * z1) * (y1 * y2 + a * (x1 * z2 + x2 * z1) + 3 * b * z1 * z2) +
        (x1 * y2 + x2 * y1) * (3 * x1 * x2 + a * z1 * z2)) := by
  unfold pointAdd
  extract_lets -merge f o t0q1 t1q1 t2q1 t3q1 t3q2 t4q1 t5q1 t3q3 t4q2 t4q3 t3q4 t3q5 t4q4 t4q5 t5q2 t5q3 xq1 t4q6 t5q4 t5q5 t4q7 t4q8 t5q6 t5q7 xq2 xq3 yq1 t5q8 xq4 xq5 t5q9 t5q10 zq1 zq2 xq6 xq7 zq3 zq4 xq8 xq9 zq5 yq2 t1q2 t1q3 t2q2 t2q3 t1q4 t1q5 t2q4 t2q5 t2q6 t2q7 t0q2 t4q9 t4q10 t4q11 t0q3 yq3 yq4 t0q4 xq10 xq11 xq12 t0q5 zq6 zq7 zq8
  have hF := hC.fld
  have h_t0q1 : Rep c p _ t0q1 _ := mul_rr hF h1.x h2.x (by norm_num)
  have h_t1q1 : Rep c p _ t1q1 _ := mul_rr hF h1.y h2.y (by norm_num)
  have h_t2q1 : Rep c p _ t2q1 _ := mul_rr hF h1.z h2.z (by norm_num)
  have h_t3q1 : Rep c p _ t3q1 _ := add_rep hF h1.x h1.y (by norm_num)
  have h_t3q2 : Rep c p _ t3q2 _ := mod_rep hF h_t3q1 (by norm_num)
  have h_t4q1 : Rep c p _ t4q1 _ := add_rep hF h2.x h2.y (by norm_num)
  have h_t5q1 : Rep c p _ t5q1 _ := mul_rr hF h_t3q2 h_t4q1 (by norm_num)
  have h_t3q3 : Rep c p _ t3q3 _ := cpy_rep hF h_t5q1
  have h_t4q2 : Rep c p _ t4q2 _ := add_rep hF h_t0q1 h_t1q1 (by norm_num)
  have h_t4q3 : Rep c p _ t4q3 _ := mod_rep hF h_t4q2 (by norm_num)
  have h_t3q4 : SRep c p _ t3q4 _ := sub_rep hF h_t3q3 h_t4q3 (by norm_num)
  have h_t3q5 : Rep c p _ t3q5 (x1 * y2 + x2 * y1) := (imod_rep hF h_t3q4 (by norm_num)).of_eq (by ring)
  have h_t4q4 : Rep c p _ t4q4 _ := add_rep hF h1.x h1.z (by norm_num)
  have h_t4q5 : Rep c p _ t4q5 _ := mod_rep hF h_t4q4 (by norm_num)
  have h_t5q2 : Rep c p _ t5q2 _ := add_rep hF h2.x h2.z (by norm_num)
  have h_t5q3 : Rep c p _ t5q3 _ := mod_rep hF h_t5q2 (by norm_num)
  have h_xq1 : Rep c p _ xq1 _ := mul_rr hF h_t4q5 h_t5q3 (by norm_num)
  have h_t4q6 : Rep c p _ t4q6 _ := cpy_rep hF h_xq1
  have h_t5q4 : Rep c p _ t5q4 _ := add_rep hF h_t0q1 h_t2q1 (by norm_num)
  have h_t5q5 : Rep c p _ t5q5 _ := mod_rep hF h_t5q4 (by norm_num)
  have h_t4q7 : SRep c p _ t4q7 _ := sub_rep hF h_t4q6 h_t5q5 (by norm_num)
  have h_t4q8 : Rep c p _ t4q8 (x1 * z2 + x2 * z1) := (imod_rep hF h_t4q7 (by norm_num)).of_eq (by ring)
  have h_t5q6 : Rep c p _ t5q6 _ := add_rep hF h1.y h1.z (by norm_num)
  have h_t5q7 : Rep c p _ t5q7 _ := mod_rep hF h_t5q6 (by norm_num)
  have h_xq2 : Rep c p _ xq2 _ := add_rep hF h2.y h2.z (by norm_num)
  have h_xq3 : Rep c p _ xq3 _ := mod_rep hF h_xq2 (by norm_num)
  have h_yq1 : Rep c p _ yq1 _ := mul_rr hF h_t5q7 h_xq3 (by norm_num)
  have h_t5q8 : Rep c p _ t5q8 _ := cpy_rep hF h_yq1
  have h_xq4 : Rep c p _ xq4 _ := add_rep hF h_t1q1 h_t2q1 (by norm_num)
  have h_xq5 : Rep c p _ xq5 _ := mod_rep hF h_xq4 (by norm_num)
  have h_t5q9 : SRep c p _ t5q9 _ := sub_rep hF h_t5q8 h_xq5 (by norm_num)
  have h_t5q10 : Rep c p _ t5q10 (y1 * z2 + y2 * z1) := (imod_rep hF h_t5q9 (by norm_num)).of_eq (by ring)
  have h_zq2 : Rep c p _ zq2 _ := imulsA hC h_t4q8 (by simp [o])
  have h_xq6 : Rep c p _ xq6 _ := mul_rep hF (hC.ble.trans (by omega)) hC.cb (Rep.ne_nil hF h_t2q1) h_t2q1.res
  have h_xq7 : Rep c p _ xq7 _ := imuls3 hF h_xq6 h_xq6.len
  have h_zq3 : Rep c p _ zq3 _ := add_rep hF h_xq7 h_zq2 (by norm_num)
  have h_zq4 : Rep c p _ zq4 _ := mod_rep hF h_zq3 (by norm_num)
  have h_xq8 : SRep c p _ xq8 _ := sub_rep hF h_t1q1 h_zq4 (by norm_num)
  have h_xq9 : Rep c p _ xq9 _ := imod_rep hF h_xq8 (by norm_num)
  have h_zq5 : Rep c p _ zq5 _ := add_rep hF h_t1q1 h_zq4 (by norm_num)
  have h_yq2 : Rep c p _ yq2 _ := mul_rr hF h_xq9 h_zq5 (by norm_num)
  have h_t1q2 : Rep c p _ t1q2 _ := imuls3 hF h_t0q1 h_t1q1.len
  have h_t1q3 : Rep c p _ t1q3 _ := mod_rep hF h_t1q2 (by norm_num)
  have h_t2q3 : Rep c p _ t2q3 _ := imulsA hC h_t2q1 h_t2q1.len
  have h_t1q4 : Rep c p _ t1q4 _ := add_rep hF h_t1q3 h_t2q3 (by norm_num)
  have h_t1q5 : Rep c p _ t1q5 _ := mod_rep hF h_t1q4 (by norm_num)
  have h_t2q4 : SRep c p _ t2q4 _ := sub_rep hF h_t0q1 h_t2q3 (by norm_num)
  have h_t2q5 : Rep c p _ t2q5 _ := imod_rep hF h_t2q4 (by norm_num)
  have h_t2q7 : Rep c p _ t2q7 _ := imulsA hC h_t2q5 h_t2q5.len
  have h_t0q2 : Rep c p _ t0q2 _ := mul_rep hF (h_t4q8.le.trans (by omega)) h_t4q8.res hC.bne hC.cb
  have h_t4q9 : Rep c p _ t4q9 _ := imuls3 hF h_t0q2 h_t4q8.len
  have h_t4q10 : Rep c p _ t4q10 _ := add_rep hF h_t4q9 h_t2q7 (by norm_num)
  have h_t4q11 : Rep c p _ t4q11 _ := mod_rep hF h_t4q10 (by norm_num)
  have h_t0q3 : Rep c p _ t0q3 _ := mul_rr hF h_t1q5 h_t4q11 (by norm_num)
  have h_yq3 : Rep c p _ yq3 _ := add_rep hF h_yq2 h_t0q3 (by norm_num)
  have h_yq4 : Rep c p _ yq4 _ := mod_rep hF h_yq3 (by norm_num)
  have h_t0q4 : Rep c p _ t0q4 _ := mul_rr hF h_t3q5 h_xq9 (by norm_num)
  have h_xq10 : Rep c p _ xq10 _ := mul_rr hF h_t5q10 h_t4q11 (by norm_num)
  have h_xq11 : SRep c p _ xq11 _ := sub_rep hF h_t0q4 h_xq10 (by norm_num)
  have h_xq12 : Rep c p _ xq12 _ := imod_rep hF h_xq11 (by norm_num)
  have h_t0q5 : Rep c p _ t0q5 _ := mul_rr hF h_t5q10 h_zq5 (by norm_num)
  have h_zq6 : Rep c p _ zq6 _ := mul_rr hF h_t3q5 h_t1q5 (by norm_num)
  have h_zq7 : Rep c p _ zq7 _ := add_rep hF h_t0q5 h_zq6 (by norm_num)
  have h_zq8 : Rep c p _ zq8 _ := mod_rep hF h_zq7 (by norm_num)
  exact ⟨h_xq12.of_eq (by ring), h_yq4.of_eq (by ring), h_zq8.of_eq (by ring)⟩

theorem pointAdd_rep {C : Curve} {c p : Nat} {a b : ZMod p} (hC : CurveOk C c p a b) {p1 p2 : Xyz}
    {x1 y1 z1 x2 y2 z2 : ZMod p} (h1 : PRep c p p1 x1 y1 z1) (h2 : PRep c p p2 x2 y2 z2) :
    PRep c p (pointAdd C c p1 p2)
      ((x1 * y2 + x2 * y1) * (y1 * y2 - a * (x1 * z2 + x2 * z1) - 3 * b * z1 * z2) -
        (y1 * z2 + y2 * z1) * (a * x1 * x2 + 3 * b * (x1 * z2 + x2 * z1) - a ^ 2 * z1 * z2))
      ((3 * x1 * x2 + a * z1 * z2) * (a * x1 * x2 + 3 * b * (x1 * z2 + x2 * z1) - a ^ 2 * z1 * z2) +
        (y1 * y2 + a * (x1 * z2 + x2 * z1) + 3 * b * z1 * z2) *
          (y1 * y2 - a * (x1 * z2 + x2 * z1) - 3 * b * z1 * z2))
      ((y1 * z2 + y2 * z1) * (y1 * y2 + a * (x1 * z2 + x2 * z1) + 3 * b * z1 * z2) +
        (x1 * y2 + x2 * y1) * (3 * x1 * x2 + a * z1 * z2)) :=
  pointAdd_rep2 hC h1.two h2.two

/-- Doubling. -/
theorem pointDbl_rep2 {C : Curve} {c p : Nat} {a b : ZMod p} (hC : CurveOk C c p a b) {p1 : Xyz}
    {x1 y1 z1 : ZMod p} (h1 : PRep2 c p p1 x1 y1 z1) :
    PRep c p (pointDbl C c p1)
      (2 * y1 * z1 * ((3 * x1 ^ 2 + a * z1 ^ 2) ^ 2 - 8 * y1 ^ 2 * x1 * z1))
      (4 * y1 ^ 2 * z1 * (3 * (3 * x1 ^ 2 + a * z1 ^ 2) * x1 - 2 * y1 ^ 2 * z1) -
        (3 * x1 ^ 2 + a * z1 ^ 2) ^ 3)
      (8 * (y1 * z1) ^ 3) := by
  unfold pointDbl
  extract_lets -merge f o wq1 wq2 wq3 tq1 sq1 sq2 wq4 wq5 yq1 yq2 yq3 tq2 sq3 sq4 sq5 yq4 yq5 sq6 yq6 yq7 yq8 sq7 xq1 xq2 xq3 sq8 xq4 xq5 tq3 yq9 yq10 tq4 sq9 sq10 xq6 sq11 zq1 zq2 zq3
  have hF := hC.fld
  have h_wq1 : Rep c p _ wq1 _ := mul_rr hF h1.x h1.x (by norm_num)
  have h_wq2 : Rep c p _ wq2 _ := mulsn3 hF h_wq1 h_wq1.len
  have h_wq3 : Rep c p _ wq3 _ := imod_rep hF (Rep.toS hF h_wq2 (by norm_num)) (by norm_num)
  have h_tq1 : Rep c p _ tq1 _ := mul_rr hF h1.z h1.z (by norm_num)
  have h_sq2 : Rep c p _ sq2 _ := imulsA hC h_tq1 (by simp [o])
  have h_wq4 : Rep c p _ wq4 _ := add_rep hF h_wq3 h_sq2 (by norm_num)
  have h_wq5 : Rep c p _ wq5 _ := mod_rep hF h_wq4 (by norm_num)
  have h_yq1 : Rep c p _ yq1 _ := mul_rr hF h_wq5 h1.x (by norm_num)
  have h_yq2 : Rep c p _ yq2 _ := mulsn3 hF h_yq1 h_yq1.len
  have h_yq3 : Rep c p _ yq3 _ := mod_rep hF h_yq2 (by norm_num)
  have h_tq2 : Rep c p _ tq2 _ := mul_rr hF h1.y h1.y (by norm_num)
  have h_sq3 : Rep c p _ sq3 _ := mul_rr hF h_tq2 h1.z (by norm_num)
  have h_sq4 : Rep c p _ sq4 _ := mulsn2 hF h_sq3 h_sq3.len
  have h_sq5 : Rep c p _ sq5 _ := mod_rep hF h_sq4 (by norm_num)
  have h_yq4 : SRep c p _ yq4 _ := sub_rep hF h_yq3 h_sq5 (by norm_num)
  have h_yq5 : Rep c p _ yq5 _ := imod_rep hF h_yq4 (by norm_num)
  have h_sq6 : Rep c p _ sq6 _ := mul_rr hF h_yq5 h_tq2 (by norm_num)
  have h_yq6 : Rep c p _ yq6 _ := mul_rr hF h_sq6 h1.z (by norm_num)
  have h_yq7 : Rep c p _ yq7 _ := mulsn4 hF h_yq6 h_yq6.len
  have h_yq8 : Rep c p _ yq8 _ := mod_rep hF h_yq7 (by norm_num)
  have h_sq7 : Rep c p _ sq7 _ := mul_rr hF h_tq2 h1.z (by norm_num)
  have h_xq1 : Rep c p _ xq1 _ := mul_rr hF h_sq7 h1.x (by norm_num)
  have h_xq2 : Rep c p _ xq2 _ := mulsn8 hF h_xq1 h_xq1.len
  have h_xq3 : Rep c p _ xq3 _ := mod_rep hF h_xq2 (by norm_num)
  have h_sq8 : Rep c p _ sq8 _ := mul_rr hF h_wq5 h_wq5 (by norm_num)
  have h_xq4 : SRep c p _ xq4 _ := sub_rep hF h_sq8 h_xq3 (by norm_num)
  have h_xq5 : Rep c p _ xq5 _ := imod_rep hF h_xq4 (by norm_num)
  have h_tq3 : Rep c p _ tq3 _ := mul_rr hF h_sq8 h_wq5 (by norm_num)
  have h_yq9 : SRep c p _ yq9 _ := sub_rep hF h_yq8 h_tq3 (by norm_num)
  have h_yq10 : Rep c p _ yq10 _ := imod_rep hF h_yq9 (by norm_num)
  have h_tq4 : Rep c p _ tq4 _ := mul_rr hF h1.y h1.z (by norm_num)
  have h_sq9 : Rep c p _ sq9 _ := mulsn2 hF h_xq5 h_sq8.len
  have h_sq10 : Rep c p _ sq10 _ := mod_rep hF h_sq9 (by norm_num)
  have h_xq6 : Rep c p _ xq6 _ := mul_rr hF h_tq4 h_sq10 (by norm_num)
  have h_sq11 : Rep c p _ sq11 _ := mul_rr hF h_tq4 h_tq4 (by norm_num)
  have h_zq1 : Rep c p _ zq1 _ := mul_rr hF h_sq11 h_tq4 (by norm_num)
  have h_zq2 : Rep c p _ zq2 _ := mulsn8 hF h_zq1 h_zq1.len
  have h_zq3 : Rep c p _ zq3 _ := mod_rep hF h_zq2 (by norm_num)
  exact ⟨h_xq6.of_eq (by ring), h_yq10.of_eq (by ring), h_zq3.of_eq (by ring)⟩

theorem pointDbl_rep {C : Curve} {c p : Nat} {a b : ZMod p} (hC : CurveOk C c p a b) {p1 : Xyz}
    {x1 y1 z1 : ZMod p} (h1 : PRep c p p1 x1 y1 z1) :
    PRep c p (pointDbl C c p1)
      (2 * y1 * z1 * ((3 * x1 ^ 2 + a * z1 ^ 2) ^ 2 - 8 * y1 ^ 2 * x1 * z1))
      (4 * y1 ^ 2 * z1 * (3 * (3 * x1 ^ 2 + a * z1 ^ 2) * x1 - 2 * y1 ^ 2 * z1) -
        (3 * x1 ^ 2 + a * z1 ^ 2) ^ 3)
      (8 * (y1 * z1) ^ 3) :=
  pointDbl_rep2 hC h1.two

end Ec
