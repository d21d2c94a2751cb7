import Verif.Lemmas.EcScale
import Verif.Model.EcEd
import Verif.Spec.EdLaw

/-! `ecEd.c` against the Edwards group. -/

namespace Ec
open Vlong Spec

/-- What an Edwards curve context has to satisfy. -/
structure EdOk (C : EdCurve) (c p : Nat) (a d : ZMod p) : Prop where
  fld : FieldOk C.aux c p
  ca : ((C.a.toInt : Int) : ZMod p) = a
  du : (C.dUnder.toNat : ZMod p) ≠ 0
  dul : C.dUnder.toNat < 2 ^ 31
  dov : ((C.dOver.toInt : Int) : ZMod p) = d * C.dUnder.toNat
  dol : -2 ^ 31 < C.dOver.toInt

/-- The four coordinates are words of at most `k p`. -/
structure ERepK (k c p : Nat) (P : Xytz) (x y t z : ZMod p) : Prop where
  x : Rep c p k P.x x
  y : Rep c p k P.y y
  t : Rep c p k P.t t
  z : Rep c p k P.z z

/-- The four coordinates are sound words. -/
abbrev ERep (c p : Nat) (P : Xytz) (x y t z : ZMod p) : Prop := ERepK 1 c p P x y t z

theorem ERepK.mono {k k' c p : Nat} {P : Xytz} {x y t z : ZMod p} (h : ERepK k c p P x y t z) (hk : k ≤ k') :
    ERepK k' c p P x y t z := ⟨h.x.mono hk, h.y.mono hk, h.t.mono hk, h.z.mono hk⟩

section
variable {aux : Aux} {c p : Nat} (hF : FieldOk aux c p)
include hF

theorem subS_rep {k k' : Nat} {a b : List W} {x y : ZMod p} (ha : Rep c p k a x) (hb : SRep c p k' b y)
    (hk : k + k' ≤ 2 ^ 40) : SRep c p (k + k') (subv c a b) (x - y) := by
  have h1 := ha.le
  have h3 := hF.fit hk
  have h3' : (4 * ((k + k') * p) : Int) ≤ 2 ^ (32 * c) := by exact_mod_cast h3
  have h1' : (val a : Int) ≤ k * p := by exact_mod_cast h1
  have h2 := hb.lo
  have h2' := hb.hi
  have hl : (subv c a b).length = c := length_addKernel _ _ _ _ _
  have e : ((k:Int) + k') * p = k * p + k' * p := by ring
  have n1 : (0:Int) ≤ k * p := by positivity
  have n2 : (0:Int) ≤ k' * p := by positivity
  have n3 : (0:Int) ≤ val a := by positivity
  rw [e] at h3'
  have hpos : (0:Int) < 2 ^ (32 * c) := by positivity
  have hsv : (val b : Int) ≡ sval b [ZMOD 2 ^ (32 * c)] := by
    unfold sval
    rw [hb.len]
    split
    · exact Int.ModEq.refl _
    · simp [Int.ModEq]
  have hv : sval (subv c a b) = (val a : Int) - sval b :=
    sval_of_modEq hF hl ((subv_modEq c a b).trans (Int.ModEq.sub_left _ hsv)) (by omega) (by omega)
  refine ⟨hl, ?_, ?_, ?_⟩
  · rw [hv]; push_cast; rw [e]; omega
  · rw [hv]; push_cast; rw [e]; omega
  · rw [hv]; push_cast; rw [ha.res, hb.res]

end

theorem sx16 (x : BitVec 16) : (x.signExtend 64).toInt = x.toInt := by
  rw [BitVec.toInt_signExtend_of_le (by norm_num)]
theorem sx32 (x : BitVec 32) : (x.signExtend 64).toInt = x.toInt := by
  rw [BitVec.toInt_signExtend_of_le (by norm_num)]

theorem neg32 {x : BitVec 32} (h : -2 ^ 31 < x.toInt) : (-x).toInt = -x.toInt := by
  rw [BitVec.toInt_neg]
  have := BitVec.toInt_lt (x := x)
  apply Int.bmod_eq_of_le <;> norm_num at * <;> omega

section
variable {C : EdCurve} {c p : Nat} {a d : ZMod p}

theorem edA (hC : EdOk C c p a d) {o l : List W} {x : ZMod p}
    (h : Rep c p 1 l x) (ho : o.length = c) : SRep c p (2 ^ 38) (imuls o l C.a64 false) (a * x) := by
  have h1 := BitVec.le_toInt C.a
  have h2 := BitVec.toInt_lt (x := C.a)
  have := imuls_rep hC.fld C.a64 h ho (by unfold EdCurve.a64; rw [sx16]; norm_num at *; omega)
    (by unfold EdCurve.a64; rw [sx16]; norm_num at *; omega) (by norm_num) (out := o)
  unfold EdCurve.a64 at this ⊢
  rw [sx16, hC.ca] at this
  exact this

theorem edMulU (hC : EdOk C c p a d) {o l : List W} {x : ZMod p} (h : Rep c p 1 l x) (ho : o.length = c) :
    Rep c p (2 ^ 31) (muls o l C.dUnder false) (C.dUnder.toNat * x) :=
  (muls_rep hC.fld C.dUnder h ho (by have := hC.dul; omega)).mono (by have := hC.dul; omega)

theorem edAccD (hC : EdOk C c p a d) {o l : List W} {x y : ZMod p} (h : Rep c p 1 l x) (ho : Rep c p (2 ^ 31) o y) :
    SRep c p (2 ^ 39) (imuls o l C.dOver64 true) (d * C.dUnder.toNat * x + y) := by
  have h1 := hC.dol
  have h2 := BitVec.toInt_lt (x := C.dOver)
  have := imuls_acc_rep hC.fld C.dOver64 h ho (by norm_num) (by unfold EdCurve.dOver64; rw [sx32]; norm_num at *; omega)
    (by unfold EdCurve.dOver64; rw [sx32]; norm_num at *; omega) (by norm_num)
  unfold EdCurve.dOver64 at this ⊢
  rw [sx32, hC.dov] at this
  exact this

theorem edAccN (hC : EdOk C c p a d) {o l : List W} {x y : ZMod p} (h : Rep c p 1 l x) (ho : Rep c p (2 ^ 31) o y) :
    SRep c p (2 ^ 39) (imuls o l C.negDOver64 true) (-(d * C.dUnder.toNat) * x + y) := by
  have h1 := hC.dol
  have h2 := BitVec.le_toInt (x := C.dOver)
  have h3 := BitVec.toInt_lt (x := C.dOver)
  have := imuls_acc_rep hC.fld C.negDOver64 h ho (by norm_num)
    (by unfold EdCurve.negDOver64; rw [sx32, neg32 h1]; norm_num at *; omega)
    (by unfold EdCurve.negDOver64; rw [sx32, neg32 h1]; norm_num at *; omega) (by norm_num)
  unfold EdCurve.negDOver64 at this ⊢
  rw [sx32, neg32 h1] at this
  push_cast at this
  rw [hC.dov] at this
  exact this

theorem edAdd_rep (hC : EdOk C c p a d) {P1 P2 : Xytz} {x1 y1 t1 z1 x2 y2 t2 z2 : ZMod p} {k1 k2 : Nat}
    (h1 : ERepK k1 c p P1 x1 y1 t1 z1) (h2 : ERepK k2 c p P2 x2 y2 t2 z2) (hk1 : k1 ≤ 2 ^ 7) (hk2 : k2 ≤ 2 ^ 7) :
    ERep c p (edAdd C c P1 P2)
      (C.dUnder.toNat * ((x1 * y2 + x2 * y1) * (C.dUnder.toNat * (z1 * z2 - d * (t1 * t2)))))
      (C.dUnder.toNat * ((y1 * y2 - a * (x1 * x2)) * (C.dUnder.toNat * (z1 * z2 + d * (t1 * t2)))))
      (C.dUnder.toNat * (C.dUnder.toNat * ((y1 * y2 - a * (x1 * x2)) * (x1 * y2 + x2 * y1))))
      ((C.dUnder.toNat * (z1 * z2 - d * (t1 * t2))) * (C.dUnder.toNat * (z1 * z2 + d * (t1 * t2)))) := by
  unfold edAdd
  extract_lets -merge f o r1 s1 w1 w2 r2 s2 u1 u2 u3 r3 s3 v1 v2 v3 x31 t31 w3 w4 w5 y31 z31 x32 y32 t32 x33 y33 t33 t34 t35
  have hF := hC.fld
  have ho : o.length = c := List.length_replicate
  have h_r1 : Rep c p 1 r1 _ := mul_rr hF h1.x h2.y hk1
  have h_s1 : Rep c p 1 s1 _ := mul_rr hF h2.x h1.y hk2
  have h_w2 : Rep c p 1 w2 _ := modadd hF h_r1 h_s1
  have h_r2 : Rep c p 1 r2 _ := mul_rr hF h1.x h2.x hk1
  have h_s2 : Rep c p 1 s2 _ := mul_rr hF h1.y h2.y hk1
  have h_u1 : SRep c p _ u1 _ := edA hC h_r2 ho
  have h_u2 : SRep c p _ u2 _ := subS_rep hF h_s2 h_u1 (by norm_num)
  have h_u3 : Rep c p 1 u3 _ := imod_rep hF h_u2 (by norm_num)
  have h_r3 : Rep c p 1 r3 _ := mul_rr hF h1.z h2.z hk1
  have h_s3 : Rep c p 1 s3 _ := mul_rr hF h1.t h2.t hk1
  have h_v1 : Rep c p _ v1 _ := edMulU hC h_r3 ho
  have h_v2 : SRep c p _ v2 _ := edAccN hC h_s3 h_v1
  have h_v3 : Rep c p 1 v3 (C.dUnder.toNat * (z1 * z2 - d * (t1 * t2))) :=
    (imod_rep hF h_v2 (by norm_num)).of_eq (by ring)
  have h_x31 : Rep c p 1 x31 _ := mul_rr hF h_w2 h_v3 (by norm_num)
  have h_t31 : Rep c p 1 t31 _ := mul_rr hF h_u3 h_w2 (by norm_num)
  have h_w3 : Rep c p _ w3 _ := edMulU hC h_r3 h_w2.len
  have h_w4 : SRep c p _ w4 _ := edAccD hC h_s3 h_w3
  have h_w5 : Rep c p 1 w5 (C.dUnder.toNat * (z1 * z2 + d * (t1 * t2))) :=
    (imod_rep hF h_w4 (by norm_num)).of_eq (by ring)
  have h_y31 : Rep c p 1 y31 _ := mul_rr hF h_u3 h_w5 (by norm_num)
  have h_z31 : Rep c p 1 z31 _ := mul_rr hF h_v3 h_w5 (by norm_num)
  have h_x33 : Rep c p 1 x33 _ := mod_rep hF (edMulU hC h_x31 h_x31.len) (by norm_num)
  have h_y33 : Rep c p 1 y33 _ := mod_rep hF (edMulU hC h_y31 h_y31.len) (by norm_num)
  have h_t33 : Rep c p 1 t33 _ := mod_rep hF (edMulU hC h_t31 h_t31.len) (by norm_num)
  have h_t35 : Rep c p 1 t35 _ := mod_rep hF (edMulU hC h_t33 h_t33.len) (by norm_num)
  exact ⟨h_x33, h_y33, h_t35, h_z31⟩

theorem edDbl_rep (hC : EdOk C c p a d) {P1 : Xytz} {x1 y1 t1 z1 : ZMod p} {k : Nat}
    (h1 : ERepK k c p P1 x1 y1 t1 z1) (hk : k ≤ 2 ^ 7) :
    ERep c p (edDbl C c P1)
      ((2 * x1 * y1) * (2 * z1 ^ 2 - (y1 ^ 2 + a * x1 ^ 2)))
      ((y1 ^ 2 + a * x1 ^ 2) * (y1 ^ 2 - a * x1 ^ 2))
      ((2 * x1 * y1) * (y1 ^ 2 - a * x1 ^ 2))
      ((y1 ^ 2 + a * x1 ^ 2) * (2 * z1 ^ 2 - (y1 ^ 2 + a * x1 ^ 2))) := by
  unfold edDbl
  extract_lets -merge f r1 s1 r2 r3 u1 v1 u2 v2 y31 s2 s3 s4 t31 r4 r5 w1 w2 x31 z31
  have hF := hC.fld
  have h_r1 : Rep c p 1 r1 _ := mul_rr hF h1.x h1.x hk
  have h_s1 : Rep c p 1 s1 _ := mul_rr hF h1.y h1.y hk
  have h_r3 : Rep c p 1 r3 _ := imod_rep hF (edA hC h_r1 h_r1.len) (by norm_num)
  have h_u2 : Rep c p 1 u2 (y1 ^ 2 + a * x1 ^ 2) := (modadd hF h_s1 h_r3).of_eq (by ring)
  have h_v2 : Rep c p 1 v2 (y1 ^ 2 - a * x1 ^ 2) := (modsub hF h_s1 h_r3).of_eq (by ring)
  have h_y31 : Rep c p 1 y31 _ := mul_rr hF h_u2 h_v2 (by norm_num)
  have h_s2 : Rep c p 1 s2 _ := mul_rr hF h1.x h1.y hk
  have h_s4 : Rep c p 1 s4 (2 * x1 * y1) := (modadd hF h_s2 h_s2).of_eq (by ring)
  have h_t31 : Rep c p 1 t31 _ := mul_rr hF h_s4 h_v2 (by norm_num)
  have h_r4 : Rep c p 1 r4 _ := mul_rr hF h1.z h1.z hk
  have h_r5 : Rep c p 2 r5 _ := add_rep hF h_r4 h_r4 (by norm_num)
  have h_w2 : Rep c p 1 w2 (2 * z1 ^ 2 - (y1 ^ 2 + a * x1 ^ 2)) :=
    (imod_rep hF (sub_rep hF h_r5 h_u2 (by norm_num)) (by norm_num)).of_eq (by ring)
  have h_x31 : Rep c p 1 x31 _ := mul_rr hF h_s4 h_w2 (by norm_num)
  have h_z31 : Rep c p 1 z31 _ := mul_rr hF h_u2 h_w2 (by norm_num)
  exact ⟨h_x31, h_y31, h_t31, h_z31⟩

end

section
variable {F : Type*} [Field F] {a d : F} [hE : EdComplete a d]

theorem ed_add_coords {u x1 y1 t1 z1 x2 y2 t2 z2 : F} (hu : u ≠ 0) {P Q : EdPoint a d}
    (h1 : EdCoords x1 y1 t1 z1 P) (h2 : EdCoords x2 y2 t2 z2 Q) :
    EdCoords (u * ((x1 * y2 + x2 * y1) * (u * (z1 * z2 - d * (t1 * t2)))))
      (u * ((y1 * y2 - a * (x1 * x2)) * (u * (z1 * z2 + d * (t1 * t2)))))
      (u * (u * ((y1 * y2 - a * (x1 * x2)) * (x1 * y2 + x2 * y1))))
      ((u * (z1 * z2 - d * (t1 * t2))) * (u * (z1 * z2 + d * (t1 * t2)))) (P + Q) := by
  obtain ⟨n1, rfl, rfl, rfl⟩ := h1
  obtain ⟨n2, rfl, rfl, rfl⟩ := h2
  have dp := ed_plus P.on Q.on
  have dm := ed_minus P.on Q.on
  unfold EdCoords
  rw [EdPoint.add_x, EdPoint.add_y]
  have e1 : z1 * z2 - d * (P.x * P.y * z1 * (Q.x * Q.y * z2)) = z1 * z2 * (1 - d * P.x * Q.x * P.y * Q.y) := by ring
  have e2 : z1 * z2 + d * (P.x * P.y * z1 * (Q.x * Q.y * z2)) = z1 * z2 * (1 + d * P.x * Q.x * P.y * Q.y) := by ring
  rw [e1, e2]
  refine ⟨?_, ?_, ?_, ?_⟩
  · exact mul_ne_zero (mul_ne_zero hu (mul_ne_zero (mul_ne_zero n1 n2) dm)) (mul_ne_zero hu (mul_ne_zero (mul_ne_zero n1 n2) dp))
  all_goals
    generalize hA : 1 + d * P.x * Q.x * P.y * Q.y = A at *
    generalize hB : 1 - d * P.x * Q.x * P.y * Q.y = B at *
    field_simp

theorem ed_dbl_coords {x1 y1 t1 z1 : F} {P : EdPoint a d} (h1 : EdCoords x1 y1 t1 z1 P) :
    EdCoords ((2 * x1 * y1) * (2 * z1 ^ 2 - (y1 ^ 2 + a * x1 ^ 2)))
      ((y1 ^ 2 + a * x1 ^ 2) * (y1 ^ 2 - a * x1 ^ 2))
      ((2 * x1 * y1) * (y1 ^ 2 - a * x1 ^ 2))
      ((y1 ^ 2 + a * x1 ^ 2) * (2 * z1 ^ 2 - (y1 ^ 2 + a * x1 ^ 2))) (P + P) := by
  obtain ⟨n1, rfl, rfl, rfl⟩ := h1
  have dp := ed_plus P.on P.on
  have dm := ed_minus P.on P.on
  have on := P.on
  unfold OnEd at on
  unfold EdCoords
  rw [EdPoint.add_x, EdPoint.add_y]
  have e1 : 2 * z1 ^ 2 - ((P.y * z1) ^ 2 + a * (P.x * z1) ^ 2) = z1 ^ 2 * (1 - d * P.x * P.x * P.y * P.y) := by
    linear_combination (-z1 ^ 2) * on
  have e2 : (P.y * z1) ^ 2 + a * (P.x * z1) ^ 2 = z1 ^ 2 * (1 + d * P.x * P.x * P.y * P.y) := by
    linear_combination (z1 ^ 2) * on
  rw [e1, e2]
  refine ⟨?_, ?_, ?_, ?_⟩
  · exact mul_ne_zero (mul_ne_zero (pow_ne_zero _ n1) dp) (mul_ne_zero (pow_ne_zero _ n1) dm)
  all_goals
    generalize hA : 1 + d * P.x * P.x * P.y * P.y = A at *
    generalize hB : 1 - d * P.x * P.x * P.y * P.y = B at *
    field_simp
    try ring

end

section
variable {C : EdCurve} {c p : Nat} [Fact p.Prime] {a d : ZMod p} [hE : EdComplete a d]

/-- The words `P`, of at most `k p`, denote the point `Q`. -/
def EPtK (k c : Nat) (P : Xytz) (Q : EdPoint a d) : Prop :=
  ∃ x y t z : ZMod p, ERepK k c p P x y t z ∧ EdCoords x y t z Q

/-- The words `P` denote the point `Q`. -/
abbrev EPt (c : Nat) (P : Xytz) (Q : EdPoint a d) : Prop := EPtK 1 c P Q

omit hE in
theorem EPtK.mono {k k' : Nat} {P : Xytz} {Q : EdPoint a d} (h : EPtK k c P Q) (hk : k ≤ k') : EPtK k' c P Q := by
  obtain ⟨x, y, t, z, r, h⟩ := h
  exact ⟨x, y, t, z, r.mono hk, h⟩

theorem edAdd_ptK (hC : EdOk C c p a d) {P1 P2 : Xytz} {Q1 Q2 : EdPoint a d} {k1 k2 : Nat} (h1 : EPtK k1 c P1 Q1)
    (h2 : EPtK k2 c P2 Q2) (hk1 : k1 ≤ 2 ^ 7) (hk2 : k2 ≤ 2 ^ 7) : EPt c (edAdd C c P1 P2) (Q1 + Q2) := by
  obtain ⟨x1, y1, t1, z1, r1, c1⟩ := h1
  obtain ⟨x2, y2, t2, z2, r2, c2⟩ := h2
  exact ⟨_, _, _, _, edAdd_rep hC r1 r2 hk1 hk2, ed_add_coords hC.du c1 c2⟩

theorem edAdd_pt (hC : EdOk C c p a d) {P1 P2 : Xytz} {Q1 Q2 : EdPoint a d} (h1 : EPt c P1 Q1) (h2 : EPt c P2 Q2) :
    EPt c (edAdd C c P1 P2) (Q1 + Q2) := edAdd_ptK hC h1 h2 (by norm_num) (by norm_num)

theorem edDbl_ptK (hC : EdOk C c p a d) {P1 : Xytz} {Q1 : EdPoint a d} {k : Nat} (h1 : EPtK k c P1 Q1) (hk : k ≤ 2 ^ 7) :
    EPt c (edDbl C c P1) (Q1 + Q1) := by
  obtain ⟨x1, y1, t1, z1, r1, c1⟩ := h1
  exact ⟨_, _, _, _, edDbl_rep hC r1 hk, ed_dbl_coords c1⟩

theorem edDbl_pt (hC : EdOk C c p a d) {P1 : Xytz} {Q1 : EdPoint a d} (h1 : EPt c P1 Q1) :
    EPt c (edDbl C c P1) (Q1 + Q1) := edDbl_ptK hC h1 (by norm_num)

omit hE in
theorem edSubst_pt {k : Nat} {P1 P2 : Xytz} {Q1 Q2 : EdPoint a d} (h1 : EPtK k c P1 Q1) (h2 : EPtK k c P2 Q2)
    (mask : W) (n : Nat) (hn : n = 0 ∨ n = 1) (hm : mask = BitVec.ofNat 32 n) :
    EPtK k c (xytzSubst P1 P2 mask) (if n = 1 then Q2 else Q1) := by
  obtain ⟨x1, y1, t1, z1, r1, c1⟩ := h1
  obtain ⟨x2, y2, t2, z2, r2, c2⟩ := h2
  have e : xytzSubst P1 P2 mask = if n = 1 then P2 else P1 := by
    unfold xytzSubst
    rw [substWords_eq _ _ _ n hn hm (by rw [r1.x.len, r2.x.len]),
      substWords_eq _ _ _ n hn hm (by rw [r1.y.len, r2.y.len]),
      substWords_eq _ _ _ n hn hm (by rw [r1.t.len, r2.t.len]),
      substWords_eq _ _ _ n hn hm (by rw [r1.z.len, r2.z.len])]
    split <;> rfl
  rw [e]
  split
  · exact ⟨_, _, _, _, r2, c2⟩
  · exact ⟨_, _, _, _, r1, c1⟩

theorem edScaleLoop_pt (hC : EdOk C c p a d) (s : List W) {b : Nat} (hb : 1 ≤ b) (hb2 : b ≤ 2 ^ 7) (k i : Nat)
    (hk : k + i = 32 * s.length) {A T : Xytz} {QA QT : EdPoint a d} (hA : EPtK b c A QA) (hT' : EPtK b c T QT) :
    EPtK b c (edScaleLoop C c s k i A T) (QA + (val s / 2 ^ i) • QT) := by
  induction k generalizing i A T QA QT with
  | zero =>
    have : val s / 2 ^ i = 0 := by
      apply Nat.div_eq_of_lt
      have := val_lt s
      rwa [show i = 32 * s.length by omega]
    rw [this, zero_nsmul, add_zero]
    exact hA
  | succ k ih =>
    unfold edScaleLoop
    have hsub := edSubst_pt hA ((edAdd_ptK hC hT' hA hb2 hb2).mono hb) _ (val s / 2 ^ i % 2) (by omega) (scalar_bit s i)
    have hdm : val s / 2 ^ i = 2 * (val s / 2 ^ (i + 1)) + val s / 2 ^ i % 2 := by
      rw [Nat.pow_succ, ← Nat.div_div_eq_div_mul]; omega
    have hval : (if val s / 2 ^ i % 2 = 1 then QT + QA else QA) = QA + (val s / 2 ^ i % 2) • QT := by
      rcases Nat.mod_two_eq_zero_or_one (val s / 2 ^ i) with h | h <;> rw [h]
      · simp
      · simp [add_comm]
    rw [hval] at hsub
    simp only
    have d1 := (edDbl_ptK hC hT' hb2).mono hb
    have hsum : QA + (val s / 2 ^ i) • QT =
        QA + (val s / 2 ^ i % 2) • QT + (val s / 2 ^ (i + 1)) • (QT + QT) := by
      conv_lhs => rw [hdm]
      rw [add_smul, mul_comm, mul_smul, two_smul, add_assoc, add_comm (_ • QT)]
    rw [hsum]
    split
    · rename_i hk0
      have hz : val s / 2 ^ (i + 1) = 0 := by
        apply Nat.div_eq_of_lt
        have := val_lt s
        rwa [show i + 1 = 32 * s.length by omega]
      rw [hz, zero_nsmul, add_zero]
      exact hsub
    · exact ih (i + 1) (by omega) hsub d1

omit hE in
theorem edCopy_pt {k : Nat} {P : Xytz} {Q : EdPoint a d} (h : EPtK k c P Q) : xytzCopy c P = P := by
  obtain ⟨x, y, t, z, r, -⟩ := h
  unfold xytzCopy
  rw [cpy_self r.x.len, cpy_self r.y.len, cpy_self r.t.len, cpy_self r.z.len]

theorem edScaleAccumulate_ptK (hC : EdOk C c p a d) (s : List W) {b : Nat} (hb : 1 ≤ b) (hb2 : b ≤ 2 ^ 7) {A B : Xytz}
    {QA QB : EdPoint a d} (hA : EPtK b c A QA) (hB : EPtK b c B QB) :
    EPtK b c (edScaleAccumulate C c A B s) (QA + val s • QB) := by
  unfold edScaleAccumulate
  rw [edCopy_pt hB]
  have := edScaleLoop_pt hC s hb hb2 (s.length * 32) 0 (by omega) hA hB
  simpa using this

theorem edScaleAccumulate_pt (hC : EdOk C c p a d) (s : List W) {A B : Xytz} {QA QB : EdPoint a d}
    (hA : EPt c A QA) (hB : EPt c B QB) : EPt c (edScaleAccumulate C c A B s) (QA + val s • QB) :=
  edScaleAccumulate_ptK hC s le_rfl (by norm_num) hA hB

theorem edInf_pt (hC : EdOk C c p a d) : EPt c (xytzInf c) (0 : EdPoint a d) := by
  have hc := hC.fld.cpos
  have h0 : Rep c p 1 (List.replicate c (0 : W)) (0 : ZMod p) :=
    ⟨by simp, by rw [val_replicate_zero]; omega, by rw [val_replicate_zero]; simp⟩
  have h1 : Rep c p 1 (1 :: List.replicate (c - 1) (0 : W)) (1 : ZMod p) := by
    have := hC.fld.two
    refine ⟨by simp; omega, ?_, ?_⟩
    · simp only [val]; rw [val_replicate_zero, show (1 : W).toNat = 1 from rfl]; omega
    · simp only [val]; rw [val_replicate_zero, show (1 : W).toNat = 1 from rfl]; simp
  refine ⟨0, 1, 0, 1, ⟨h0, h1, h0, h1⟩, one_ne_zero, ?_, ?_, ?_⟩ <;> simp [EdPoint.zero_x, EdPoint.zero_y]

end
end Ec
