import Verif.Lemmas.EdInst

/-!
# Property C40 on the twisted Edwards curves

The group is that of the published addition law (`Verif.Spec.Edwards`, `Verif.Spec.EdLaw`).
-/

namespace Props
open Vlong Spec Ec EdParam

/-- The words `P` (each coordinate `c` words long with a value of at most `p`) are extended homogeneous
coordinates of the Edwards point `Q`. -/
def EdDenotes (c : Nat) {p : Nat} [Fact p.Prime] {a d : ZMod p} (P : Xytz) (Q : EdPoint a d) : Prop :=
  (P.x.length = c ∧ P.y.length = c ∧ P.t.length = c ∧ P.z.length = c) ∧
    (val P.x ≤ p ∧ val P.y ≤ p ∧ val P.t ≤ p ∧ val P.z ≤ p) ∧
    EdCoords (val P.x : ZMod p) (val P.y : ZMod p) (val P.t : ZMod p) (val P.z : ZMod p) Q

theorem edDenotes_iff {c p : Nat} [Fact p.Prime] {a d : ZMod p} {P : Xytz} {Q : EdPoint a d} :
    EdDenotes c P Q ↔ EPt c P Q := by
  constructor
  · rintro ⟨⟨l1, l2, l3, l4⟩, ⟨v1, v2, v3, v4⟩, h⟩
    exact ⟨_, _, _, _, ⟨⟨l1, by omega, rfl⟩, ⟨l2, by omega, rfl⟩, ⟨l3, by omega, rfl⟩, ⟨l4, by omega, rfl⟩⟩, h⟩
  · rintro ⟨x, y, t, z, ⟨hx, hy, ht, hz⟩, h⟩
    refine ⟨⟨hx.len, hy.len, ht.len, hz.len⟩, ⟨?_, ?_, ?_, ?_⟩, ?_⟩
    · simpa using hx.le
    · simpa using hy.le
    · simpa using ht.le
    · simpa using hz.le
    · rw [hx.res, hy.res, ht.res, hz.res]; exact h

/-- C40: the two Edwards curves: the contexts compute modulo the right prime with the right coefficients
(`a = -1`, `d = -121665/121666` and `a = 1`, `d = -39081`), and the addition law has no exceptions. -/
theorem C40_ed_curves :
    (EdOk ed25519 11 qEd25519 ((aEd25519 : Nat) : ZMod qEd25519) ((dEd25519 : Nat) : ZMod qEd25519) ∧
      EdComplete ((aEd25519 : Nat) : ZMod qEd25519) ((dEd25519 : Nat) : ZMod qEd25519) ∧
      qEd25519 = 2 ^ 255 - 19 ∧ ((aEd25519 : Nat) : ZMod qEd25519) = -1 ∧
      ((dEd25519 : Nat) : ZMod qEd25519) = -121665 / 121666) ∧
    (EdOk ed448 17 qEd448 ((aEd448 : Nat) : ZMod qEd448) ((dEd448 : Nat) : ZMod qEd448) ∧
      EdComplete ((aEd448 : Nat) : ZMod qEd448) ((dEd448 : Nat) : ZMod qEd448) ∧
      qEd448 = 2 ^ 448 - 2 ^ 224 - 1 ∧ ((aEd448 : Nat) : ZMod qEd448) = 1 ∧
      ((dEd448 : Nat) : ZMod qEd448) = -39081) := by
  have i1 : ed25519.a.toInt = -1 := by decide +kernel
  have i2 : ed25519.dOver.toInt = -121665 := by decide +kernel
  have i3 : ed25519.dUnder.toNat = 121666 := by decide +kernel
  have j1 : ed448.a.toInt = 1 := by decide +kernel
  have j2 : ed448.dOver.toInt = -39081 := by decide +kernel
  have j3 : ed448.dUnder.toNat = 1 := by decide +kernel
  have a1 := edOkEd25519.ca
  have a2 := edOkEd25519.dov
  have a3 := edOkEd25519.du
  have b1 := edOkEd448.ca
  have b2 := edOkEd448.dov
  rw [i1] at a1
  rw [i2, i3] at a2
  rw [i3] at a3
  rw [j1] at b1
  rw [j2, j3] at b2
  refine ⟨⟨edOkEd25519, completeEd25519, by decide +kernel, ?_, ?_⟩, edOkEd448, completeEd448, by decide +kernel, ?_, ?_⟩
  · rw [← a1, Int.cast_neg, Int.cast_one]
  · have a3' : (121666 : ZMod qEd25519) ≠ 0 := by exact_mod_cast a3
    rw [eq_div_iff a3']
    have h : ((121666 : Nat) : ZMod qEd25519) = 121666 := by norm_cast
    rw [h] at a2
    rw [← a2, Int.cast_neg]
    norm_cast
  · rw [← b1, Int.cast_one]
  · rw [Nat.cast_one, mul_one] at b2
    rw [← b2, Int.cast_neg]
    norm_cast

section
variable {C : EdCurve} {c p : Nat} [Fact p.Prime] {a d : ZMod p} [EdComplete a d]

/-- C40: point addition, for all pairs of points. -/
theorem C40_ed_add (hC : EdOk C c p a d) {P1 P2 : Xytz} {Q1 Q2 : EdPoint a d} (h1 : EdDenotes c P1 Q1)
    (h2 : EdDenotes c P2 Q2) : EdDenotes c (edAdd C c P1 P2) (Q1 + Q2) :=
  edDenotes_iff.mpr (edAdd_pt hC (edDenotes_iff.mp h1) (edDenotes_iff.mp h2))

/-- C40: point doubling, for all points (the neutral element included). -/
theorem C40_ed_dbl (hC : EdOk C c p a d) {P : Xytz} {Q : EdPoint a d} (h : EdDenotes c P Q) :
    EdDenotes c (edDbl C c P) (2 • Q) := by
  rw [two_smul]
  exact edDenotes_iff.mpr (edDbl_pt hC (edDenotes_iff.mp h))

/-- C40: `ecEd_xytz_inf` denotes the neutral element `(0, 1)`. -/
theorem C40_ed_inf (hC : EdOk C c p a d) : EdDenotes c (xytzInf c) (0 : EdPoint a d) :=
  edDenotes_iff.mpr (edInf_pt hC)

/-- C40: `ecEd_point_scale_accumulate` adds exactly `k` copies of the base point to the accumulator, for every
base point and every scalar of every length. -/
theorem C40_ed_scale (hC : EdOk C c p a d) (s : List W) {A B : Xytz} {QA QB : EdPoint a d} (hA : EdDenotes c A QA)
    (hB : EdDenotes c B QB) : EdDenotes c (edScaleAccumulate C c A B s) (QA + val s • QB) :=
  edDenotes_iff.mpr (edScaleAccumulate_pt hC s (edDenotes_iff.mp hA) (edDenotes_iff.mp hB))

end

/-- C40: the neutral element and the addition law of the group are the published ones. -/
theorem C40_ed_law {F : Type*} [Field F] {a d : F} [EdComplete a d] (P Q : EdPoint a d) :
    (0 : EdPoint a d).x = 0 ∧ (0 : EdPoint a d).y = 1 ∧
    (P + Q).x = (P.x * Q.y + Q.x * P.y) / (1 + d * P.x * Q.x * P.y * Q.y) ∧
    (P + Q).y = (P.y * Q.y - a * P.x * Q.x) / (1 - d * P.x * Q.x * P.y * Q.y) ∧
    1 + d * P.x * Q.x * P.y * Q.y ≠ 0 ∧ 1 - d * P.x * Q.x * P.y * Q.y ≠ 0 :=
  ⟨rfl, rfl, rfl, rfl, ed_plus P.on Q.on, ed_minus P.on Q.on⟩

/-- C40: the base points; the order is the prime `L`. -/
theorem C40_ed_base_point :
    (∃ B : EdPoint ((aEd25519 : Nat) : ZMod qEd25519) ((dEd25519 : Nat) : ZMod qEd25519), EdDenotes 11 ed25519.B B ∧
      B ≠ 0 ∧ (val ed25519.L).Prime ∧ addOrderOf B = val ed25519.L) ∧
    (∃ B : EdPoint ((aEd448 : Nat) : ZMod qEd448) ((dEd448 : Nat) : ZMod qEd448), EdDenotes 17 ed448.B B ∧
      B ≠ 0 ∧ (val ed448.L).Prime ∧ addOrderOf B = val ed448.L) := by
  constructor
  · obtain ⟨h, ho⟩ := orderEd25519
    have hn : val ed25519.L = LEd25519 := by decide +kernel
    have e1 : val ed25519.B.x = xEd25519 := by decide +kernel
    have e2 : val ed25519.B.y = yEd25519 := by decide +kernel
    have e3 : val ed25519.B.z = 1 := by decide +kernel
    have e4 : val ed25519.B.t ≡ xEd25519 * yEd25519 [MOD qEd25519] := by
      show _ % _ = _ % _; decide +kernel
    have e5 := (ZMod.natCast_eq_natCast_iff _ _ _).mpr e4
    have hne : (⟨_, _, h⟩ : EdPoint ((aEd25519 : Nat) : ZMod qEd25519) ((dEd25519 : Nat) : ZMod qEd25519)) ≠ 0 := by
      intro e
      have h0 := congrArg EdPoint.x e
      rw [EdPoint.zero_x] at h0
      exact (ZMod.natCast_eq_zero_iff _ _).not.mpr (by decide +kernel) h0
    have hp : (val ed25519.L).Prime := by
      rw [hn]
      exact EcPrime.prime_7237005577332262213973186563042994240857116359379907606001950938285454250989
    refine ⟨⟨_, _, h⟩, ⟨⟨rfl, rfl, rfl, rfl⟩, ⟨?_, ?_, ?_, ?_⟩, ?_⟩, hne, hp, ?_⟩
    · decide +kernel
    · decide +kernel
    · decide +kernel
    · decide +kernel
    · rw [e1, e2, e3, e5]
      exact ⟨by simp, by simp, by simp, by rw [Nat.cast_mul, Nat.cast_one, mul_one]⟩
    · haveI : Fact (val ed25519.L).Prime := ⟨hp⟩
      exact addOrderOf_eq_prime (by rw [hn]; exact ho) hne
  · obtain ⟨h, ho⟩ := orderEd448
    have hn : val ed448.L = LEd448 := by decide +kernel
    have e1 : val ed448.B.x = xEd448 := by decide +kernel
    have e2 : val ed448.B.y = yEd448 := by decide +kernel
    have e3 : val ed448.B.z = 1 := by decide +kernel
    have e4 : val ed448.B.t ≡ xEd448 * yEd448 [MOD qEd448] := by
      show _ % _ = _ % _; decide +kernel
    have e5 := (ZMod.natCast_eq_natCast_iff _ _ _).mpr e4
    have hne : (⟨_, _, h⟩ : EdPoint ((aEd448 : Nat) : ZMod qEd448) ((dEd448 : Nat) : ZMod qEd448)) ≠ 0 := by
      intro e
      have h0 := congrArg EdPoint.x e
      rw [EdPoint.zero_x] at h0
      exact (ZMod.natCast_eq_zero_iff _ _).not.mpr (by decide +kernel) h0
    have hp : (val ed448.L).Prime := by
      rw [hn]
      exact EcPrime.prime_181709681073901722637330951972001133588410340171829515070372549795146003961539585716195755291692375963310293709091662304773755859649779
    refine ⟨⟨_, _, h⟩, ⟨⟨rfl, rfl, rfl, rfl⟩, ⟨?_, ?_, ?_, ?_⟩, ?_⟩, hne, hp, ?_⟩
    · decide +kernel
    · decide +kernel
    · decide +kernel
    · decide +kernel
    · rw [e1, e2, e3, e5]
      exact ⟨by simp, by simp, by simp, ((Nat.cast_mul xEd448 yEd448).trans (mul_one _).symm).trans (congrArg _ Nat.cast_one.symm)⟩
    · haveI : Fact (val ed448.L).Prime := ⟨hp⟩
      exact addOrderOf_eq_prime (by rw [hn]; exact ho) hne

/- Non-vacuity: Ed25519 with its base point and the neutral element. -/
example : ∃ (B : EdPoint ((aEd25519 : Nat) : ZMod qEd25519) ((dEd25519 : Nat) : ZMod qEd25519)),
    EdDenotes 11 ed25519.B B ∧ B ≠ 0 ∧
    EdDenotes 11 (xytzInf 11) (0 : EdPoint ((aEd25519 : Nat) : ZMod qEd25519) ((dEd25519 : Nat) : ZMod qEd25519)) := by
  obtain ⟨B, h, h0, -⟩ := C40_ed_base_point.1
  exact ⟨B, h, h0, C40_ed_inf edOkEd25519⟩

end Props
