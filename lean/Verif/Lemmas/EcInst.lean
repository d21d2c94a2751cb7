import Verif.Lemmas.EcScale
import Verif.Lemmas.EcParams

/-! The five fields and the three curve contexts satisfy what the point arithmetic needs. -/

namespace Ec
open Vlong Spec EcParam

theorem fieldOk256 : FieldOk aux256 11 q256 where
  ctx := by decide +kernel
  len := by decide
  red := by
    have h : val p256 = q256 := by decide +kernel
    rw [← h]; exact redOk256 _ _
  room := by decide +kernel
  two := by decide +kernel

theorem fieldOk384 : FieldOk aux384 15 q384 where
  ctx := by decide +kernel
  len := by decide
  red := by
    have h : val p384 = q384 := by decide +kernel
    rw [← h]; exact redOk384 _ _
  room := by decide +kernel
  two := by decide +kernel

theorem fieldOkSM2 : FieldOk auxSM2 11 qSM2 where
  ctx := by decide +kernel
  len := by decide
  red := by
    have h : val pSM2 = qSM2 := by decide +kernel
    rw [← h]; exact redOkSM2 _ _ (by decide +kernel)
  room := by decide +kernel
  two := by decide +kernel

theorem fieldOk25519 : FieldOk aux25519 11 (val p25519) where
  ctx := rfl
  len := by decide
  red := redOk25519 _ _
  room := by decide +kernel
  two := by decide +kernel

theorem fieldOk448 : FieldOk aux448 17 (val p448) where
  ctx := rfl
  len := by decide
  red := redOk448 _ _
  room := by decide +kernel
  two := by decide +kernel

theorem curveOk256 : CurveOk secp256r1 11 q256 (-3) ((b256 : Nat) : ZMod q256) where
  fld := fieldOk256
  ca := by
    have : secp256r1.a.toInt = -3 := by decide +kernel
    rw [this]; push_cast; rfl
  cb := by
    have : val secp256r1.b = b256 := by decide +kernel
    rw [this]
  ble := by decide +kernel
  bne := by decide

theorem curveOk384 : CurveOk secp384r1 15 q384 (-3) ((b384 : Nat) : ZMod q384) where
  fld := fieldOk384
  ca := by
    have : secp384r1.a.toInt = -3 := by decide +kernel
    rw [this]; push_cast; rfl
  cb := by
    have : val secp384r1.b = b384 := by decide +kernel
    rw [this]
  ble := by decide +kernel
  bne := by decide

theorem curveOkSM2 : CurveOk curveSM2 11 qSM2 (-3) ((bSM2 : Nat) : ZMod qSM2) where
  fld := fieldOkSM2
  ca := by
    have : curveSM2.a.toInt = -3 := by decide +kernel
    rw [this]; push_cast; rfl
  cb := by
    have : val curveSM2.b = bSM2 := by decide +kernel
    rw [this]
  ble := by decide +kernel
  bne := by decide

/-- A curve context with `c`-word numbers over the prime field of `p` elements: its reduction and its
coefficients are right, and the curve `y² = x³ + a x + b` has no point of order two. -/
structure GoodCurve (C : Curve) (c p : Nat) (a b : ZMod p) [Fact p.Prime] : Prop where
  ok : CurveOk C c p a b
  two : (2 : ZMod p) ≠ 0
  noTwo : NoTwoTorsion a b

theorem good256 : GoodCurve secp256r1 11 q256 (-3) ((b256 : Nat) : ZMod q256) := ⟨curveOk256, two256, noTwo256⟩
theorem good384 : GoodCurve secp384r1 15 q384 (-3) ((b384 : Nat) : ZMod q384) := ⟨curveOk384, two384, noTwo384⟩
theorem goodSM2 : GoodCurve curveSM2 11 qSM2 (-3) ((bSM2 : Nat) : ZMod qSM2) := ⟨curveOkSM2, twoSM2, noTwoSM2⟩

/-- The words `P` (each coordinate `c` words long with a value of at most `p`) are homogeneous
coordinates of the point `Q`. -/
def Denotes (c : Nat) {p : Nat} [Fact p.Prime] {a b : ZMod p} (P : Xyz) (Q : (shortW a b).Point) : Prop :=
  (P.x.length = c ∧ P.y.length = c ∧ P.z.length = c) ∧ (val P.x ≤ p ∧ val P.y ≤ p ∧ val P.z ≤ p) ∧
    Coords (val P.x : ZMod p) (val P.y : ZMod p) (val P.z : ZMod p) Q

theorem denotes_iff {c p : Nat} [Fact p.Prime] {a b : ZMod p} {P : Xyz} {Q : (shortW a b).Point} :
    Denotes c P Q ↔ Pt c P Q := by
  constructor
  · rintro ⟨⟨l1, l2, l3⟩, ⟨v1, v2, v3⟩, h⟩
    exact ⟨_, _, _, ⟨⟨l1, by omega, rfl⟩, ⟨l2, by omega, rfl⟩, ⟨l3, by omega, rfl⟩⟩, h⟩
  · rintro ⟨x, y, z, ⟨hx, hy, hz⟩, h⟩
    refine ⟨⟨hx.len, hy.len, hz.len⟩, ⟨?_, ?_, ?_⟩, ?_⟩
    · simpa using hx.le
    · simpa using hy.le
    · simpa using hz.le
    · rw [hx.res, hy.res, hz.res]; exact h

end Ec
