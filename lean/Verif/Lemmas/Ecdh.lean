import Verif.Lemmas.EcdhAlias

/-! ECDH: secrets, the decoder of ciphertexts. -/

namespace Ecc
open Vlong Ec Spec EcParam

section
variable {C : Curve} {c p : Nat} [hp : Fact p.Prime] {a b : ZMod p} (hC : EccCurve C c p a b)
include hC

/-- The affine coordinate as octets. -/
theorem secret_of {R : Xyz} {X Y : ZMod p} {h : (shortW a b).Nonsingular X Y} (hR : Pt c R (.some X Y h : (shortW a b).Point)) :
    ∃ v, v ≤ p ∧ (v : ZMod p) = X ∧ (X ≠ 0 → v = X.val) ∧
      i2osp (mulM C.aux c (invModP C c R.z) R.x 1) C.plen = beN C.plen v := by
  have hr := affine_x hC hR
  refine ⟨_, by simpa using hr.le, hr.res, fun h0 => val_of_rep hr h0, ?_⟩
  rw [Pkcs1.i2osp_beN]

/-- The root of zero that the second pass of the aliased decoder takes. -/
theorem decodeY_zero (t : Byte) (X : List Byte) (hX : X.length = C.plen) (ht : t = 2#8 ∨ t = 3#8) :
    ∃ y, decodeY C c (t :: X) (List.replicate c 0) = some y ∧ Rep c p 1 y 0 := by
  have h2 := hp.out.two_le
  have hu : Rep c p 1 (List.replicate c 0) (0 : ZMod p) :=
    ⟨by simp, by rw [val_replicate_zero]; omega, by rw [val_replicate_zero]; simp⟩
  obtain ⟨s, hs, rs⟩ := sqrt_rep hC hu
  have h3 := hC.three
  rw [zero_pow (by omega)] at rs
  have h4 : ¬ (t = 4 ∧ (t :: X).length = 1 + C.plen * 2) := by
    rintro ⟨h, -⟩
    rcases ht with h' | h' <;> rw [h'] at h <;> exact absurd h (by decide)
  have h23 : (t = 2 ∨ t = 3) ∧ (t :: X).length = 1 + C.plen := by
    refine ⟨ht, by rw [List.length_cons, hX]; omega⟩
  have hmain : decodeY C c (t :: X) (List.replicate c 0) = if (t &&& 1).setWidth 32 ≠ rd s 0 &&& 1 then
      some (C.aux.modfunc (subv c C.aux.modCtx s)) else some s := by
    unfold decodeY
    rw [show (t :: X).getD 0 0 = t from rfl, if_neg h4, if_pos h23, hs]
  rw [hmain]
  split
  · have hF := hC.fld
    have r4 : Rep c p 1 (subv c C.aux.modCtx s) 0 := by
      have hl : (subv c C.aux.modCtx s).length = c := length_addKernel _ _ _ _ _
      have hle := rs.le
      have hctx := hF.ctx
      have hfit := hF.fit (k := 1) (by norm_num)
      have hv2 : val (subv c C.aux.modCtx s) = p - val s := by
        have := subv_modEq c C.aux.modCtx s
        refine nat_of_modEq hl (this.trans (modEq_of_eq ?_)) (by have := hp.out.pos; omega)
        rw [hctx]; push_cast [show val s ≤ p by omega]; ring
      refine ⟨hl, by omega, ?_⟩
      rw [hv2, Nat.cast_sub (by omega), ZMod.natCast_self, rs.res, sub_zero]
    exact ⟨_, rfl, mod_rep hF r4 (by norm_num)⟩
  · exact ⟨_, rfl, rs⟩

theorem alias_core (hA : AliasOk C c) (enc : List Byte) (hl : 1 + C.plen ≤ enc.length) {k : Nat} (hk : k ≤ 2) {x y : List W}
    {X Y : ZMod p} (hx : os2ip c ((enc.drop 1).take C.plen) = x) (rx : Rep c p 2 x X)
    (hy : decodeY C c enc (curveRhs C c x) = some y) (ry : Rep c p k y Y) :
    pointDecodeAlias C c enc = if Y ^ 2 = X ^ 3 + a * X + b then
      some ((decodeY C c enc (List.replicate c 0)).map fun y => ⟨x, y, cpy c one⟩) else some none := by
  have ht := eqn_test hC rx ry hk
  obtain ⟨h1, h2⟩ := alias_scale hA (nz_c hC)
  unfold pointDecodeAlias
  rw [if_neg (by omega)]
  simp only [hx, hy]
  by_cases he : Y ^ 2 = X ^ 3 + a * X + b
  · rw [if_pos he, if_neg (by rw [not_not]; exact ht.mpr he), if_neg (by rw [nonzero_iff, not_not]; exact h1), h2]
    cases decodeY C c enc (List.replicate c 0) <;> rfl
  · rw [if_neg he, if_pos (fun h => he (ht.mp h))]

theorem alias_unc (hA : AliasOk C c) (X Y : List Byte) (hX : X.length = C.plen) (hY : Y.length = C.plen) :
    pointDecodeAlias C c (4#8 :: (X ++ Y)) =
      if (beNat Y : ZMod p) ^ 2 = (beNat X : ZMod p) ^ 3 + a * (beNat X : ZMod p) + b then
        some (some ⟨os2ip c X, os2ip c Y, cpy c one⟩) else some none := by
  have hx := take_x 4#8 X Y hX
  obtain ⟨rx, -⟩ := os_rep hC X hX
  obtain ⟨ry, -⟩ := os_rep hC Y hY
  rw [alias_core hC hA _ (by simp; omega) le_rfl (by rw [hx]) rx (decodeY_unc hC X Y hX hY _) ry, decodeY_unc hC X Y hX hY]
  rfl

theorem alias_comp (hA : AliasOk C c) (t : Byte) (X : List Byte) (hX : X.length = C.plen) (ht : t = 2#8 ∨ t = 3#8) :
    ∃ y, Rep c p 1 y 0 ∧ pointDecodeAlias C c (t :: X) =
      if IsSquare ((beNat X : ZMod p) ^ 3 + a * (beNat X : ZMod p) + b) then
        some (some ⟨os2ip c X, y, cpy c one⟩) else some none := by
  obtain ⟨rx, -⟩ := os_rep hC X hX
  obtain ⟨y0, h0, r0⟩ := decodeY_zero hC t X hX ht
  have hx : ((t :: X).drop 1).take C.plen = X := by simpa using take_x t X [] hX
  obtain ⟨y, Y, h1, ry, -, hsq⟩ := decodeY_comp hC (curveRhs_rep hC rx) (hC.noTwo _) t X hX (if t = 2#8 then 0 else 1)
    (by rcases ht with rfl | rfl <;> decide)
  refine ⟨y0, r0, ?_⟩
  rw [alias_core hC hA _ (by simp; omega) (k := 1) (by norm_num) (by rw [hx]) rx h1 ry, h0]
  simp only [hsq, Option.map_some]

/-- Scaling a triple `(x, 0, 1)` leads to `z = 0`, whatever the scalar. -/
theorem scale_y0 {x y z : List W} {X : ZMod p} (hx : Rep c p 2 x X) (hy : Rep c p 2 y 0) (hz : Rep c p 2 z 1) (s : List W) :
    s ≠ [] → ∃ w, PRep c p (scaleAccumulate C c (xyzInf c) ⟨x, y, z⟩ s) 0 w 0 := by
  intro hs
  have hsub : ∀ {A B : Xyz} {u v : ZMod p} (i : Nat), PRep c p A 0 u 0 → PRep c p B 0 v 0 →
      ∃ w, PRep c p (xyzSubst A B ((rd s (i / 32) >>> (i % 32)) &&& 1)) 0 w 0 := by
    intro A B u v i hA hB
    rcases xyzSubst_eq ⟨hA.x.len, hA.y.len, hA.z.len⟩ ⟨hB.x.len, hB.y.len, hB.z.len⟩ s i with e | e <;> rw [e]
    · exact ⟨u, hA⟩
    · exact ⟨v, hB⟩
  have hloop : ∀ (k i : Nat) (A T : Xyz) (u v : ZMod p), PRep c p A 0 u 0 → PRep c p T 0 v 0 →
      ∃ w, PRep c p (scaleLoop C c s k i A T) 0 w 0 := by
    intro k
    induction k with
    | zero => intro i A T u v hA _; exact ⟨u, hA⟩
    | succ k ih =>
      intro i A T u v hA hT
      have h1 : PRep c p (pointAdd C c T A) 0 (v * u * (v * u)) 0 :=
        (pointAdd_rep hC.ok hT hA).of_eq (by ring) (by ring) (by ring)
      obtain ⟨w, hw⟩ := hsub i hA h1
      rw [scaleLoop]

      split
      · exact ⟨w, hw⟩
      · exact ih _ _ _ _ _ hw ((pointDbl_rep hC.ok hT).of_eq (y' := 0) (by ring) (by ring) (by ring))
  have hcp : xyzCopy c ⟨x, y, z⟩ = ⟨x, y, z⟩ := by
    unfold xyzCopy; rw [cpy_self hx.len, cpy_self hy.len, cpy_self hz.len]
  obtain ⟨ix, iy, iz, hI, cI⟩ := inf_pt (a := a) (b := b) hC.ok
  obtain ⟨e1, -, e2⟩ : ix = 0 ∧ iy ≠ 0 ∧ iz = 0 := cI
  subst e1 e2
  have hT : PRep2 c p ⟨x, y, z⟩ X 0 1 := ⟨hx, hy, hz⟩
  unfold scaleAccumulate
  rw [hcp]
  obtain ⟨k, hk⟩ : ∃ k, s.length * 32 = k + 2 :=
    ⟨s.length * 32 - 2, by have := List.length_pos_iff.mpr hs; omega⟩
  rw [hk, scaleLoop]

  rw [if_neg (by omega)]
  have h1 : PRep c p (pointAdd C c ⟨x, y, z⟩ (xyzInf c)) 0 0 0 :=
    (pointAdd_rep2 hC.ok hT hI.two).of_eq (by ring) (by ring) (by ring)
  obtain ⟨w, hw⟩ := hsub 0 hI h1
  exact hloop _ _ _ _ _ _ hw ((pointDbl_rep2 hC.ok hT).of_eq rfl rfl rfl |>.of_eq (x' := 0) (z' := 0) (by ring) rfl (by ring))

end

end Ecc
