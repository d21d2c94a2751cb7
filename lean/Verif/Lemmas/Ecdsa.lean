import Verif.Model.Ecdsa
import Verif.Spec.Ecdsa
import Verif.Lemmas.EccRe

/-! ECDSA: the scalars and points of signing and verification. -/

namespace Ecc
open Vlong Ec Spec EcParam

section
variable {C : Curve} {c p : Nat} [hp : Fact p.Prime] {a b : ZMod p} (hC : EccCurve C c p a b)
include hC

theorem affine_x {R : Xyz} {X Y : ZMod p} {h : (shortW a b).Nonsingular X Y} (hR : Pt c R (.some X Y h : (shortW a b).Point)) :
    Rep c p 1 (mulM C.aux c (invModP C c R.z) R.x 1) X := by
  obtain ⟨x, y, z, r, cc⟩ := hR
  obtain ⟨hz, hx, hy⟩ : z ≠ 0 ∧ x = X * z ∧ y = Y * z := cc
  have := mul_rr hC.fld (invP_rep hC r.z) r.x (by norm_num)
  rw [hx, show z⁻¹ * (X * z) = X by field_simp] at this
  exact this

theorem mulN_spec {x y : List W} (hx : val x ≤ 2 ^ 7 * val C.n) (hy : y ≠ []) : (mulN C c x y).length = c ∧
    val (mulN C c x y) < val C.n ∧ ((val (mulN C c x y) : Nat) : ZMod (val C.n)) = (val x : ZMod (val C.n)) * (val y : ZMod (val C.n)) := by
  obtain ⟨h1, h2⟩ := mulN_val hC.fldN hy hx
  have e : mulN C c x y = mulM (auxN C) c x y 1 := rfl
  rw [e]
  refine ⟨h1, ?_, ?_⟩
  · rw [h2]; exact Nat.mod_lt _ hC.nprime.pos
  · rw [h2, ZMod.natCast_mod, Nat.cast_mul]

theorem nz_c : 0 < c := by
  by_contra h
  have h1 := hC.fldN.room
  have h2 := hC.nprime.two_le
  rw [show c = 0 by omega] at h1
  simp at h1; omega

theorem n_of_cast {v : Nat} {x : ZMod (val C.n)} (hv : v < val C.n) (h : (v : ZMod (val C.n)) = x) : v = x.val := by
  rw [← h, ZMod.val_natCast, Nat.mod_eq_of_lt hv]

theorem dig_val (os : List Byte) (hl : os.length ≤ C.plen) : (os2ip c os).length = c ∧ val (os2ip c os) = beNat os ∧
    beNat os ≤ 2 * val C.n ∧ beNat os < 2 ^ (8 * C.plen) := by
  have h1 := beNat_lt os
  rw [show (256 : Nat) = 2 ^ 8 from rfl, ← pow_mul] at h1
  have h0 : 2 ^ (8 * os.length) ≤ 2 ^ (8 * C.plen) := Nat.pow_le_pow_right (by norm_num) (by omega)
  have h2 : 2 ^ (8 * C.plen) ≤ 2 ^ (32 * c) := Nat.pow_le_pow_right (by norm_num) hC.room
  have h3 := hC.n2
  refine ⟨(Props.C06_os2ip c os).1, ?_, by omega, by omega⟩
  rw [(Props.C06_os2ip c os).2, Nat.mod_eq_of_lt (by omega)]

omit hC hp in
theorem slen_le (C : Curve) (H : Pkcs1.Hash) : slen C H ≤ C.plen := by
  unfold slen; split <;> omega

omit hC hp in
theorem digest_len (H : Pkcs1.Hash) (m : List Byte) (t : Nat) : (H.digest m t).length = t := by
  simp [Pkcs1.Hash.digest]

theorem n_lt_room : val C.n < 256 ^ C.plen := by
  have h1 := hC.np
  have h2 := hC.plt
  rw [show (256 : Nat) = 2 ^ 8 from rfl, ← pow_mul]; omega

/-- The verification as the code decides it. -/
theorem hmpVerify_iff (H : Pkcs1.Hash) (x : Ctx) {G Q : (shortW a b).Point} (hG : Denotes c C.G G) (hQ : Denotes2 c x.Q Q) (h0 : Q ≠ 0)
    (hr : x.r.length = c) (hs : x.s.length = c) :
    ((hmpVerify C c H x).2 = true ↔ 1 ≤ val x.r ∧ val x.r < val C.n ∧ 1 ≤ val x.s ∧ val x.s < val C.n ∧
      ∃ X Y h, ecdsaPoint (val C.n) G Q (beNat (H.digest x.hmsg (slen C H))) (val x.r) (val x.s) = .some X Y h ∧ X.val = val x.r) ∧
    (hmpVerify C c H x).1.status = (if (hmpVerify C c H x).2 then 1 else -1) ∧
    (hmpVerify C c H x).1.r = x.r ∧ (hmpVerify C c H x).1.s = x.s ∧ (hmpVerify C c H x).1.Q = x.Q := by
  haveI : Fact (val C.n).Prime := ⟨hC.nprime⟩
  have hc := nz_c hC
  unfold hmpVerify
  rw [cmp0, cmp0, cmp0, cmp0, val_one]
  by_cases r2 : val x.r < val C.n
  swap
  · rw [if_pos (fun h => r2 (cmpRes_two.mp h))]
    exact ⟨by simp [r2], by simp, rfl, rfl, rfl⟩
  rw [if_neg (by rw [not_not]; exact cmpRes_two.mpr r2)]
  by_cases s2 : val x.s < val C.n
  swap
  · rw [if_pos (fun h => s2 (cmpRes_two.mp h))]
    exact ⟨by simp [s2], by simp, rfl, rfl, rfl⟩
  rw [if_neg (by rw [not_not]; exact cmpRes_two.mpr s2)]
  by_cases r1 : val x.r < 1
  · rw [if_pos (cmpRes_one.mpr r1)]
    exact ⟨by simp; omega, by simp, rfl, rfl, rfl⟩
  rw [if_neg (fun h => r1 (cmpRes_one.mp h))]
  by_cases s1 : val x.s < 1
  · rw [if_pos (cmpRes_one.mpr s1)]
    exact ⟨by simp; omega, by simp, rfl, rfl, rfl⟩
  rw [if_neg (fun h => s1 (cmpRes_one.mp h))]
  obtain ⟨ew1, ew2, ew3, -⟩ := dig_val hC (H.digest x.hmsg (slen C H)) (by rw [digest_len]; exact slen_le C H)
  have rt := invN_rep hC (l := x.s) (x := (val x.s : ZMod (val C.n))) ⟨hs, by omega, rfl⟩
  have ht0 : invModN C c x.s ≠ [] := by
    intro h; have := rt.len; rw [h] at this; simp at this; omega
  obtain ⟨d1, d2, d3⟩ := mulN_spec hC (x := os2ip c (H.digest x.hmsg (slen C H))) (y := invModN C c x.s) (by rw [ew2]; omega) ht0
  obtain ⟨k1, k2, k3⟩ := mulN_spec hC (x := x.r) (y := invModN C c x.s) (by omega) ht0
  rw [rt.res, ew2] at d3
  rw [rt.res] at k3
  have ho := base_order hC hG
  have hA := scaleAccumulate_ptZ hC.ok hC.zero hC.two hC.noTwo (mulN C c (os2ip c (H.digest x.hmsg (slen C H))) (invModN C c x.s))
    (inf_ptZ hC.ok) (denotes_iff.mp hG).two (base_ne hC ho)
  have hR := scaleAccumulate_ptZ hC.ok hC.zero hC.two hC.noTwo (mulN C c x.r (invModN C c x.s)) hA (denotes2_iff.mp hQ) h0
  rw [zero_add, n_of_cast hC d2 d3, n_of_cast hC k2 k3] at hR
  have hsave : os2ip c (i2osp x.r C.plen) = x.r := by
    have := (Props.C06_os2ip_i2osp x.r C.plen (lt_trans r2 (n_lt_room hC))).1
    rwa [hr] at this
  simp only [hsave]
  generalize hRR : scaleAccumulate C c (scaleAccumulate C c (xyzInf c) C.G (mulN C c (os2ip c (H.digest x.hmsg (slen C H))) (invModN C c x.s)))
    x.Q (mulN C c x.r (invModN C c x.s)) = R at hR ⊢
  have hz := ptZ_iff hR
  change PtZ c R (ecdsaPoint (val C.n) G Q (beNat (H.digest x.hmsg (slen C H))) (val x.r) (val x.s)) at hR
  change val R.z = 0 ↔ ecdsaPoint (val C.n) G Q (beNat (H.digest x.hmsg (slen C H))) (val x.r) (val x.s) = 0 at hz
  generalize ecdsaPoint (val C.n) G Q (beNat (H.digest x.hmsg (slen C H))) (val x.r) (val x.s) = T at hR hz ⊢
  have hpn := hC.np
  rcases T with _ | ⟨X, Y, hns⟩
  · have hzero : val R.z = 0 := hz.mpr rfl
    rw [if_pos (by rw [(nonzero_false _).mpr hzero]; rfl)]
    refine ⟨?_, by simp, rfl, rfl, rfl⟩
    simp only [Bool.false_eq_true, false_iff]
    rintro ⟨-, -, -, -, X, Y, h, he, -⟩
    exact absurd he (by simp)
  · have hnz : val R.z ≠ 0 := fun h => absurd (hz.mp h) (WeierstrassCurve.Affine.Point.some_ne_zero _)
    rw [if_neg (by rw [(nonzero_iff _).mpr hnz]; simp)]
    have rx := affine_x hC hR.1
    have hval : cmpvShifted (mulM C.aux c (invModP C c R.z) R.x 1) x.r 0 = 0 ↔ X.val = val x.r := by
      rw [cmp0, cmpRes_zero]
      by_cases hX : X = 0
      · have hle := rx.le
        have hres := rx.res
        rw [hX, ZMod.natCast_eq_zero_iff] at hres
        subst hX
        rw [ZMod.val_zero]
        constructor
        · intro h
          rw [h] at hres
          exact absurd (Nat.le_of_dvd (by omega) hres) (by omega)
        · intro h; omega
      · rw [val_of_rep rx hX]
    by_cases he : X.val = val x.r
    · rw [if_neg (by rw [not_not]; exact hval.mpr he)]
      refine ⟨?_, by simp, rfl, rfl, rfl⟩
      simp only [true_iff]
      exact ⟨by omega, r2, by omega, s2, X, Y, hns, rfl, he⟩
    · rw [if_pos (fun h => he (hval.mp h))]
      refine ⟨?_, by simp, rfl, rfl, rfl⟩
      simp only [Bool.false_eq_true, false_iff]
      rintro ⟨-, -, -, -, X', Y', h', he', hX'⟩
      obtain ⟨rfl, -⟩ := WeierstrassCurve.Affine.Point.some.inj he'
      exact he hX'

/-- What one attempt of the signing loop computes. -/
theorem signAttempt_spec (H : Pkcs1.Hash) (msg : List Byte) {G : (shortW a b).Point} (hG : Denotes c C.G G) {d k : List W}
    (hd : d.length = c) (hk : k.length = c) (hk1 : 1 ≤ val k) (hk2 : val k < val C.n) :
    ∃ X Y h, val k • G = .some X Y h ∧
      (∀ R r s, signAttempt C c H msg d k = some (R, r, s) → r.length = c ∧ s.length = c ∧ val r ≤ p ∧ (val r : ZMod p) = X ∧
        1 ≤ val s ∧ val s < val C.n ∧
        (val s : ZMod (val C.n)) = (val k : ZMod (val C.n))⁻¹ * ((beNat (H.digest msg (slen C H)) : ZMod (val C.n)) + (val r : ZMod (val C.n)) * (val d : ZMod (val C.n)))) ∧
      (signAttempt C c H msg d k = none → X = 0 ∨
        (beNat (H.digest msg (slen C H)) : ZMod (val C.n)) + (X.val : ZMod (val C.n)) * (val d : ZMod (val C.n)) = 0) := by
  haveI : Fact (val C.n).Prime := ⟨hC.nprime⟩
  have hc := nz_c hC
  have ho := base_order hC hG
  have hR := scaleAccumulate_pt hC.ok hC.two hC.noTwo k (inf_pt hC.ok) (denotes_iff.mp hG) (base_ne hC ho)
  rw [zero_add] at hR
  have hne := smul_ne hC ho hk1 hk2
  cases hT : (val k • G) with
  | zero => exact absurd hT hne
  | some X Y h =>
  refine ⟨X, Y, h, rfl, ?_⟩
  rw [hT] at hR
  generalize hRR : scaleAccumulate C c (xyzInf c) C.G k = R at hR
  have rr := affine_x hC hR
  have hd0 : d ≠ [] := by intro h; rw [h] at hd; simp at hd; omega
  obtain ⟨ev1, ev2, ev3, ev4⟩ := dig_val hC (H.digest msg (slen C H)) (by rw [digest_len]; exact slen_le C H)
  have hp2n : p ≤ 2 * val C.n := by have h1 := hC.plt; have h2 := hC.n2; omega
  obtain ⟨u1, u2, u3⟩ := mulN_spec hC (x := mulM C.aux c (invModP C c R.z) R.x 1) (y := d) (by have := rr.le; omega) hd0
  have hroom : 3 * val C.n ≤ 2 ^ (32 * c) := le_trans (by omega) hC.nroom
  have hadd : val (addv c (mulN C c (mulM C.aux c (invModP C c R.z) R.x 1) d) (os2ip c (H.digest msg (slen C H)))) =
      val (mulN C c (mulM C.aux c (invModP C c R.z) R.x 1) d) + beNat (H.digest msg (slen C H)) := by
    refine nat_of_modEq (length_addKernel _ _ _ _ _) ((addv_modEq _ _ _).trans (modEq_of_eq ?_)) (by omega)
    rw [ev2]; push_cast; ring
  have hal : (addv c (mulN C c (mulM C.aux c (invModP C c R.z) R.x 1) d) (os2ip c (H.digest msg (slen C H)))).length = c :=
    length_addKernel _ _ _ _ _
  obtain ⟨w1, w2⟩ := auxN_val (C := C) (l := addv c (mulN C c (mulM C.aux c (invModP C c R.z) R.x 1) d) (os2ip c (H.digest msg (slen C H))))
    (by rw [hal]; exact hC.nlen)
  rw [hal] at w1
  have hw3 : ((val (redN C (addv c (mulN C c (mulM C.aux c (invModP C c R.z) R.x 1) d) (os2ip c (H.digest msg (slen C H))))) : Nat) : ZMod (val C.n)) =
      (beNat (H.digest msg (slen C H)) : ZMod (val C.n)) + (val (mulM C.aux c (invModP C c R.z) R.x 1) : ZMod (val C.n)) * (val d : ZMod (val C.n)) := by
    change (((val ((auxN C).modfunc _) : Nat) : ZMod (val C.n))) = _
    rw [w2, ZMod.natCast_mod, hadd, Nat.cast_add, u3]; ring
  have rt := invN_rep hC (l := k) (x := (val k : ZMod (val C.n))) ⟨hk, by omega, rfl⟩
  have hwl : redN C (addv c (mulN C c (mulM C.aux c (invModP C c R.z) R.x 1) d) (os2ip c (H.digest msg (slen C H)))) ≠ [] := by
    intro h
    change (auxN C).modfunc _ = [] at h
    rw [h] at w1; simp at w1; omega
  obtain ⟨s1, s2, s3⟩ := mulN_spec hC (x := invModN C c k) (y := redN C (addv c (mulN C c (mulM C.aux c (invModP C c R.z) R.x 1) d) (os2ip c (H.digest msg (slen C H)))))
    (by have := rt.le; omega) hwl
  rw [rt.res, hw3] at s3
  unfold signAttempt
  simp only [hRR]
  have hkz : (val k : ZMod (val C.n))⁻¹ ≠ 0 := by
    apply inv_ne_zero
    rw [Ne, ZMod.natCast_eq_zero_iff]
    intro h
    exact absurd (Nat.le_of_dvd (by omega) h) (by omega)
  by_cases hx : nonzero R.x = true
  · rw [if_pos hx]
    by_cases hs : nonzero (mulN C c (invModN C c k) (redN C (addv c (mulN C c (mulM C.aux c (invModP C c R.z) R.x 1) d) (os2ip c (H.digest msg (slen C H)))))) = true
    · rw [if_pos hs]
      refine ⟨?_, fun h => by simp at h⟩
      intro R' r s he
      simp only [Option.some.injEq, Prod.mk.injEq] at he
      obtain ⟨-, rfl, rfl⟩ := he
      have := (nonzero_iff _).mp hs
      exact ⟨rr.len, s1, by have := rr.le; omega, rr.res, by omega, s2, s3⟩
    · rw [if_neg hs]
      refine ⟨fun R' r s he => by simp at he, fun _ => ?_⟩
      by_cases hX : X = 0
      · exact Or.inl hX
      right
      have hz := (nonzero_false _).mp (Bool.eq_false_iff.mpr hs)
      rw [hz, Nat.cast_zero] at s3
      rw [val_of_rep rr hX] at s3
      rcases mul_eq_zero.mp s3.symm with h | h
      · exact absurd h hkz
      · exact h
  · rw [if_neg hx]
    refine ⟨fun R' r s he => by simp at he, fun _ => Or.inl ?_⟩
    have hz := (nonzero_false _).mp (Bool.eq_false_iff.mpr hx)
    obtain ⟨x', y', z', r', cc⟩ := hR
    obtain ⟨hz', hx', -⟩ : z' ≠ 0 ∧ x' = X * z' ∧ y' = Y * z' := cc
    have hres := r'.x.res
    rw [hz, Nat.cast_zero, hx'] at hres
    rcases mul_eq_zero.mp hres.symm with h | h
    · exact h
    · exact absurd h hz'

end

end Ecc
