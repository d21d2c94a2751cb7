import Verif.Lemmas.EccPoint

/-! Canonical form, encodings of points, private keys. -/

namespace Ecc
open Vlong Ec Spec EcParam

section
variable {C : Curve} {c p : Nat} [hp : Fact p.Prime] {a b : ZMod p} (hC : EccCurve C c p a b)
include hC

/-- A number that is a sound word for `1 / z` times one for `X`. -/
theorem canon_rep {P : Xyz} {Q : (shortW a b).Point} (h : Denotes c P Q) (h0 : Q ≠ 0) :
    Denotes c (canonPubkey C c P) Q ∧ val (canonPubkey C c P).z = 1 := by
  obtain ⟨X, Y, Z, r, cc⟩ := denotes_iff.mp h
  have hF := hC.fld
  have rw' := invP_rep hC r.z
  have ru : Rep c p 1 (mulM C.aux c P.x (invModP C c P.z) 1) (X * Z⁻¹) := mul_rr hF r.x rw' (by norm_num)
  have rv : Rep c p 1 (mulM C.aux c P.y (invModP C c P.z) 1) (Y * Z⁻¹) := mul_rr hF r.y rw' (by norm_num)
  obtain ⟨ro, ho⟩ := one_rep hC
  refine ⟨denotes_iff.mpr ⟨X * Z⁻¹, Y * Z⁻¹, 1, ⟨cpy_rep hF ru, cpy_rep hF rv, ro⟩, ?_⟩, ho⟩
  rcases Q with _ | ⟨x, y, hq⟩
  · exact absurd rfl h0
  · obtain ⟨hz, hx, hy⟩ := cc
    exact ⟨one_ne_zero, by rw [hx]; field_simp, by rw [hy]; field_simp⟩

theorem room_p {l : List W} (h : val l ≤ p) : val l < 256 ^ C.plen := by
  have := hC.plt
  rw [show (256 : Nat) = 2 ^ 8 from rfl, ← pow_mul]; omega

/-- Both encodings of a canonical point encode it. -/
theorem encode_ok {P : Xyz} {Q : (shortW a b).Point} (h : Denotes c P Q) (hz : val P.z = 1) (h0 : Q ≠ 0) (len : Nat)
    (hlen : len = 1 + C.plen * 2 ∨ len = 1 + C.plen) :
    ∃ enc, pointEncode C P len = some enc ∧ enc.length = len ∧ EncodesPoint C.plen enc Q := by
  obtain ⟨-, ⟨hvx, hvy, -⟩, -⟩ := id h
  obtain ⟨X, Y, Z, r, cc⟩ := denotes_iff.mp h
  have hZ : Z = 1 := by rw [← r.z.res, hz, Nat.cast_one]
  subst hZ
  have hpl := hC.plen
  rcases Q with _ | ⟨x, y, hq⟩
  · exact absurd rfl h0
  obtain ⟨-, hx, hy⟩ := cc
  rw [mul_one] at hx hy
  subst hx hy
  have ex := Props.C06_i2osp P.x C.plen
  have ey := Props.C06_i2osp P.y C.plen
  rw [Nat.mod_eq_of_lt (room_p hC hvx)] at ex
  rw [Nat.mod_eq_of_lt (room_p hC hvy)] at ey
  rcases hlen with rfl | rfl
  · refine ⟨_, by unfold pointEncode; rw [if_pos rfl], by simp [ex.1, ey.1]; omega, X, Y, hq, rfl,
      Or.inl ⟨_, _, ex.1, ey.1, rfl, ?_, ?_⟩⟩
    · rw [ex.2, r.x.res]
    · rw [ey.2, r.y.res]
  · have hy0 : Y ≠ 0 := y_ne hC.noTwo hq.1
    have hvY := val_of_rep r.y hy0
    refine ⟨_, by unfold pointEncode; rw [if_neg (by omega), if_pos rfl], by simp [ex.1]; omega, X, Y, hq, rfl,
      Or.inr ⟨_, _, ex.1, rfl, ?_, ?_⟩⟩
    · rw [ex.2, r.x.res]
    · have hb : rd P.y 0 &&& 1 = BitVec.ofNat 32 (Y.val % 2) := by
        have := scalar_bit P.y 0
        rw [← hvY]
        simpa using this
      rw [hb]
      rcases Nat.mod_two_eq_zero_or_one Y.val with h | h
      · left; rw [h]; exact ⟨rfl, rfl⟩
      · right; rw [h]; exact ⟨rfl, rfl⟩

theorem base_ne {G : (shortW a b).Point} (hG : addOrderOf G = val C.n) : G ≠ 0 := by
  rintro rfl
  have := hC.nprime.two_le
  rw [addOrderOf_zero] at hG
  omega

theorem smul_ne {G : (shortW a b).Point} (hG : addOrderOf G = val C.n) {k : Nat} (h1 : 1 ≤ k) (h2 : k < val C.n) :
    k • G ≠ 0 := by
  intro h
  have := Nat.le_of_dvd (by omega) (addOrderOf_dvd_of_nsmul_eq_zero h)
  omega

omit hC in
theorem coords_unique {X Y Z : ZMod p} {Q Q' : (shortW a b).Point} (h : Coords X Y Z Q) (h' : Coords X Y Z Q') : Q = Q' := by
  rcases Q with _ | ⟨x, y, hq⟩ <;> rcases Q' with _ | ⟨x', y', hq'⟩
  · rfl
  · exact absurd h.2.2 h'.1
  · exact absurd h'.2.2 h.1
  · obtain ⟨hz, h1, h2⟩ := h
    obtain ⟨-, h1', h2'⟩ := h'
    have ex : x = x' := mul_right_cancel₀ hz (h1.symm.trans h1')
    have ey : y = y' := mul_right_cancel₀ hz (h2.symm.trans h2')
    subst ex ey; rfl

/-- The words of the base point denote one point, of order `n`. -/
theorem base_order {G : (shortW a b).Point} (hG : Denotes c C.G G) : addOrderOf G = val C.n := by
  obtain ⟨G', h, ho⟩ := hC.base
  have : G' = G := coords_unique h.2.2 hG.2.2
  rw [← this]; exact ho

/-- `k` times the base point, brought to canonical form. -/
theorem pub_of_scalar {G : (shortW a b).Point} (hG : Denotes c C.G G) {d : List W} (h1 : 1 ≤ val d) (h2 : val d < val C.n) :
    Denotes c (canonPubkey C c (scaleAccumulate C c (xyzInf c) C.G d)) (val d • G) ∧
      val (canonPubkey C c (scaleAccumulate C c (xyzInf c) C.G d)).z = 1 := by
  have ho := base_order hC hG
  have h := scaleAccumulate_pt hC.ok hC.two hC.noTwo d (inf_pt hC.ok) (denotes_iff.mp hG) (base_ne hC ho)
  rw [zero_add] at h
  exact canon_rep hC (denotes_iff.mpr h) (smul_ne hC ho h1 h2)

theorem os_val (os : List Byte) (hl : os.length = C.plen) : val (os2ip c os) = beNat os := (os_rep hC os hl).2

theorem gen_spec {rng : Nat → List Byte} (hr : ∀ i, (rng i).length = C.plen) {G : (shortW a b).Point}
    (hG : Denotes c C.G G) : ∀ (fuel i : Nat),
    (∀ d Q, genPrivkey C c rng fuel i = some (d, Q) → ∃ j, i ≤ j ∧ j < i + fuel ∧ d = os2ip c (rng j) ∧
      val d = beNat (rng j) ∧ 1 ≤ val d ∧ val d < val C.n ∧
      (∀ l, i ≤ l → l < j → ¬ (1 ≤ beNat (rng l) ∧ beNat (rng l) < val C.n)) ∧ Denotes c Q (val d • G) ∧ val Q.z = 1) ∧
    (genPrivkey C c rng fuel i = none → ∀ l, i ≤ l → l < i + fuel → ¬ (1 ≤ beNat (rng l) ∧ beNat (rng l) < val C.n)) := by
  intro fuel
  induction fuel with
  | zero =>
    intro i
    exact ⟨fun d Q h => by simp [genPrivkey] at h, fun _ l h1 h2 => by omega⟩
  | succ f ih =>
    intro i
    unfold genPrivkey
    simp only
    rw [candidate_eq hC]
    have hv := os_val hC (rng i) (hr i)
    by_cases hs : scalarOk C (os2ip c (rng i)) = true
    · rw [if_pos hs]
      obtain ⟨s1, s2⟩ := (scalarOk_iff C _).mp hs
      refine ⟨fun d Q h => ?_, fun h => by simp at h⟩
      simp only [Option.some.injEq, Prod.mk.injEq] at h
      obtain ⟨rfl, rfl⟩ := h
      obtain ⟨p1, p2⟩ := pub_of_scalar hC hG s1 s2
      exact ⟨i, le_rfl, by omega, rfl, hv, s1, s2, fun l h1 h2 => by omega, p1, p2⟩
    · rw [if_neg hs]
      have hbad : ¬ (1 ≤ beNat (rng i) ∧ beNat (rng i) < val C.n) := by
        rw [← hv]; exact fun h => hs ((scalarOk_iff C _).mpr h)
      obtain ⟨g1, g2⟩ := ih (i + 1)
      constructor
      · intro d Q h
        obtain ⟨j, j1, j2, j3, j4, j5, j6, j7, j8, j9⟩ := g1 d Q h
        refine ⟨j, by omega, by omega, j3, j4, j5, j6, fun l l1 l2 => ?_, j8, j9⟩
        rcases Nat.eq_or_lt_of_le l1 with rfl | l1
        · exact hbad
        · exact j7 l l1 l2
      · intro h l l1 l2
        rcases Nat.eq_or_lt_of_le l1 with rfl | l1
        · exact hbad
        · exact g2 h l l1 (by omega)

theorem dec_spec {G : (shortW a b).Point} (hG : Denotes c C.G G) (enc : List Byte) :
    (∀ d Q, decPrivkey C c enc = some (d, Q) → enc.length = C.plen ∧ d.length = c ∧ val d = beNat enc ∧ 1 ≤ val d ∧
      val d < val C.n ∧ Denotes c Q (val d • G) ∧ val Q.z = 1) ∧
    (decPrivkey C c enc = none ↔ ¬ (enc.length = C.plen ∧ 1 ≤ beNat enc ∧ beNat enc < val C.n)) := by
  unfold decPrivkey
  by_cases hl : enc.length = C.plen
  · rw [if_neg (by rw [not_not]; exact hl)]
    simp only
    have hv := os_val hC enc hl
    by_cases hs : scalarOk C (os2ip c enc) = true
    · rw [if_pos hs]
      obtain ⟨s1, s2⟩ := (scalarOk_iff C _).mp hs
      refine ⟨fun d Q h => ?_, ?_⟩
      · simp only [Option.some.injEq, Prod.mk.injEq] at h
        obtain ⟨rfl, rfl⟩ := h
        obtain ⟨p1, p2⟩ := pub_of_scalar hC hG s1 s2
        exact ⟨hl, (Props.C06_os2ip c enc).1, hv, s1, s2, p1, p2⟩
      · rw [hv] at s1 s2
        simp [hl, s1, s2]
    · rw [if_neg hs]
      refine ⟨fun d Q h => by simp at h, ?_⟩
      have hs' := fun h => hs ((scalarOk_iff C _).mpr h)
      rw [hv] at hs'
      simp only [true_iff]
      exact fun h => hs' h.2
  · rw [if_pos hl]
    exact ⟨fun d Q h => by simp at h, by simp [hl]⟩

end

end Ecc
