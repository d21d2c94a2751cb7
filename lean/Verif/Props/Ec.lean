import Verif.Lemmas.EcInst

/-!
# Properties C38, C39, C40, C48: fields and short-Weierstrass curves

The group is Mathlib's group of points of `y² = x³ + a x + b` (`Verif.Spec.Ec`).
-/

namespace Props
open Vlong Spec Ec EcParam

/-- C38: modulo `2^255 - 19`: for every input of every length the result keeps the length, is congruent
to the input and is at most the prime. -/
theorem C38_25519 (l : List W) : (remv25519 l).length = l.length ∧
    val (remv25519 l) ≡ val l [MOD 2 ^ 255 - 19] ∧ val (remv25519 l) ≤ 2 ^ 255 - 19 := by
  have := remv25519_val l
  rwa [val_p25519] at this

/-- C38: modulo `2^448 - 2^224 - 1`. -/
theorem C38_448 (l : List W) : (remv448 l).length = l.length ∧
    val (remv448 l) ≡ val l [MOD 2 ^ 448 - 2 ^ 224 - 1] ∧ val (remv448 l) ≤ 2 ^ 448 - 2 ^ 224 - 1 := by
  have := remv448_val l
  rwa [val_p448] at this

/-- C38: modulo the prime of NIST P-256. -/
theorem C38_secp256r1 (l : List W) : (remv256 l).length = l.length ∧
    val (remv256 l) ≡ val l [MOD 2 ^ 256 - 2 ^ 224 + 2 ^ 192 + 2 ^ 96 - 1] ∧
    val (remv256 l) ≤ 2 ^ 256 - 2 ^ 224 + 2 ^ 192 + 2 ^ 96 - 1 := by
  have := remv256_val l
  rwa [val_p256] at this

/-- C38: modulo the prime of NIST P-384. -/
theorem C38_secp384r1 (l : List W) : (remv384 l).length = l.length ∧
    val (remv384 l) ≡ val l [MOD 2 ^ 384 - 2 ^ 128 - 2 ^ 96 + 2 ^ 32 - 1] ∧
    val (remv384 l) ≤ 2 ^ 384 - 2 ^ 128 - 2 ^ 96 + 2 ^ 32 - 1 := by
  have := remv384_val l
  rwa [val_p384] at this

/-- C38: modulo the prime of the SM2 curve, for inputs below `2^318`. -/
theorem C38_SM2 (l : List W) (h : val l < 2 ^ 318) : (remvSM2 l).length = l.length ∧
    val (remvSM2 l) ≡ val l [MOD 2 ^ 256 - 2 ^ 224 - 2 ^ 96 + 2 ^ 64 - 1] ∧
    val (remvSM2 l) ≤ 2 ^ 256 - 2 ^ 224 - 2 ^ 96 + 2 ^ 64 - 1 := by
  have := remvSM2_val l h
  rwa [val_pSM2] at this

example : ∃ l : List W, l.length = 11 ∧ 2 ^ 317 < val l ∧ val l < 2 ^ 318 :=
  ⟨[1, 0, 0, 0, 0, 0, 0, 0, 0, 0x3fffffff, 0], by decide, by decide +kernel, by decide +kernel⟩

/-- C38: the bound of the SM2 reduction is needed: two folds of the word at `2^288` can leave a carry
there, which no later step removes. -/
theorem C38_SM2_bound_needed : ∃ l : List W, l.length = 11 ∧ val l < 2 ^ 320 ∧
    ¬ val (remvSM2 l) ≤ 2 ^ 256 - 2 ^ 224 - 2 ^ 96 + 2 ^ 64 - 1 :=
  ⟨List.replicate 10 0xffffffff ++ [0], by decide, by decide +kernel, by decide +kernel⟩

/-- C38: none of the reductions is canonical: each returns its prime unchanged rather than zero. -/
theorem C38_prime_not_reduced :
    remv25519 p25519 = p25519 ∧ remv448 p448 = p448 ∧ remv256 p256 = p256 ∧ remv384 p384 = p384 ∧
      remvSM2 pSM2 = pSM2 := by decide +kernel

/-- C39: the three curves are good: prime field, correct reduction and coefficients (`a = -3` and the
standard's `b`), no point of order two. -/
theorem C39_curves : GoodCurve secp256r1 11 q256 (-3) ((b256 : Nat) : ZMod q256) ∧
    GoodCurve secp384r1 15 q384 (-3) ((b384 : Nat) : ZMod q384) ∧
    GoodCurve curveSM2 11 qSM2 (-3) ((bSM2 : Nat) : ZMod qSM2) ∧
    q256 = 2 ^ 256 - 2 ^ 224 + 2 ^ 192 + 2 ^ 96 - 1 ∧ q384 = 2 ^ 384 - 2 ^ 128 - 2 ^ 96 + 2 ^ 32 - 1 ∧
    qSM2 = 2 ^ 256 - 2 ^ 224 - 2 ^ 96 + 2 ^ 64 - 1 :=
  ⟨good256, good384, goodSM2, by decide +kernel, by decide +kernel, by decide +kernel⟩

section
variable {C : Curve} {c p : Nat} [Fact p.Prime] {a b : ZMod p}

/-- C39: point addition: for all pairs of points, including equal, opposite and infinite ones, words
denoting `Q1` and `Q2` are added to words denoting `Q1 + Q2`. -/
theorem C39_add (hC : GoodCurve C c p a b) {P1 P2 : Xyz} {Q1 Q2 : (shortW a b).Point} (h1 : Denotes c P1 Q1)
    (h2 : Denotes c P2 Q2) : Denotes c (pointAdd C c P1 P2) (Q1 + Q2) :=
  denotes_iff.mpr (pointAdd_pt hC.ok hC.two hC.noTwo (denotes_iff.mp h1) (denotes_iff.mp h2))

/-- C39: point doubling, for every point but the one at infinity. -/
theorem C39_dbl (hC : GoodCurve C c p a b) {P : Xyz} {Q : (shortW a b).Point} (h : Denotes c P Q) (h0 : Q ≠ 0) :
    Denotes c (pointDbl C c P) (2 • Q) := by
  rw [two_smul]
  exact denotes_iff.mpr (pointDbl_pt hC.ok hC.two hC.noTwo (denotes_iff.mp h) h0).1

/-- C39: `ecp_xyz_inf` denotes the point at infinity. -/
theorem C39_inf (hC : GoodCurve C c p a b) : Denotes c (xyzInf c) (0 : (shortW a b).Point) :=
  denotes_iff.mpr (inf_pt hC.ok)

/-- C39: doubling is not complete: doubling any words for the point at infinity gives words that denote no
point at all (three zero coordinates). -/
theorem C39_dbl_infinity_invalid (hC : GoodCurve C c p a b) {P : Xyz} (h : Denotes c P (0 : (shortW a b).Point))
    (Q : (shortW a b).Point) : ¬ Denotes c (pointDbl C c P) Q := by
  intro hd
  obtain ⟨x, y, z, r, cc⟩ := denotes_iff.mp h
  obtain ⟨rfl, hy, rfl⟩ : x = 0 ∧ y ≠ 0 ∧ z = 0 := cc
  have r2 := (pointDbl_rep hC.ok r).of_eq (x' := 0) (y' := 0) (z' := 0) (by ring) (by ring) (by ring)
  obtain ⟨x', y', z', r', c'⟩ := denotes_iff.mp hd
  have ex : x' = 0 := by rw [← r'.x.res, r2.x.res]
  have ey : y' = 0 := by rw [← r'.y.res, r2.y.res]
  have ez : z' = 0 := by rw [← r'.z.res, r2.z.res]
  rcases Q with _ | ⟨u, v, hq⟩
  · exact c'.2.1 ey
  · exact c'.1 ez

/-- C40: `scale_accumulate` adds exactly `k` copies of the base point to the accumulator, for every scalar of
every length (base not at infinity). -/
theorem C40_scale (hC : GoodCurve C c p a b) (s : List W) {A B : Xyz} {QA QB : (shortW a b).Point}
    (hA : Denotes c A QA) (hB : Denotes c B QB) (h0 : QB ≠ 0) :
    Denotes c (scaleAccumulate C c A B s) (QA + val s • QB) :=
  denotes_iff.mpr (scaleAccumulate_pt hC.ok hC.two hC.noTwo s (denotes_iff.mp hA) (denotes_iff.mp hB) h0)

theorem scaleLoop_zero (hC : GoodCurve C c p a b) (s : List W) (k i : Nat) (hk : k + i = 32 * s.length)
    {A T : Xyz} {x y z : ZMod p} (hA : PRep c p A x y z) (hT : PRep c p T 0 0 0)
    (h : 1 ≤ val s / 2 ^ i ∨ (x = 0 ∧ y = 0 ∧ z = 0)) : PRep c p (scaleLoop C c s k i A T) 0 0 0 := by
  induction k generalizing i A T x y z with
  | zero =>
    have : val s / 2 ^ i = 0 := by
      apply Nat.div_eq_of_lt
      have := val_lt s
      rwa [show i = 32 * s.length by omega]
    obtain ⟨rfl, rfl, rfl⟩ := h.resolve_left (by omega)
    exact hA
  | succ k ih =>
    unfold scaleLoop
    simp only
    have hadd := (pointAdd_rep hC.ok hT hA).of_eq (x' := 0) (y' := 0) (z' := 0) (by ring) (by ring) (by ring)
    have hsub : xyzSubst A (pointAdd C c T A) ((rd s (i / 32) >>> (i % 32)) &&& 1) =
        if val s / 2 ^ i % 2 = 1 then pointAdd C c T A else A := by
      unfold xyzSubst
      rw [substWords_eq _ _ _ _ (by omega) (scalar_bit s i) (by rw [hA.x.len, hadd.x.len]),
        substWords_eq _ _ _ _ (by omega) (scalar_bit s i) (by rw [hA.y.len, hadd.y.len]),
        substWords_eq _ _ _ _ (by omega) (scalar_bit s i) (by rw [hA.z.len, hadd.z.len])]
      split <;> rfl
    rw [hsub]
    have hd : val s / 2 ^ (i + 1) = val s / 2 ^ i / 2 := by rw [Nat.pow_succ, Nat.div_div_eq_div_mul]
    have hdbl := (pointDbl_rep hC.ok hT).of_eq (x' := 0) (y' := 0) (z' := 0) (by ring) (by ring) (by ring)
    have hlast : k = 0 → val s / 2 ^ (i + 1) = 0 := by
      intro hk0
      apply Nat.div_eq_of_lt
      have := val_lt s
      rwa [show i + 1 = 32 * s.length by omega]
    split
    · rename_i hk0
      split
      · exact hadd
      · have := hlast hk0
        obtain ⟨rfl, rfl, rfl⟩ := h.resolve_left (by omega)
        exact hA
    · split
      · exact ih (i + 1) (by omega) hadd hdbl (Or.inr ⟨rfl, rfl, rfl⟩)
      · refine ih (i + 1) (by omega) hA hdbl ?_
        rcases h with h | h
        · left; omega
        · exact Or.inr h

/-- C40: the base must not be the point at infinity: for every accumulator and every scalar of two or more,
scaling infinity gives words that denote no point. -/
theorem C40_base_infinity_invalid (hC : GoodCurve C c p a b) (s : List W) (hs : 2 ≤ val s) {A B : Xyz}
    {QA : (shortW a b).Point} (hA : Denotes c A QA) (hB : Denotes c B (0 : (shortW a b).Point))
    (Q : (shortW a b).Point) : ¬ Denotes c (scaleAccumulate C c A B s) Q := by
  intro hd
  have hB' := denotes_iff.mp hB
  obtain ⟨x, y, z, r, cc⟩ := hB'
  obtain ⟨rfl, hy, rfl⟩ : x = 0 ∧ y ≠ 0 ∧ z = 0 := cc
  have hA1 := denotes_iff.mp hA
  have hA2 : ∃ x y z, PRep c p (xyzSubst A (pointAdd C c B A) ((rd s (0 / 32) >>> (0 % 32)) &&& 1)) x y z := by
    obtain ⟨x, y, z, r, -⟩ := subst_pt hA1 (pointAdd_pt hC.ok hC.two hC.noTwo (denotes_iff.mp hB) hA1) _ _ (by omega)
      (scalar_bit s 0)
    exact ⟨x, y, z, r⟩
  obtain ⟨x2, y2, z2, r2⟩ := hA2
  have rd' := (pointDbl_rep hC.ok r).of_eq (x' := 0) (y' := 0) (z' := 0) (by ring) (by ring) (by ring)
  have hlen : 1 ≤ s.length := by
    rcases Nat.eq_zero_or_pos s.length with h | h
    · have := val_lt s; rw [h] at this; simp at this; omega
    · exact h
  have key : PRep c p (scaleAccumulate C c A B s) 0 0 0 := by
    unfold scaleAccumulate
    rw [copy_pt (denotes_iff.mp hB)]
    obtain ⟨k, hk⟩ : ∃ k, s.length * 32 = k + 2 := ⟨s.length * 32 - 2, by omega⟩
    rw [hk]
    rw [scaleLoop]
    rw [if_neg (by omega)]
    exact scaleLoop_zero hC s (k + 1) 1 (by omega) r2 rd' (Or.inl (by simp; omega))
  obtain ⟨x', y', z', r', c'⟩ := denotes_iff.mp hd
  rcases Q with _ | ⟨u, v, hq⟩
  · exact c'.2.1 (by rw [← r'.y.res, key.y.res])
  · exact c'.1 (by rw [← r'.z.res, key.z.res])

end

/-- C40: the base point of each of the three curves is a point of prime order `n`: `n·G` is the point at
infinity, `G` is not. -/
theorem C40_base_point :
    (∃ G : (shortW (-3 : ZMod q256) ((b256 : Nat) : ZMod q256)).Point, Denotes 11 secp256r1.G G ∧ G ≠ 0 ∧
      (val secp256r1.n).Prime ∧ addOrderOf G = val secp256r1.n) ∧
    (∃ G : (shortW (-3 : ZMod q384) ((b384 : Nat) : ZMod q384)).Point, Denotes 15 secp384r1.G G ∧ G ≠ 0 ∧
      (val secp384r1.n).Prime ∧ addOrderOf G = val secp384r1.n) ∧
    (∃ G : (shortW (-3 : ZMod qSM2) ((bSM2 : Nat) : ZMod qSM2)).Point, Denotes 11 curveSM2.G G ∧ G ≠ 0 ∧
      (val curveSM2.n).Prime ∧ addOrderOf G = val curveSM2.n) := by
  refine ⟨?_, ?_, ?_⟩
  · obtain ⟨h, ho⟩ := order256
    have hn : val secp256r1.n = n256 := by decide +kernel
    have e1 : val secp256r1.G.x = gx256 := by decide +kernel
    have e2 : val secp256r1.G.y = gy256 := by decide +kernel
    have e3 : val secp256r1.G.z = 1 := by decide +kernel
    rw [hn]
    refine ⟨.some _ _ h, ⟨⟨rfl, rfl, rfl⟩, ⟨?_, ?_, ?_⟩, ?_⟩, WeierstrassCurve.Affine.Point.some_ne_zero _, Fact.out, ?_⟩
    · decide +kernel
    · decide +kernel
    · decide +kernel
    · rw [e1, e2, e3]
      exact ⟨by simp, by simp, by simp⟩
    · exact addOrderOf_eq_prime ho (WeierstrassCurve.Affine.Point.some_ne_zero _)
  · obtain ⟨h, ho⟩ := order384
    have hn : val secp384r1.n = n384 := by decide +kernel
    have e1 : val secp384r1.G.x = gx384 := by decide +kernel
    have e2 : val secp384r1.G.y = gy384 := by decide +kernel
    have e3 : val secp384r1.G.z = 1 := by decide +kernel
    rw [hn]
    refine ⟨.some _ _ h, ⟨⟨rfl, rfl, rfl⟩, ⟨?_, ?_, ?_⟩, ?_⟩, WeierstrassCurve.Affine.Point.some_ne_zero _, Fact.out, ?_⟩
    · decide +kernel
    · decide +kernel
    · decide +kernel
    · rw [e1, e2, e3]
      exact ⟨by simp, by simp, by simp⟩
    · exact addOrderOf_eq_prime ho (WeierstrassCurve.Affine.Point.some_ne_zero _)
  · obtain ⟨h, ho⟩ := orderSM2
    have hn : val curveSM2.n = nSM2 := by decide +kernel
    have e1 : val curveSM2.G.x = gxSM2 := by decide +kernel
    have e2 : val curveSM2.G.y = gySM2 := by decide +kernel
    have e3 : val curveSM2.G.z = 1 := by decide +kernel
    rw [hn]
    refine ⟨.some _ _ h, ⟨⟨rfl, rfl, rfl⟩, ⟨?_, ?_, ?_⟩, ?_⟩, WeierstrassCurve.Affine.Point.some_ne_zero _, Fact.out, ?_⟩
    · decide +kernel
    · decide +kernel
    · decide +kernel
    · rw [e1, e2, e3]
      exact ⟨by simp, by simp, by simp⟩
    · exact addOrderOf_eq_prime ho (WeierstrassCurve.Affine.Point.some_ne_zero _)

/- Non-vacuity of the theorems on any good curve: P-256 with its base point and infinity. -/
example : ∃ (G : (shortW (-3 : ZMod q256) ((b256 : Nat) : ZMod q256)).Point),
    Denotes 11 secp256r1.G G ∧ G ≠ 0 ∧ Denotes 11 (xyzInf 11) (0 : (shortW (-3 : ZMod q256) ((b256 : Nat) : ZMod q256)).Point) := by
  obtain ⟨G, h, h0, -⟩ := C40_base_point.1
  exact ⟨G, h, h0, C39_inf good256⟩

end Props
