import Verif.Lemmas.Ecc
import Verif.Spec.Ecc

/-! The point codec. -/

namespace Ecc
open Vlong Ec Spec EcParam

/-- `Denotes` with coordinates of up to twice the prime. -/
def Denotes2 (c : Nat) {p : Nat} [Fact p.Prime] {a b : ZMod p} (P : Xyz) (Q : (shortW a b).Point) : Prop :=
  (P.x.length = c ∧ P.y.length = c ∧ P.z.length = c) ∧ (val P.x ≤ 2 * p ∧ val P.y ≤ 2 * p ∧ val P.z ≤ 2 * p) ∧
    Coords (val P.x : ZMod p) (val P.y : ZMod p) (val P.z : ZMod p) Q

theorem denotes2_iff {c p : Nat} [Fact p.Prime] {a b : ZMod p} {P : Xyz} {Q : (shortW a b).Point} :
    Denotes2 c P Q ↔ Pt2 c P Q := by
  constructor
  · rintro ⟨⟨l1, l2, l3⟩, ⟨v1, v2, v3⟩, h⟩
    exact ⟨_, _, _, ⟨⟨l1, by omega, rfl⟩, ⟨l2, by omega, rfl⟩, ⟨l3, by omega, rfl⟩⟩, h⟩
  · rintro ⟨x, y, z, ⟨hx, hy, hz⟩, h⟩
    refine ⟨⟨hx.len, hy.len, hz.len⟩, ⟨hx.le, hy.le, hz.le⟩, ?_⟩
    · rw [hx.res, hy.res, hz.res]; exact h

theorem Denotes2.of {c p : Nat} [Fact p.Prime] {a b : ZMod p} {P : Xyz} {Q : (shortW a b).Point}
    (h : Denotes c P Q) : Denotes2 c P Q := denotes2_iff.mpr (denotes_iff.mp h).two

section
variable {c p : Nat} [hp : Fact p.Prime] {a b : ZMod p}

theorem val_ne_of_res {k : Nat} {l : List W} {x : ZMod p} (h : Rep c p k l x) (hx : x ≠ 0) : val l ≠ 0 := by
  intro h0
  apply hx
  rw [← h.res, h0, Nat.cast_zero]

theorem val_of_rep {l : List W} {x : ZMod p} (h : Rep c p 1 l x) (hx : x ≠ 0) : val l = x.val := by
  have h1 := h.le
  have hlt : val l < p := by
    rcases Nat.lt_or_ge (val l) p with h2 | h2
    · exact h2
    · exfalso
      have e : val l = p := by omega
      apply hx
      rw [← h.res, e, ZMod.natCast_self]
  rw [← h.res, ZMod.val_natCast, Nat.mod_eq_of_lt hlt]

theorem ptZ_iff {P : Xyz} {Q : (shortW a b).Point} (h : PtZ c P Q) : val P.z = 0 ↔ Q = 0 := by
  refine ⟨fun h0 => ?_, h.2⟩
  obtain ⟨⟨x, y, z, r, cc⟩, -⟩ := h
  rcases Q with _ | ⟨u, v, hq⟩
  · rfl
  · exfalso; exact cc.1 (by rw [← r.z.res, h0, Nat.cast_zero])

theorem neg_val (h2 : p % 2 = 1) {x : ZMod p} (hx : x ≠ 0) : (-x).val % 2 = 1 - x.val % 2 := by
  have := ZMod.neg_val x
  rw [if_neg hx] at this
  have h3 := x.val_lt
  omega

theorem parity_eq (h2 : p % 2 = 1) {x y : ZMod p} (hx : x ≠ 0) (he : x ^ 2 = y ^ 2) (hpar : x.val % 2 = y.val % 2) : x = y := by
  rcases sq_eq_sq_iff_eq_or_eq_neg.mp he with h | h
  · exact h
  · exfalso
    have hy : y ≠ 0 := by rintro rfl; apply hx; simpa using h
    have := neg_val h2 hy
    rw [← h] at this
    have := y.val.mod_two_eq_zero_or_one
    omega
end

section
variable {C : Curve} {c p : Nat} [hp : Fact p.Prime] {a b : ZMod p} (hC : EccCurve C c p a b)
include hC

/-- The test of the curve equation is exact: it compares words, and a non-zero residue has only one. -/
theorem eqn_test {k : Nat} {x y : List W} {X Y : ZMod p} (hx : Rep c p 2 x X) (hy : Rep c p k y Y) (hk : k ≤ 2) :
    cmpvShifted (mulM C.aux c y y 1) (curveRhs C c x) 0 = 0 ↔ Y ^ 2 = X ^ 3 + a * X + b := by
  have r1 := curveRhs_rep hC hx
  have r2 : Rep c p 1 (mulM C.aux c y y 1) (Y * Y) := mul_rr hC.fld hy hy (by omega)
  rw [cmp0, cmpRes_zero]
  constructor
  · intro h
    rw [← r1.res, ← h, r2.res]; ring
  · intro h
    have hne := hC.noTwo X
    exact rep_unique hC.fld (r2.of_eq (by rw [← h]; ring)) r1 (val_ne_of_res r2 (by rw [← pow_two, h]; exact hne))
      (val_ne_of_res r1 hne)

theorem podd : p % 2 = 1 := by have := hC.p4; omega

/-- The square root with the requested parity. -/
theorem decodeY_comp {u : List W} {U : ZMod p} (hu : Rep c p 1 u U) (hU : U ≠ 0) (t : Byte) (X : List Byte)
    (hX : X.length = C.plen) (bit : Nat) (ht : t = 2#8 ∧ bit = 0 ∨ t = 3#8 ∧ bit = 1) :
    ∃ y Y, decodeY C c (t :: X) u = some y ∧ Rep c p 1 y Y ∧ Y.val % 2 = bit ∧ (Y ^ 2 = U ↔ IsSquare U) := by
  obtain ⟨s, hs, rs⟩ := sqrt_rep hC hu
  have hS : U ^ ((p + 1) / 4) ≠ 0 := pow_ne_zero _ hU
  have hsq : (U ^ ((p + 1) / 4)) ^ 2 = U ↔ IsSquare U := by
    constructor
    · intro h; exact ⟨_, by rw [← pow_two]; exact h.symm⟩
    · rintro ⟨r, h⟩; exact sqrt_sq hC.p4 (y := r) (by rw [h]; ring)
  generalize U ^ ((p + 1) / 4) = S at *
  have hv := val_of_rep rs hS
  have htag : (t :: X).getD 0 0 = t := rfl
  have h4 : ¬ (t = 4 ∧ (t :: X).length = 1 + C.plen * 2) := by
    rintro ⟨h, -⟩
    rcases ht with ⟨h', -⟩ | ⟨h', -⟩ <;> rw [h'] at h <;> exact absurd h (by decide)
  have h23 : (t = 2 ∨ t = 3) ∧ (t :: X).length = 1 + C.plen := by
    refine ⟨ht.imp (·.1) (·.1), by rw [List.length_cons, hX]; omega⟩
  have hmain : decodeY C c (t :: X) u = if (t &&& 1).setWidth 32 ≠ rd s 0 &&& 1 then
      some (C.aux.modfunc (subv c C.aux.modCtx s)) else some s := by
    unfold decodeY
    rw [htag, if_neg h4, if_pos h23, hs]
  have hb : rd s 0 &&& 1 = BitVec.ofNat 32 (S.val % 2) := by
    have := scalar_bit s 0
    rw [← hv]
    simpa using this
  have ht1 : (t &&& 1).setWidth 32 = BitVec.ofNat 32 bit := by
    rcases ht with ⟨rfl, rfl⟩ | ⟨rfl, rfl⟩ <;> rfl
  have hbit : bit < 2 := by rcases ht with ⟨-, rfl⟩ | ⟨-, rfl⟩ <;> decide
  rw [hmain, ht1, hb]
  by_cases hpar : bit = S.val % 2
  · rw [if_neg (by rw [not_not, hpar])]
    exact ⟨s, S, rfl, rs, hpar.symm, hsq⟩
  · have hne : BitVec.ofNat 32 bit ≠ BitVec.ofNat 32 (S.val % 2) := by
      intro h
      apply hpar
      have := congrArg BitVec.toNat h
      rw [BitVec.toNat_ofNat, BitVec.toNat_ofNat, Nat.mod_eq_of_lt (by omega), Nat.mod_eq_of_lt (by omega)] at this
      exact this
    rw [if_pos hne]
    have hF := hC.fld
    have r4 : Rep c p 1 (subv c C.aux.modCtx s) (-S) := by
      have hl : (subv c C.aux.modCtx s).length = c := length_addKernel _ _ _ _ _
      have hle := rs.le
      have hctx := hF.ctx
      have hfit := hF.fit (k := 1) (by norm_num)
      have hv2 : val (subv c C.aux.modCtx s) = p - val s := by
        have := subv_modEq c C.aux.modCtx s
        refine nat_of_modEq hl (this.trans (modEq_of_eq ?_)) (by have := hp.out.pos; omega)
        rw [hctx]; push_cast [show val s ≤ p by omega]; ring
      refine ⟨hl, by omega, ?_⟩
      rw [hv2, Nat.cast_sub (by omega), ZMod.natCast_self, rs.res, zero_sub]
    refine ⟨_, -S, rfl, mod_rep hF r4 (by norm_num), ?_, by rw [neg_sq]; exact hsq⟩
    have := neg_val (podd hC) hS
    have := S.val.mod_two_eq_zero_or_one
    omega

theorem coords_some {P : Xyz} {X Y : ZMod p} (h : (shortW a b).Nonsingular X Y) {k : Nat} (hk : k ≤ 2) {x y : List W}
    (hx : Rep c p 2 x X) (hy : Rep c p k y Y) :
    Pt2 c ⟨x, y, cpy c one⟩ (.some X Y h : (shortW a b).Point) :=
  ⟨X, Y, 1, ⟨hx, hy.mono hk, (one_rep hC).1.mono (by norm_num)⟩, one_ne_zero, by ring, by ring⟩

theorem decode_core (enc : List Byte) (hl : 1 + C.plen ≤ enc.length) {k : Nat} (hk : k ≤ 2) {x y : List W} {X Y : ZMod p}
    (hx : os2ip c ((enc.drop 1).take C.plen) = x) (rx : Rep c p 2 x X)
    (hy : decodeY C c enc (curveRhs C c x) = some y) (ry : Rep c p k y Y) :
    (Y ^ 2 ≠ X ^ 3 + a * X + b → pointDecode C c enc = some none) ∧
    (∀ h : (shortW a b).Nonsingular X Y,
      (val C.n • (.some X Y h : (shortW a b).Point) = 0 → pointDecode C c enc = some (some ⟨x, y, cpy c one⟩)) ∧
      (val C.n • (.some X Y h : (shortW a b).Point) ≠ 0 → pointDecode C c enc = some none)) := by
  have ht := eqn_test hC rx ry hk
  unfold pointDecode
  rw [if_neg (by omega)]
  simp only [hx, hy]
  constructor
  · intro h
    rw [if_pos (fun h' => h (ht.mp h'))]
  · intro h
    have he : Y ^ 2 = X ^ 3 + a * X + b := (eqn_iff X Y).mp h.1
    rw [if_neg (by rw [not_not]; exact ht.mpr he)]
    have hP := coords_some hC (P := ⟨x, y, cpy c one⟩) h hk rx ry
    have hz := scaleAccumulate_ptZ hC.ok hC.zero hC.two hC.noTwo C.n (inf_ptZ hC.ok) hP
      (WeierstrassCurve.Affine.Point.some_ne_zero _)
    rw [zero_add] at hz
    have hzz := ptZ_iff hz
    constructor
    · intro h0
      rw [if_neg (by rw [nonzero_iff, not_not]; exact hzz.mpr h0)]
    · intro h0
      rw [if_pos (by rw [nonzero_iff]; exact fun h => h0 (hzz.mp h))]

theorem decodeY_unc (X Y : List Byte) (hX : X.length = C.plen) (hY : Y.length = C.plen) (u : List W) :
    decodeY C c (4#8 :: (X ++ Y)) u = some (os2ip c Y) := by
  unfold decodeY
  rw [if_pos ⟨rfl, by simp [hX, hY]; omega⟩]
  congr 2
  rw [show 1 + C.plen = C.plen + 1 by omega, List.drop_succ_cons, ← hX, List.drop_left, hX, ← hY, List.take_length]

omit hC in
/-- The three shapes of an encoding that are not rejected right away. -/
theorem decodeY_shape {enc : List Byte} (hl : 1 + C.plen ≤ enc.length) {u y : List W} (h : decodeY C c enc u = some y) :
    (∃ X Y, X.length = C.plen ∧ Y.length = C.plen ∧ enc = 4#8 :: (X ++ Y)) ∨
    (∃ t X, (t = 2#8 ∨ t = 3#8) ∧ X.length = C.plen ∧ enc = t :: X) := by
  rcases enc with _ | ⟨t, r⟩
  · simp at hl
  unfold decodeY at h
  simp only [List.getD_cons_zero] at h
  split at h
  · rename_i h1
    left
    have hr : r.length = 2 * C.plen := by have := h1.2; simp at this; omega
    refine ⟨r.take C.plen, r.drop C.plen, by simp; omega, by simp; omega, ?_⟩
    rw [List.take_append_drop]
    rw [h1.1]; rfl
  · split at h
    · rename_i h1
      right
      exact ⟨t, r, h1.1, by have := h1.2; simp at this; omega, rfl⟩
    · simp at h

omit hC in
theorem take_x (t : Byte) (X Y : List Byte) (hX : X.length = C.plen) :
    ((t :: (X ++ Y)).drop 1).take C.plen = X := by
  rw [List.drop_one, List.tail_cons, ← hX, List.take_left]

/-- What an accepted encoding means. -/
theorem decode_sound {enc : List Byte} {P : Xyz} (h : pointDecode C c enc = some (some P)) :
    ∃ Q : (shortW a b).Point, EncodesPoint C.plen enc Q ∧ val C.n • Q = 0 ∧ Denotes2 c P Q ∧ val P.z = 1 := by
  have hl : 1 + C.plen ≤ enc.length := by
    by_contra hl
    unfold pointDecode at h
    rw [if_pos (by omega)] at h
    exact absurd h (by simp)
  have hy : ∃ y, decodeY C c enc (curveRhs C c (os2ip c ((enc.drop 1).take C.plen))) = some y := by
    unfold pointDecode at h
    rw [if_neg (by omega)] at h
    simp only at h
    cases hd : decodeY C c enc (curveRhs C c (os2ip c ((enc.drop 1).take C.plen))) with
    | none => rw [hd] at h; simp at h
    | some y => exact ⟨y, rfl⟩
  obtain ⟨y, hy⟩ := hy
  rcases decodeY_shape hl hy with ⟨X, Y, hX, hY, rfl⟩ | ⟨t, X, ht, hX, rfl⟩
  · have hx := take_x 4#8 X Y hX
    rw [hx] at hy
    obtain ⟨rx, -⟩ := os_rep hC X hX
    obtain ⟨ry, -⟩ := os_rep hC Y hY
    have hy' := decodeY_unc hC X Y hX hY (curveRhs C c (os2ip c X))
    obtain ⟨g1, g2⟩ := decode_core hC _ hl le_rfl (by rw [hx]) rx hy' ry
    by_cases he : (beNat Y : ZMod p) ^ 2 = (beNat X : ZMod p) ^ 3 + a * (beNat X : ZMod p) + b
    · have hns := EcCheck.nonsingular_of_eq hC.two hC.noTwo he
      obtain ⟨g3, g4⟩ := g2 hns
      by_cases hn : val C.n • (.some _ _ hns : (shortW a b).Point) = 0
      · rw [g3 hn] at h
        simp only [Option.some.injEq] at h
        subst h
        exact ⟨.some _ _ hns, ⟨_, _, hns, rfl, Or.inl ⟨X, Y, hX, hY, rfl, rfl, rfl⟩⟩, hn,
          denotes2_iff.mpr (coords_some hC (P := ⟨os2ip c X, os2ip c Y, cpy c one⟩) hns le_rfl rx ry), (one_rep hC).2⟩
      · rw [g4 hn] at h; simp at h
    · rw [g1 he] at h; simp at h
  · have hx := take_x t X [] hX
    rw [List.append_nil] at hx
    rw [hx] at hy
    obtain ⟨rx, -⟩ := os_rep hC X hX
    have hne := hC.noTwo (beNat X : ZMod p)
    obtain ⟨y', Y, hy', ry, hpar, hsq⟩ := decodeY_comp hC (curveRhs_rep hC rx) hne t X hX (if t = 2#8 then 0 else 1)
      (by rcases ht with h | h <;> simp [h])
    obtain ⟨g1, g2⟩ := decode_core hC _ hl (by norm_num) (by rw [hx]) rx hy' ry
    by_cases he : Y ^ 2 = (beNat X : ZMod p) ^ 3 + a * (beNat X : ZMod p) + b
    · have hns := EcCheck.nonsingular_of_eq hC.two hC.noTwo he
      obtain ⟨g3, g4⟩ := g2 hns
      by_cases hn : val C.n • (.some _ _ hns : (shortW a b).Point) = 0
      · rw [g3 hn] at h
        simp only [Option.some.injEq] at h
        subst h
        refine ⟨.some _ _ hns, ⟨_, _, hns, rfl, Or.inr ⟨t, X, hX, rfl, rfl, ?_⟩⟩, hn,
          denotes2_iff.mpr (coords_some hC (P := ⟨os2ip c X, y', cpy c one⟩) hns (by norm_num) rx ry), (one_rep hC).2⟩
        rcases ht with rfl | rfl
        · exact Or.inl ⟨rfl, by simpa using hpar⟩
        · exact Or.inr ⟨rfl, by simpa using hpar⟩
      · rw [g4 hn] at h; simp at h
    · rw [g1 he] at h; simp at h

/-- Every encoding of a point of the subgroup is accepted. -/
theorem decode_complete {enc : List Byte} {Q : (shortW a b).Point} (h : EncodesPoint C.plen enc Q)
    (hn : val C.n • Q = 0) : ∃ P, pointDecode C c enc = some (some P) ∧ Denotes2 c P Q := by
  obtain ⟨x, y, hns, rfl, ⟨X, Y, hX, hY, rfl, rfl, rfl⟩ | ⟨t, X, hX, rfl, rfl, ht⟩⟩ := h
  · have hx := take_x 4#8 X Y hX
    obtain ⟨rx, -⟩ := os_rep hC X hX
    obtain ⟨ry, -⟩ := os_rep hC Y hY
    have hy' := decodeY_unc hC X Y hX hY (curveRhs C c (os2ip c X))
    obtain ⟨g1, g2⟩ := decode_core hC _ (by simp; omega) le_rfl (by rw [hx]) rx hy' ry
    exact ⟨_, (g2 hns).1 hn, denotes2_iff.mpr (coords_some hC (P := ⟨os2ip c X, os2ip c Y, cpy c one⟩) hns le_rfl rx ry)⟩
  · have hx := take_x t X [] hX
    rw [List.append_nil] at hx
    obtain ⟨rx, -⟩ := os_rep hC X hX
    have hne := hC.noTwo (beNat X : ZMod p)
    have he : y ^ 2 = (beNat X : ZMod p) ^ 3 + a * (beNat X : ZMod p) + b := (eqn_iff _ _).mp hns.1
    obtain ⟨y', Y, hy', ry, hpar, hsq⟩ := decodeY_comp hC (curveRhs_rep hC rx) hne t X hX (y.val % 2)
      (by rcases ht with h | h <;> simp [h])
    have hY : Y = y := by
      have h1 : Y ^ 2 = y ^ 2 := by rw [he]; exact hsq.mpr ⟨y, by rw [← he]; ring⟩
      refine parity_eq (podd hC) ?_ h1 hpar
      rintro rfl
      apply hne
      rw [← he, ← h1]; simp
    subst hY
    obtain ⟨g1, g2⟩ := decode_core hC _ (by simp; omega) (by norm_num) (by rw [hx]) rx hy' ry
    exact ⟨_, (g2 hns).1 hn,
      denotes2_iff.mpr (coords_some hC (P := ⟨os2ip c X, y', cpy c one⟩) hns (by norm_num) rx ry)⟩

end

end Ecc
