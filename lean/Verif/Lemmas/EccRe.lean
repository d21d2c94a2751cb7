import Verif.Lemmas.EccKey

/-! The words an accepted encoding is decoded to, and what they are encoded to. -/

namespace Ecc
open Vlong Ec Spec EcParam

section
variable {C : Curve} {c p : Nat} [hp : Fact p.Prime] {a b : ZMod p} (hC : EccCurve C c p a b)
include hC

theorem decode_words {enc : List Byte} {P : Xyz} (h : pointDecode C c enc = some (some P)) :
    (∃ X Y, X.length = C.plen ∧ Y.length = C.plen ∧ enc = 4#8 :: (X ++ Y) ∧ P = ⟨os2ip c X, os2ip c Y, cpy c one⟩) ∨
    (∃ t X y Y, X.length = C.plen ∧ enc = t :: X ∧ P = ⟨os2ip c X, y, cpy c one⟩ ∧ Rep c p 1 y Y ∧ Y ≠ 0 ∧
      (t = 2#8 ∧ Y.val % 2 = 0 ∨ t = 3#8 ∧ Y.val % 2 = 1)) := by
  have hl : 1 + C.plen ≤ enc.length := by
    by_contra hl
    unfold pointDecode at h
    rw [if_pos (by omega)] at h
    exact absurd h (by simp)
  unfold pointDecode at h
  rw [if_neg (by omega)] at h
  simp only at h
  cases hd : decodeY C c enc (curveRhs C c (os2ip c ((enc.drop 1).take C.plen))) with
  | none => rw [hd] at h; simp at h
  | some y =>
    rw [hd] at h
    simp only at h
    split at h
    · simp at h
    · rename_i hcmp
      split at h
      · simp at h
      · simp only [Option.some.injEq] at h
        rcases decodeY_shape hl hd with ⟨X, Y, hX, hY, rfl⟩ | ⟨t, X, ht, hX, rfl⟩
        · left
          have hx := take_x 4#8 X Y hX
          rw [hx] at h hd
          rw [decodeY_unc hC X Y hX hY] at hd
          simp only [Option.some.injEq] at hd
          exact ⟨X, Y, hX, hY, rfl, by rw [← h, hd]⟩
        · right
          have hx := take_x t X [] hX
          rw [List.append_nil] at hx
          rw [hx] at hd h hcmp
          obtain ⟨rx, -⟩ := os_rep hC X hX
          have hne := hC.noTwo (beNat X : ZMod p)
          obtain ⟨y', Y, hy', ry, hpar, hsq⟩ := decodeY_comp hC (curveRhs_rep hC rx) hne t X hX (if t = 2#8 then 0 else 1)
            (by rcases ht with h | h <;> simp [h])
          rw [hd] at hy'
          simp only [Option.some.injEq] at hy'
          subst hy'
          rw [not_not] at hcmp
          have he := (eqn_test hC rx (ry.mono (k' := 2) (by norm_num)) le_rfl).mp hcmp
          refine ⟨t, X, y, Y, hX, rfl, h.symm, ry, ?_, ?_⟩
          · rintro rfl
            apply hne
            rw [← he]; simp
          · rcases ht with rfl | rfl
            · exact Or.inl ⟨rfl, by simpa using hpar⟩
            · exact Or.inr ⟨rfl, by simpa using hpar⟩

theorem i2os (X : List Byte) (hX : X.length = C.plen) : i2osp (os2ip c X) C.plen = X := by
  have := (Props.C06_i2osp_os2ip c X (by have := hC.room; omega)).1
  rw [hX] at this
  exact this

omit hC in
theorem tag_of_bit {y : List W} {v : Nat} (h : val y = v) :
    (2#8 ||| (rd y 0 &&& 1).setWidth 8) = if v % 2 = 0 then 2#8 else 3#8 := by
  have hb : rd y 0 &&& 1 = BitVec.ofNat 32 (v % 2) := by
    have := scalar_bit y 0
    rw [← h]; simpa using this
  rw [hb]
  rcases Nat.mod_two_eq_zero_or_one v with h | h <;> rw [h] <;> rfl

/-- Decoding and encoding to the same length gives the octets back. -/
theorem reencode {enc : List Byte} {P : Xyz} (h : pointDecode C c enc = some (some P)) :
    pointEncode C P enc.length = some enc := by
  have hpl := hC.plen
  rcases decode_words hC h with ⟨X, Y, hX, hY, rfl, rfl⟩ | ⟨t, X, y, Y, hX, rfl, rfl, ry, hY0, ht⟩
  · unfold pointEncode
    rw [if_pos (by simp; omega)]
    simp only [i2os hC X hX, i2os hC Y hY]
  · unfold pointEncode
    rw [if_neg (by simp; omega), if_pos (by simp; omega)]
    simp only [i2os hC X hX, tag_of_bit (val_of_rep ry hY0)]
    rcases ht with ⟨rfl, h1⟩ | ⟨rfl, h1⟩ <;> simp [h1]

/-- The compressed encoding of a decoded uncompressed one: right if the octets of `y` are reduced, the opposite point if
they are not. -/
theorem recompress {X Y : List Byte} (hX : X.length = C.plen) (hY : Y.length = C.plen) {P : Xyz}
    (h : pointDecode C c (4#8 :: (X ++ Y)) = some (some P)) {Q : (shortW a b).Point}
    (hQ : EncodesPoint C.plen (4#8 :: (X ++ Y)) Q) :
    ∃ enc, pointEncode C P (1 + C.plen) = some enc ∧ enc.length = 1 + C.plen ∧
      EncodesPoint C.plen enc (if beNat Y < p then Q else -Q) := by
  have hpl := hC.plen
  have hP : P = ⟨os2ip c X, os2ip c Y, cpy c one⟩ := by
    rcases decode_words hC h with ⟨X', Y', hX', hY', he, rfl⟩ | ⟨t, X', y, Y', hX', he, -⟩
    · rw [List.cons.injEq] at he
      obtain ⟨rfl, rfl⟩ := List.append_inj he.2 (hX.trans hX'.symm)
      rfl
    · have := congrArg List.length he
      simp at this; omega
  subst hP
  obtain ⟨x, y, hns, rfl, ⟨X', Y', hX', hY', he, rfl, rfl⟩ | ⟨t, X', hX', he, -⟩⟩ := hQ
  swap
  · have := congrArg List.length he
    simp at this; omega
  rw [List.cons.injEq] at he
  obtain ⟨rfl, rfl⟩ := List.append_inj he.2 (hX.trans hX'.symm)
  have hvY := os_val hC Y hY
  have hy0 : (beNat Y : ZMod p) ≠ 0 := y_ne hC.noTwo hns.1
  refine ⟨_, by unfold pointEncode; rw [if_neg (by omega), if_pos rfl], by simp [Props.C06_i2osp]; omega, ?_⟩
  simp only [i2os hC X hX, tag_of_bit hvY]
  have hodd := podd hC
  by_cases hlt : beNat Y < p
  · rw [if_pos hlt]
    refine ⟨_, _, hns, rfl, Or.inr ⟨_, X, hX, rfl, rfl, ?_⟩⟩
    rw [ZMod.val_natCast, Nat.mod_eq_of_lt hlt]
    rcases Nat.mod_two_eq_zero_or_one (beNat Y) with h | h <;> simp [h]
  · rw [if_neg hlt]
    have hns' : (shortW a b).Nonsingular (beNat X : ZMod p) (-(beNat Y : ZMod p)) := by
      have := EcCheck.nonsingular_of_eq hC.two hC.noTwo (x := (beNat X : ZMod p)) (y := -(beNat Y : ZMod p))
        (by rw [neg_sq]; exact (eqn_iff _ _).mp hns.1)
      exact this
    have hneg : -(.some _ _ hns : (shortW a b).Point) = .some _ _ hns' := by
      rw [WeierstrassCurve.Affine.Point.neg_some]
      congr 1
      simp [WeierstrassCurve.Affine.negY, shortW]
    refine ⟨_, _, hns', hneg, Or.inr ⟨_, X, hX, rfl, rfl, ?_⟩⟩
    have hlt2 : beNat Y < 2 * p := by
      have h1 := beNat_lt Y
      rw [hY, show (256 : Nat) = 2 ^ 8 from rfl, ← pow_mul] at h1
      have := hC.p2; omega
    have hv : (beNat Y : ZMod p).val = beNat Y - p := by
      rw [ZMod.val_natCast, Nat.mod_eq_sub_mod (by omega), Nat.mod_eq_of_lt (by omega)]
    have := neg_val hodd hy0
    rw [hv] at this
    rw [this]
    rcases Nat.mod_two_eq_zero_or_one (beNat Y) with h | h <;> simp [h] <;> omega

/-- The uncompressed encoding of what was decoded. -/
theorem reuncompress {enc : List Byte} {P : Xyz} (h : pointDecode C c enc = some (some P)) {Q : (shortW a b).Point}
    (hQ : EncodesPoint C.plen enc Q) (hn : val C.n • Q = 0) :
    ∃ enc', pointEncode C P (1 + C.plen * 2) = some enc' ∧ EncodesPoint C.plen enc' Q := by
  have hpl := hC.plen
  obtain ⟨P', hd, h2⟩ := decode_complete hC hQ hn
  rw [h] at hd
  simp only [Option.some.injEq] at hd
  subst hd
  rcases decode_words hC h with ⟨X, Y, hX, hY, rfl, rfl⟩ | ⟨t, X, y, Y, hX, rfl, rfl, ry, hY0, ht⟩
  · have hr := reencode hC h
    rw [show (4#8 :: (X ++ Y)).length = 1 + C.plen * 2 by simp; omega] at hr
    exact ⟨_, hr, hQ⟩
  · refine ⟨_, by unfold pointEncode; rw [if_pos rfl], ?_⟩
    simp only [i2os hC X hX]
    obtain ⟨x', y', z', r2, cc⟩ := denotes2_iff.mp h2
    have hz : z' = 1 := by rw [← r2.z.res]; simp only [(one_rep hC).2, Nat.cast_one]
    subst hz
    rcases Q with _ | ⟨x, y0, hq⟩
    · obtain ⟨-, -, h0⟩ := cc
      exact absurd h0 one_ne_zero
    obtain ⟨-, e1, e2⟩ := cc
    rw [mul_one] at e1 e2
    subst e1 e2
    have ex := Props.C06_i2osp y C.plen
    rw [Nat.mod_eq_of_lt (room_p hC (by have := ry.le; omega))] at ex
    refine ⟨_, _, hq, rfl, Or.inl ⟨X, _, hX, ex.1, rfl, ?_, ?_⟩⟩
    · rw [← r2.x.res, os_val hC X hX]
    · rw [ex.2, ← r2.y.res]

end

end Ecc
