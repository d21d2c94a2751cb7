import Verif.Lemmas.EcPoint
import Verif.Lemmas.EcGroup
import Mathlib.FieldTheory.Finite.Basic

/-! Words denoting points; `ecp_point_scale_accumulate`. -/

namespace Ec
open Vlong Spec WeierstrassCurve

section
variable {C : Curve} {c p : Nat} [Fact p.Prime] {a b : ZMod p}

/-- The words `P` denote the curve point `Q`. -/
def Pt (c : Nat) (P : Xyz) (Q : (shortW a b).Point) : Prop :=
  ∃ x y z : ZMod p, PRep c p P x y z ∧ Coords x y z Q

theorem pointAdd_pt (hC : CurveOk C c p a b) (h2 : (2 : ZMod p) ≠ 0) (hT : NoTwoTorsion a b)
    {P1 P2 : Xyz} {Q1 Q2 : (shortW a b).Point} (h1 : Pt c P1 Q1) (h2' : Pt c P2 Q2) :
    Pt c (pointAdd C c P1 P2) (Q1 + Q2) := by
  obtain ⟨x1, y1, z1, r1, c1⟩ := h1
  obtain ⟨x2, y2, z2, r2, c2⟩ := h2'
  exact ⟨_, _, _, pointAdd_rep hC r1 r2, add_coords h2 hT c1 c2⟩

theorem pointDbl_pt (hC : CurveOk C c p a b) (h2 : (2 : ZMod p) ≠ 0) (hT : NoTwoTorsion a b)
    {P1 : Xyz} {Q1 : (shortW a b).Point} (h1 : Pt c P1 Q1) (h0 : Q1 ≠ 0) :
    Pt c (pointDbl C c P1) (Q1 + Q1) ∧ Q1 + Q1 ≠ 0 := by
  obtain ⟨x1, y1, z1, r1, c1⟩ := h1
  obtain ⟨d1, d2⟩ := dbl_coords h2 hT h0 c1
  exact ⟨⟨_, _, _, pointDbl_rep hC r1, d1⟩, d2⟩

omit [Fact p.Prime] in
theorem substWords_eq (l m : List W) (mask : W) (n : Nat) (hn : n = 0 ∨ n = 1) (hm : mask = BitVec.ofNat 32 n)
    (hl : l.length = m.length) : substWords l m mask = if n = 1 then m else l := by
  apply List.ext_getElem
  · rw [apply_ite List.length, hl]; simp [substWords, hl]
  · intro i h1 h2
    have hi : i < l.length := by simpa [substWords] using h1
    have hi' : i < m.length := by omega
    simp only [substWords, List.getElem_map, List.getElem_range]
    have e1 : rd l i = l[i] := by simp [rd, hi]
    have e2 : rd m i = m[i] := by simp [rd, hi']
    rw [e1, e2]
    rcases hn with h | h <;> subst h
    · subst hm
      rw [show (0 : W) - BitVec.ofNat 32 0 = 0#32 from rfl, show ~~~(0#32 : W) = BitVec.allOnes 32 from rfl,
        BitVec.allOnes_and, BitVec.zero_and, BitVec.or_zero]
      simp
    · subst hm
      rw [show (0 : W) - BitVec.ofNat 32 1 = BitVec.allOnes 32 from rfl,
        show ~~~(BitVec.allOnes 32 : W) = 0#32 from rfl, BitVec.allOnes_and, BitVec.zero_and, BitVec.zero_or]
      simp

theorem subst_pt {P1 P2 : Xyz} {Q1 Q2 : (shortW a b).Point} (h1 : Pt c P1 Q1) (h2 : Pt c P2 Q2)
    (mask : W) (n : Nat) (hn : n = 0 ∨ n = 1) (hm : mask = BitVec.ofNat 32 n) :
    Pt c (xyzSubst P1 P2 mask) (if n = 1 then Q2 else Q1) := by
  obtain ⟨x1, y1, z1, r1, c1⟩ := h1
  obtain ⟨x2, y2, z2, r2, c2⟩ := h2
  have e : xyzSubst P1 P2 mask = if n = 1 then P2 else P1 := by
    unfold xyzSubst
    rw [substWords_eq _ _ _ n hn hm (by rw [r1.x.len, r2.x.len]),
      substWords_eq _ _ _ n hn hm (by rw [r1.y.len, r2.y.len]),
      substWords_eq _ _ _ n hn hm (by rw [r1.z.len, r2.z.len])]
    split <;> rfl
  rw [e]
  split
  · exact ⟨_, _, _, r2, c2⟩
  · exact ⟨_, _, _, r1, c1⟩

omit [Fact p.Prime] in
theorem scalar_bit (s : List W) (i : Nat) :
    (rd s (i / 32) >>> (i % 32)) &&& 1 = BitVec.ofNat 32 (val s / 2 ^ i % 2) := by
  apply BitVec.eq_of_toNat_eq
  rw [BitVec.toNat_and, BitVec.toNat_ushiftRight, rd_toNat, BitVec.toNat_ofNat]
  rw [show (1 : W).toNat = 1 from rfl, Nat.and_one_is_mod, Nat.shiftRight_eq_div_pow]
  rw [Nat.mod_eq_of_lt (show val s / 2 ^ i % 2 < 2 ^ 32 by omega)]
  have hi : i = 32 * (i / 32) + i % 32 := (Nat.div_add_mod i 32).symm
  conv_rhs => rw [hi, Nat.pow_add, ← Nat.div_div_eq_div_mul]
  generalize val s / 2 ^ (32 * (i / 32)) = v
  have hlt : i % 32 < 32 := Nat.mod_lt _ (by norm_num)
  generalize i % 32 = r at hlt
  have e : 2 ^ 32 = 2 ^ r * 2 ^ (32 - r) := by rw [← Nat.pow_add]; congr 1; omega
  rw [e, Nat.mod_mul_right_div_self, Nat.mod_mod_of_dvd]
  exact dvd_pow_self 2 (by omega)

theorem scaleLoop_pt (hC : CurveOk C c p a b) (h2 : (2 : ZMod p) ≠ 0) (hT : NoTwoTorsion a b)
    (s : List W) (k i : Nat) (hk : k + i = 32 * s.length) {A T : Xyz} {QA QT : (shortW a b).Point}
    (hA : Pt c A QA) (hT' : Pt c T QT) (h0 : QT ≠ 0) :
    Pt c (scaleLoop C c s k i A T) (QA + (val s / 2 ^ i) • QT) := by
  induction k generalizing i A T QA QT with
  | zero =>
    have : val s / 2 ^ i = 0 := by
      apply Nat.div_eq_of_lt
      have := val_lt s
      rwa [show i = 32 * s.length by omega]
    rw [this, zero_nsmul, add_zero]
    exact hA
  | succ k ih =>
    unfold scaleLoop
    have hsub := subst_pt hA (pointAdd_pt hC h2 hT hT' hA) _ (val s / 2 ^ i % 2) (by omega) (scalar_bit s i)
    have hdm : val s / 2 ^ i = 2 * (val s / 2 ^ (i + 1)) + val s / 2 ^ i % 2 := by
      rw [Nat.pow_succ, ← Nat.div_div_eq_div_mul]; omega
    have hval : (if val s / 2 ^ i % 2 = 1 then QT + QA else QA) = QA + (val s / 2 ^ i % 2) • QT := by
      rcases Nat.mod_two_eq_zero_or_one (val s / 2 ^ i) with h | h <;> rw [h]
      · simp
      · simp [add_comm]
    rw [hval] at hsub
    simp only
    obtain ⟨d1, d2⟩ := pointDbl_pt hC h2 hT hT' h0
    have hsum : QA + (val s / 2 ^ i) • QT =
        QA + (val s / 2 ^ i % 2) • QT + (val s / 2 ^ (i + 1)) • (QT + QT) := by
      conv_lhs => rw [hdm]
      rw [add_smul, mul_comm, mul_smul, two_smul, add_assoc, add_comm (_ • QT)]
    rw [hsum]
    split
    · rename_i hk0
      have hz : val s / 2 ^ (i + 1) = 0 := by
        apply Nat.div_eq_of_lt
        have := val_lt s
        rwa [show i + 1 = 32 * s.length by omega]
      rw [hz, zero_nsmul, add_zero]
      exact hsub
    · exact ih (i + 1) (by omega) hsub d1 d2

omit [Fact p.Prime] in
theorem cpy_self {l : List W} (h : l.length = c) : cpy c l = l := by
  apply val_inj
  · rw [length_cpy, h]
  · rw [val_cpy, ← h, Nat.mod_eq_of_lt (val_lt l)]

theorem copy_pt {P : Xyz} {Q : (shortW a b).Point} (h : Pt c P Q) : xyzCopy c P = P := by
  obtain ⟨x, y, z, r, -⟩ := h
  unfold xyzCopy
  rw [cpy_self r.x.len, cpy_self r.y.len, cpy_self r.z.len]

theorem scaleAccumulate_pt (hC : CurveOk C c p a b) (h2 : (2 : ZMod p) ≠ 0) (hT : NoTwoTorsion a b)
    (s : List W) {A B : Xyz} {QA QB : (shortW a b).Point} (hA : Pt c A QA) (hB : Pt c B QB) (h0 : QB ≠ 0) :
    Pt c (scaleAccumulate C c A B s) (QA + val s • QB) := by
  unfold scaleAccumulate
  rw [copy_pt hB]
  have := scaleLoop_pt hC h2 hT s (s.length * 32) 0 (by omega) hA hB h0
  simpa using this

theorem inf_pt (hC : CurveOk C c p a b) : Pt c (xyzInf c) (0 : (shortW a b).Point) := by
  have hc := hC.fld.cpos
  refine ⟨0, 1, 0, ⟨⟨by simp [xyzInf], ?_, ?_⟩, ⟨?_, ?_, ?_⟩, ⟨by simp [xyzInf], ?_, ?_⟩⟩, ⟨rfl, one_ne_zero, rfl⟩⟩
  · show val (List.replicate c 0) ≤ _; rw [val_replicate_zero]; omega
  · show ((val (List.replicate c 0) : Nat) : ZMod p) = 0; rw [val_replicate_zero]; simp
  · simp [xyzInf]; omega
  · have := hC.fld.two
    show val (1 :: List.replicate (c - 1) 0) ≤ _
    simp only [val]
    rw [val_replicate_zero, show (1 : W).toNat = 1 from rfl]; omega
  · show ((val (1 :: List.replicate (c - 1) 0) : Nat) : ZMod p) = 1
    simp only [val]
    rw [val_replicate_zero, show (1 : W).toNat = 1 from rfl]; simp
  · show val (List.replicate c 0) ≤ _; rw [val_replicate_zero]; omega
  · show ((val (List.replicate c 0) : Nat) : ZMod p) = 0; rw [val_replicate_zero]; simp

end
end Ec
