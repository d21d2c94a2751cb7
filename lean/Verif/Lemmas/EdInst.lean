import Verif.Lemmas.EdPoint
import Verif.Lemmas.EcInst
import Mathlib.NumberTheory.LegendreSymbol.Basic

/-! The two Edwards curves: prime field, completeness, order of the base point (generated
certificates). -/

namespace EcCheck
open Spec

theorem nonsquare_of_check {p d : Nat} [Fact p.Prime] (h : (decide (p < 2 ^ 512) && decide (2 < p) &&
    decide (Pock.pm p d (p / 2) = p - 1)) = true) : ¬ IsSquare (d : ZMod p) := by
  simp only [Bool.and_eq_true, decide_eq_true_eq] at h
  obtain ⟨⟨h1, h2⟩, h3⟩ := h
  have e := Pock.pm_eq p d (p / 2) (by omega)
  rw [h3] at e
  have e2 := (ZMod.natCast_eq_natCast_iff _ _ p).mpr e
  push_cast [Nat.cast_sub (show 1 ≤ p by omega)] at e2
  rw [ZMod.natCast_self, zero_sub] at e2
  haveI : Fact (2 < p) := ⟨h2⟩
  intro hsq
  have hd : (d : ZMod p) ≠ 0 := by
    intro h0
    rw [h0, zero_pow (by omega)] at e2
    exact one_ne_zero (neg_eq_zero.mp e2)
  have := (ZMod.euler_criterion p hd).mp hsq
  rw [← e2] at this
  exact ZMod.neg_one_ne_one this

/-- Addition of extended coordinates on residues. -/
def edAddN (p a d : Nat) (P Q : Nat × Nat × Nat × Nat) : Nat × Nat × Nat × Nat :=
  let w := (P.1 * Q.2.1 + Q.1 * P.2.1) % p
  let u := (P.2.1 * Q.2.1 + (p - a) * (P.1 * Q.1)) % p
  let tt := d * (P.2.2.1 * Q.2.2.1) % p
  let f := P.2.2.2 * Q.2.2.2 + (p - tt)
  let g := P.2.2.2 * Q.2.2.2 + tt
  (w * f % p, u * g % p, u * w % p, f * g % p)

def edMulN (p a d : Nat) : (k : Nat) → (T : Nat × Nat × Nat × Nat) → (e : Nat) → (acc : Nat × Nat × Nat × Nat) →
    Nat × Nat × Nat × Nat
  | 0, _, _, acc => acc
  | k + 1, T, e, acc =>
    edMulN p a d k (edAddN p a d T T) (e / 2) (if e % 2 = 1 then edAddN p a d acc T else acc)

section
variable {p a d : Nat} [Fact p.Prime] [hE : EdComplete (a : ZMod p) (d : ZMod p)]

def EDen (P : Nat × Nat × Nat × Nat) (Q : EdPoint (a : ZMod p) (d : ZMod p)) : Prop :=
  EdCoords (P.1 : ZMod p) (P.2.1 : ZMod p) (P.2.2.1 : ZMod p) (P.2.2.2 : ZMod p) Q

theorem edAddN_den (ha : a ≤ p) {P Q : Nat × Nat × Nat × Nat} {P' Q' : EdPoint (a : ZMod p) (d : ZMod p)}
    (hP : EDen P P') (hQ : EDen Q Q') : EDen (edAddN p a d P Q) (P' + Q') := by
  have hp := (Fact.out (p := p.Prime)).pos
  have := Ec.ed_add_coords one_ne_zero hP hQ
  have hs : ∀ x : Nat, ((p - x % p : Nat) : ZMod p) = -(x : ZMod p) := by
    intro x
    rw [Nat.cast_sub (Nat.mod_lt _ hp).le, ZMod.natCast_mod, ZMod.natCast_self, zero_sub]
  have ha' : ((p - a : Nat) : ZMod p) = -(a : ZMod p) := by
    rw [Nat.cast_sub ha, ZMod.natCast_self, zero_sub]
  unfold EDen edAddN
  simp only [ZMod.natCast_mod, Nat.cast_add, Nat.cast_mul, hs, ha']
  convert this using 1 <;> ring

theorem edMulN_den (ha : a ≤ p) (k : Nat) {T acc : Nat × Nat × Nat × Nat} {e : Nat}
    {T' A' : EdPoint (a : ZMod p) (d : ZMod p)} (hTd : EDen T T') (hA : EDen acc A') (he : e < 2 ^ k) :
    EDen (edMulN p a d k T e acc) (A' + e • T') := by
  induction k generalizing T acc e T' A' with
  | zero =>
    have : e = 0 := by simpa using he
    subst this; simpa [edMulN] using hA
  | succ k ih =>
    unfold edMulN
    have h1 : e / 2 < 2 ^ k := by rw [pow_succ] at he; omega
    have h3 := Nat.div_add_mod e 2
    have hd := edAddN_den ha hTd hTd
    split
    · rename_i h
      have := ih hd (edAddN_den ha hA hTd) h1
      have e1 : A' + e • T' = A' + T' + (e / 2) • (T' + T') := by
        conv_lhs => rw [← h3, h]
        rw [add_smul, mul_comm, mul_smul, two_smul, one_smul, add_assoc, add_comm _ T']
      rw [e1]; exact this
    · rename_i h
      have := ih hd hA h1
      have h4 : e % 2 = 0 := by omega
      have e1 : A' + e • T' = A' + (e / 2) • (T' + T') := by
        conv_lhs => rw [← h3, h4]
        rw [add_zero, mul_comm, mul_smul, two_smul]
      rw [e1]; exact this

/-- `(x, y)` is on the curve and `n·(x, y) = (0, 1)`. -/
def edOrdCheck (p a d n x y : Nat) : Bool :=
  let R := edMulN p a d 512 (x, y, x * y, 1) n (0, 1, 0, 1)
  decide (n < 2 ^ 512) && decide (a ≤ p) && decide ((a * (x * x) + y * y) % p = (1 + d * (x * x % p) * (y * y % p)) % p) &&
    decide (R.1 = 0) && decide (R.2.1 = R.2.2.2)

theorem ed_order_of_check {n x y : Nat} (h : edOrdCheck p a d n x y = true) :
    ∃ hon : OnEd (a : ZMod p) (d : ZMod p) (x : ZMod p) (y : ZMod p),
      n • (⟨_, _, hon⟩ : EdPoint (a : ZMod p) (d : ZMod p)) = 0 := by
  unfold edOrdCheck at h
  simp only [Bool.and_eq_true, decide_eq_true_eq] at h
  obtain ⟨⟨⟨⟨hn, ha⟩, heq⟩, hx⟩, hy⟩ := h
  have hon : OnEd (a : ZMod p) (d : ZMod p) (x : ZMod p) (y : ZMod p) := by
    have := congrArg (fun t : Nat => (t : ZMod p)) heq
    simp only [ZMod.natCast_mod] at this
    push_cast at this
    simp only [ZMod.natCast_mod] at this
    unfold OnEd
    push_cast at this
    linear_combination this
  refine ⟨hon, ?_⟩
  have := edMulN_den (d := d) ha 512 (T := (x, y, x * y, 1)) (acc := (0, 1, 0, 1)) (e := n)
    (T' := ⟨_, _, hon⟩) (A' := 0)
    ⟨by simp, by simp, by simp, by simp⟩ ⟨by simp, by simp [EdPoint.zero_x], by simp [EdPoint.zero_y], by simp [EdPoint.zero_x]⟩ hn
  rw [zero_add] at this
  generalize n • (⟨_, _, hon⟩ : EdPoint (a : ZMod p) (d : ZMod p)) = Q at this ⊢
  obtain ⟨hz, h1, h2, -⟩ := this
  rw [hx, Nat.cast_zero] at h1
  rw [hy] at h2
  apply EdPoint.ext
  · rw [EdPoint.zero_x]
    rcases mul_eq_zero.mp h1.symm with h | h
    · exact h
    · exact absurd h hz
  · rw [EdPoint.zero_y]
    exact (mul_right_cancel₀ hz (by rw [one_mul]; exact h2)).symm
end

end EcCheck

namespace EdParam
open Spec Ec Vlong

/-- Field prime. -/
abbrev qEd25519 : Nat := 57896044618658097711785492504343953926634992332820282019728792003956564819949
/-- Order of the base point. -/
abbrev LEd25519 : Nat := 7237005577332262213973186563042994240857116359379907606001950938285454250989
/-- The coefficient `a`. -/
abbrev aEd25519 : Nat := 57896044618658097711785492504343953926634992332820282019728792003956564819948
/-- The coefficient `d`. -/
abbrev dEd25519 : Nat := 37095705934669439343138083508754565189542113879843219016388785533085940283555
abbrev xEd25519 : Nat := 15112221349535400772501151409588531511454012693041857206046113283949847762202
abbrev yEd25519 : Nat := 46316835694926478169428394003475163141307993866256225615783033603165251855960

instance : Fact (Nat.Prime qEd25519) := ⟨EcPrime.prime_57896044618658097711785492504343953926634992332820282019728792003956564819949⟩

theorem twoEd25519 : (2 : ZMod qEd25519) ≠ 0 := by
  have : ((2 : Nat) : ZMod qEd25519) ≠ 0 := by
    rw [Ne, ZMod.natCast_eq_zero_iff]
    decide +kernel
  exact_mod_cast this

instance completeEd25519 : EdComplete ((aEd25519 : Nat) : ZMod qEd25519) ((dEd25519 : Nat) : ZMod qEd25519) where
  two := twoEd25519
  ane := by
    rw [Ne, ZMod.natCast_eq_zero_iff]
    decide +kernel
  asq := ⟨((19681161376707505956807079304988542015446066515923890162744021073123829784752 : Nat) : ZMod qEd25519), by
    have h : ((aEd25519 : Nat) : ZMod qEd25519) = ((19681161376707505956807079304988542015446066515923890162744021073123829784752 * 19681161376707505956807079304988542015446066515923890162744021073123829784752 : Nat) : ZMod qEd25519) :=
      (ZMod.natCast_eq_natCast_iff _ _ _).mpr (by show _ % _ = _ % _; decide +kernel)
    exact h.trans (Nat.cast_mul _ _)⟩
  dns := EcCheck.nonsquare_of_check (by decide +kernel)

theorem orderEd25519 : ∃ hon : OnEd ((aEd25519 : Nat) : ZMod qEd25519) ((dEd25519 : Nat) : ZMod qEd25519) ((xEd25519 : Nat) : ZMod qEd25519) ((yEd25519 : Nat) : ZMod qEd25519),
      LEd25519 • (⟨_, _, hon⟩ : EdPoint ((aEd25519 : Nat) : ZMod qEd25519) ((dEd25519 : Nat) : ZMod qEd25519)) = 0 :=
  EcCheck.ed_order_of_check (by decide +kernel)

theorem edOkEd25519 : EdOk ed25519 11 qEd25519 ((aEd25519 : Nat) : ZMod qEd25519) ((dEd25519 : Nat) : ZMod qEd25519) where
  fld := by
    have h : val p25519 = qEd25519 := by decide +kernel
    rw [← h]; exact fieldOk25519
  ca := by
    have : ed25519.a.toInt = -1 := by decide +kernel
    rw [this]
    have h : ((-1 : Int) : ZMod qEd25519) = ((aEd25519 : Int) : ZMod qEd25519) := by
      rw [ZMod.intCast_eq_intCast_iff]
      show _ % _ = _ % _
      decide +kernel
    exact h.trans (Int.cast_natCast _)
  du := by
    have : ed25519.dUnder.toNat = 121666 := by decide +kernel
    rw [this, Ne, ZMod.natCast_eq_zero_iff]
    decide +kernel
  dul := by decide +kernel
  dov := by
    have h1 : ed25519.dUnder.toNat = 121666 := by decide +kernel
    have h2 : ed25519.dOver.toInt = -121665 := by decide +kernel
    rw [h1, h2, ← Nat.cast_mul]
    have h : ((-121665 : Int) : ZMod qEd25519) = (((dEd25519 * 121666 : Nat) : Int) : ZMod qEd25519) := by
      rw [ZMod.intCast_eq_intCast_iff]
      show _ % _ = _ % _
      decide +kernel
    exact h.trans (Int.cast_natCast _)
  dol := by decide +kernel

/-- Field prime. -/
abbrev qEd448 : Nat := 726838724295606890549323807888004534353641360687318060281490199180612328166730772686396383698676545930088884461843637361053498018365439
/-- Order of the base point. -/
abbrev LEd448 : Nat := 181709681073901722637330951972001133588410340171829515070372549795146003961539585716195755291692375963310293709091662304773755859649779
/-- The coefficient `a`. -/
abbrev aEd448 : Nat := 1
/-- The coefficient `d`. -/
abbrev dEd448 : Nat := 726838724295606890549323807888004534353641360687318060281490199180612328166730772686396383698676545930088884461843637361053498018326358
abbrev xEd448 : Nat := 224580040295924300187604334099896036246789641632564134246125461686950415467406032909029192869357953282578032075146446173674602635247710
abbrev yEd448 : Nat := 298819210078481492676017930443930673437544040154080242095928241372331506189835876003536878655418784733982303233503462500531545062832660

instance : Fact (Nat.Prime qEd448) := ⟨EcPrime.prime_726838724295606890549323807888004534353641360687318060281490199180612328166730772686396383698676545930088884461843637361053498018365439⟩

theorem twoEd448 : (2 : ZMod qEd448) ≠ 0 := by
  have : ((2 : Nat) : ZMod qEd448) ≠ 0 := by
    rw [Ne, ZMod.natCast_eq_zero_iff]
    decide +kernel
  exact_mod_cast this

instance completeEd448 : EdComplete ((aEd448 : Nat) : ZMod qEd448) ((dEd448 : Nat) : ZMod qEd448) where
  two := twoEd448
  ane := by
    rw [Ne, ZMod.natCast_eq_zero_iff]
    decide +kernel
  asq := ⟨((1 : Nat) : ZMod qEd448), by
    have h : ((aEd448 : Nat) : ZMod qEd448) = ((1 * 1 : Nat) : ZMod qEd448) :=
      (ZMod.natCast_eq_natCast_iff _ _ _).mpr (by show _ % _ = _ % _; decide +kernel)
    exact h.trans (Nat.cast_mul _ _)⟩
  dns := EcCheck.nonsquare_of_check (by decide +kernel)

theorem orderEd448 : ∃ hon : OnEd ((aEd448 : Nat) : ZMod qEd448) ((dEd448 : Nat) : ZMod qEd448) ((xEd448 : Nat) : ZMod qEd448) ((yEd448 : Nat) : ZMod qEd448),
      LEd448 • (⟨_, _, hon⟩ : EdPoint ((aEd448 : Nat) : ZMod qEd448) ((dEd448 : Nat) : ZMod qEd448)) = 0 :=
  EcCheck.ed_order_of_check (by decide +kernel)

theorem edOkEd448 : EdOk ed448 17 qEd448 ((aEd448 : Nat) : ZMod qEd448) ((dEd448 : Nat) : ZMod qEd448) where
  fld := by
    have h : val p448 = qEd448 := by decide +kernel
    rw [← h]; exact fieldOk448
  ca := by
    have : ed448.a.toInt = 1 := by decide +kernel
    rw [this]
    have h : ((1 : Int) : ZMod qEd448) = ((aEd448 : Int) : ZMod qEd448) := by
      rw [ZMod.intCast_eq_intCast_iff]
      show _ % _ = _ % _
      decide +kernel
    exact h.trans (Int.cast_natCast _)
  du := by
    have : ed448.dUnder.toNat = 1 := by decide +kernel
    rw [this, Ne, ZMod.natCast_eq_zero_iff]
    decide +kernel
  dul := by decide +kernel
  dov := by
    have h1 : ed448.dUnder.toNat = 1 := by decide +kernel
    have h2 : ed448.dOver.toInt = -39081 := by decide +kernel
    rw [h1, h2, ← Nat.cast_mul]
    have h : ((-39081 : Int) : ZMod qEd448) = (((dEd448 * 1 : Nat) : Int) : ZMod qEd448) := by
      rw [ZMod.intCast_eq_intCast_iff]
      show _ % _ = _ % _
      decide +kernel
    exact h.trans (Int.cast_natCast _)
  dol := by decide +kernel

end EdParam
