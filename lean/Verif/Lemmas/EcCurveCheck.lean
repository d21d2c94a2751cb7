import Verif.Lemmas.EcGroup
import Verif.Lemmas.Pocklington

/-! Kernel-evaluated certificates about a short Weierstrass curve over `ZMod p`: the cubic has no root,
and a multiple of a point is the point at infinity. -/

namespace EcCheck
open Spec

/-- Multiplication in `(ZMod p)[x] / (x³ + a x + b)` on coefficient triples. -/
def mulT (p a b : Nat) (u v : Nat × Nat × Nat) : Nat × Nat × Nat :=
  let e3 := u.2.1 * v.2.2 + u.2.2 * v.2.1
  let e4 := u.2.2 * v.2.2
  ((u.1 * v.1 + (p - b) * e3) % p,
   (u.1 * v.2.1 + u.2.1 * v.1 + (p - a) * e3 + (p - b) * e4) % p,
   (u.1 * v.2.2 + u.2.1 * v.2.1 + u.2.2 * v.1 + (p - a) * e4) % p)

def powT (p a b : Nat) : (k : Nat) → (u : Nat × Nat × Nat) → (e : Nat) → (acc : Nat × Nat × Nat) → Nat × Nat × Nat
  | 0, _, _, acc => acc
  | k + 1, u, e, acc =>
    powT p a b k (mulT p a b u u) (e / 2) (if e % 2 = 1 then mulT p a b acc u else acc)

/-- The value of a triple at `r`. -/
def ev {p : Nat} (r : ZMod p) (u : Nat × Nat × Nat) : ZMod p := u.1 + u.2.1 * r + u.2.2 * r ^ 2

theorem ev_mulT {p a b : Nat} (ha : a ≤ p) (hb : b ≤ p) {r : ZMod p} (hr : r ^ 3 + a * r + b = 0)
    (u v : Nat × Nat × Nat) : ev r (mulT p a b u v) = ev r u * ev r v := by
  unfold ev mulT
  simp only [ZMod.natCast_mod]
  push_cast [Nat.cast_sub ha, Nat.cast_sub hb]
  simp only [ZMod.natCast_self, zero_sub]
  linear_combination (-(u.2.1 * v.2.2 + u.2.2 * v.2.1 : ZMod p) - u.2.2 * v.2.2 * r) * hr

theorem ev_powT {p a b : Nat} (ha : a ≤ p) (hb : b ≤ p) {r : ZMod p} (hr : r ^ 3 + a * r + b = 0)
    (k : Nat) (u : Nat × Nat × Nat) (e : Nat) (acc : Nat × Nat × Nat) (he : e < 2 ^ k) :
    ev r (powT p a b k u e acc) = ev r acc * ev r u ^ e := by
  induction k generalizing u e acc with
  | zero =>
    have : e = 0 := by simpa using he
    subst this; simp [powT]
  | succ k ih =>
    unfold powT
    have h1 : e / 2 < 2 ^ k := by rw [pow_succ] at he; omega
    rw [ih _ _ _ h1, ev_mulT ha hb hr, ← sq, ← pow_mul]
    have h3 := Nat.div_add_mod e 2
    split
    · rename_i h
      rw [h] at h3
      rw [ev_mulT ha hb hr]
      conv_rhs => rw [← h3, pow_succ]
      ring
    · rename_i h
      have h4 : 2 * (e / 2) = e := by omega
      rw [h4]

/-- `u` is the inverse of `x^p - x` modulo the cubic. -/
def rootless (p a b : Nat) (u : Nat × Nat × Nat) : Bool :=
  let g := powT p a b 512 (0, 1, 0) p (1, 0, 0)
  decide (p < 2 ^ 512) && decide (a ≤ p) && decide (b ≤ p) && decide (1 < p) &&
    decide (mulT p a b u (g.1, g.2.1 + p - 1, g.2.2) = (1, 0, 0))

theorem noTwoTorsion_of_check {p a b : Nat} [Fact p.Prime] (u : Nat × Nat × Nat) (h : rootless p a b u = true) :
    NoTwoTorsion (a : ZMod p) (b : ZMod p) := by
  unfold rootless at h
  simp only [Bool.and_eq_true, decide_eq_true_eq] at h
  obtain ⟨⟨⟨⟨h1, ha⟩, hb⟩, hp1⟩, hu⟩ := h
  intro r hr
  generalize hg : powT p a b 512 (0, 1, 0) p (1, 0, 0) = g at hu
  have e1 := ev_powT ha hb hr 512 (0, 1, 0) p (1, 0, 0) h1
  rw [hg] at e1
  have e2 := ev_mulT ha hb hr u (g.1, g.2.1 + p - 1, g.2.2)
  rw [hu] at e2
  have e3 : ev r ((g.1, g.2.1 + p - 1, g.2.2) : Nat × Nat × Nat) = ev r g - r := by
    unfold ev
    simp only
    rw [Nat.add_sub_assoc (by omega)]
    push_cast [Nat.cast_sub hp1.le]
    simp only [ZMod.natCast_self]
    ring
  have e4 : ev r ((0, 1, 0) : Nat × Nat × Nat) = r := by simp [ev]
  have e5 : ev r ((1, 0, 0) : Nat × Nat × Nat) = 1 := by simp [ev]
  rw [e4, e5, one_mul, ZMod.pow_card] at e1
  rw [e3, e1, e5] at e2
  simp at e2

/-- Complete addition on triples of residues. -/
def addN (p a b : Nat) (P Q : Nat × Nat × Nat) : Nat × Nat × Nat :=
  let x1 := P.1; let y1 := P.2.1; let z1 := P.2.2
  let x2 := Q.1; let y2 := Q.2.1; let z2 := Q.2.2
  let s := (x1 * y2 + x2 * y1) % p
  let t := (y1 * z2 + y2 * z1) % p
  let v := (x1 * z2 + x2 * z1) % p
  let yy := y1 * y2 % p
  let zz := z1 * z2 % p
  let xx := x1 * x2 % p
  let m := (a * v + 3 * b * zz) % p
  let w := (3 * xx + a * zz) % p
  let n := (a * xx + 3 * b * v + (p - a * a % p) * zz) % p
  ((s * (yy + (p - m)) + (p - t) * n) % p, (w * n + (yy + m) * (yy + (p - m))) % p, (t * (yy + m) + s * w) % p)

theorem addN_cast (p a b : Nat) [Fact p.Prime] (hp : 0 < p) (P Q : Nat × Nat × Nat) :
    ((addN p a b P Q).1 : ZMod p) = X3 (a : ZMod p) b P.1 P.2.1 P.2.2 Q.1 Q.2.1 Q.2.2 ∧
    ((addN p a b P Q).2.1 : ZMod p) = Y3 (a : ZMod p) b P.1 P.2.1 P.2.2 Q.1 Q.2.1 Q.2.2 ∧
    ((addN p a b P Q).2.2 : ZMod p) = Z3 (a : ZMod p) b P.1 P.2.1 P.2.2 Q.1 Q.2.1 Q.2.2 := by
  have hs : ∀ x : Nat, ((p - x % p : Nat) : ZMod p) = -(x : ZMod p) := by
    intro x
    rw [Nat.cast_sub (Nat.mod_lt _ hp).le, ZMod.natCast_mod, ZMod.natCast_self, zero_sub]
  unfold addN X3 Y3 Z3
  simp only [ZMod.natCast_mod, Nat.cast_add, Nat.cast_mul, hs]
  refine ⟨?_, ?_, ?_⟩ <;> push_cast <;> ring

/-- `acc + e·T` by `k` double-and-add steps. -/
def mulN (p a b : Nat) : (k : Nat) → (T : Nat × Nat × Nat) → (e : Nat) → (acc : Nat × Nat × Nat) → Nat × Nat × Nat
  | 0, _, _, acc => acc
  | k + 1, T, e, acc =>
    mulN p a b k (addN p a b T T) (e / 2) (if e % 2 = 1 then addN p a b acc T else acc)

/-- The triple denotes the point. -/
def Den {p : Nat} [Fact p.Prime] {a b : ZMod p} (P : Nat × Nat × Nat) (Q : (shortW a b).Point) : Prop :=
  Coords (P.1 : ZMod p) (P.2.1 : ZMod p) (P.2.2 : ZMod p) Q

theorem addN_den {p a b : Nat} [Fact p.Prime] (h2 : (2 : ZMod p) ≠ 0) (hT : NoTwoTorsion (a : ZMod p) (b : ZMod p))
    {P Q : Nat × Nat × Nat} {P' Q' : (shortW (a : ZMod p) (b : ZMod p)).Point} (hP : Den P P') (hQ : Den Q Q') :
    Den (addN p a b P Q) (P' + Q') := by
  obtain ⟨e1, e2, e3⟩ := addN_cast p a b (Fact.out (p := p.Prime)).pos P Q
  unfold Den
  rw [e1, e2, e3]
  exact add_coords h2 hT hP hQ

theorem mulN_den {p a b : Nat} [Fact p.Prime] (h2 : (2 : ZMod p) ≠ 0) (hT : NoTwoTorsion (a : ZMod p) (b : ZMod p))
    (k : Nat) {T acc : Nat × Nat × Nat} {e : Nat} {T' A' : (shortW (a : ZMod p) (b : ZMod p)).Point} (hTd : Den T T')
    (hA : Den acc A') (he : e < 2 ^ k) : Den (mulN p a b k T e acc) (A' + e • T') := by
  induction k generalizing T acc e T' A' with
  | zero =>
    have : e = 0 := by simpa using he
    subst this; simpa [mulN] using hA
  | succ k ih =>
    unfold mulN
    have h1 : e / 2 < 2 ^ k := by rw [pow_succ] at he; omega
    have h3 := Nat.div_add_mod e 2
    have hd := addN_den h2 hT hTd hTd
    split
    · rename_i h
      have := ih hd (addN_den h2 hT hA hTd) h1
      have e1 : A' + e • T' = A' + T' + (e / 2) • (T' + T') := by
        conv_lhs => rw [← h3, h]
        rw [add_smul, mul_comm, mul_smul, two_smul, one_smul, add_assoc, add_comm _ T']
      rw [e1]; exact this
    · rename_i h
      have := ih hd hA h1
      have h4 : e % 2 = 0 := by omega
      have e1 : A' + e • T' = A' + (e / 2) • (T' + T') := by
        conv_lhs => rw [← h3, h4]
        rw [add_zero, mul_comm, mul_smul, two_smul]
      rw [e1]; exact this

/-- `(x, y)` is on the curve and `n·(x, y)` has `X = Z = 0`. -/
def ordCheck (p a b n x y : Nat) : Bool :=
  let R := mulN p a b 512 (x, y, 1) n (0, 1, 0)
  decide (n < 2 ^ 512) && decide (y * y % p = (x * x * x + a * x + b) % p) && decide (R.2.2 = 0)

theorem nonsingular_of_eq {F : Type*} [Field F] {a b x y : F} (h2 : (2 : F) ≠ 0) (hT : NoTwoTorsion a b)
    (h : y ^ 2 = x ^ 3 + a * x + b) : (shortW a b).Nonsingular x y := by
  have he : (shortW a b).Equation x y := (eqn_iff x y).mpr h
  refine (WeierstrassCurve.Affine.nonsingular_iff x y).mpr ⟨he, Or.inr ?_⟩
  have hy := y_ne hT he
  simp [shortW]
  intro e
  exact (mul_ne_zero h2 hy) (by linear_combination e)

theorem order_of_check {p a b n x y : Nat} [Fact p.Prime] (h2 : (2 : ZMod p) ≠ 0)
    (hT : NoTwoTorsion (a : ZMod p) (b : ZMod p)) (h : ordCheck p a b n x y = true) :
    ∃ hns : (shortW (a : ZMod p) (b : ZMod p)).Nonsingular (x : ZMod p) (y : ZMod p),
      n • (WeierstrassCurve.Affine.Point.some _ _ hns) = 0 := by
  unfold ordCheck at h
  simp only [Bool.and_eq_true, decide_eq_true_eq] at h
  obtain ⟨⟨hn, heq⟩, hz⟩ := h
  have heq' : (y : ZMod p) ^ 2 = (x : ZMod p) ^ 3 + a * x + b := by
    have := congrArg (fun t : Nat => (t : ZMod p)) heq
    simp only [ZMod.natCast_mod] at this
    push_cast at this
    rw [sq, this]; ring
  have hns := nonsingular_of_eq h2 hT heq'
  refine ⟨hns, ?_⟩
  have := mulN_den h2 hT 512 (T := (x, y, 1)) (acc := (0, 1, 0)) (e := n)
    (T' := WeierstrassCurve.Affine.Point.some _ _ hns) (A' := 0)
    ⟨by simp, by simp, by simp⟩ ⟨by simp, by simp, by simp⟩ hn
  rw [zero_add] at this
  generalize n • (WeierstrassCurve.Affine.Point.some _ _ hns) = Q at this ⊢
  rcases Q with _ | ⟨u, v, hq⟩
  · rfl
  · exfalso
    have h3 := this.1
    rw [hz] at h3
    simp at h3

end EcCheck
