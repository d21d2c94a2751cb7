import Verif.Lemmas.EdGroup

/-!
# The group of a complete twisted Edwards curve

The operations are the published addition law, the neutral element `(0, 1)` and `-(x, y) = (-x, y)`;
that they form a commutative group is a theorem (by the map to Mathlib's Weierstrass group).
-/

namespace Spec

variable {F : Type*} [Field F] {a d : F}

instance : Zero (EdPoint a d) := ⟨⟨0, 1, on_O⟩⟩
instance : Neg (EdPoint a d) := ⟨fun P => ⟨-P.x, P.y, on_neg P.on⟩⟩

variable [hE : EdComplete a d]

theorem ed_on {x1 y1 x2 y2 : F} (h1 : OnEd a d x1 y1) (h2 : OnEd a d x2 y2) :
    OnEd a d (edAddX d x1 y1 x2 y2) (edAddY a d x1 y1 x2 y2) := by
  classical
  exact (ed_add_main h1 h2).1

instance : Add (EdPoint a d) :=
  ⟨fun P Q => ⟨edAddX d P.x P.y Q.x Q.y, edAddY a d P.x P.y Q.x Q.y, ed_on P.on Q.on⟩⟩

section
variable [DecidableEq F]

/-- The map to the Weierstrass group. -/
def EdPoint.toW (P : EdPoint a d) : (edW a d).Point := Spec.toW P.on

theorem EdPoint.toW_add (P Q : EdPoint a d) : (P + Q).toW = P.toW + Q.toW := (ed_add_main P.on Q.on).2

theorem EdPoint.toW_zero : (0 : EdPoint a d).toW = 0 := Spec.toW_zero on_O

theorem EdPoint.toW_neg (P : EdPoint a d) : (-P).toW = -P.toW := Spec.toW_neg P.on (on_neg P.on)

theorem EdPoint.toW_inj {P Q : EdPoint a d} (h : P.toW = Q.toW) : P = Q := by
  obtain ⟨h1, h2⟩ := Spec.toW_inj P.on Q.on h
  exact EdPoint.ext h1 h2
end

instance : AddCommGroup (EdPoint a d) where
  add_assoc P Q R := by
    classical
    apply EdPoint.toW_inj
    simp only [EdPoint.toW_add, add_assoc]
  zero_add P := by
    classical
    apply EdPoint.toW_inj
    rw [EdPoint.toW_add, EdPoint.toW_zero, zero_add]
  add_zero P := by
    classical
    apply EdPoint.toW_inj
    rw [EdPoint.toW_add, EdPoint.toW_zero, add_zero]
  neg_add_cancel P := by
    classical
    apply EdPoint.toW_inj
    rw [EdPoint.toW_add, EdPoint.toW_neg, EdPoint.toW_zero, neg_add_cancel]
  add_comm P Q := by
    classical
    apply EdPoint.toW_inj
    rw [EdPoint.toW_add, EdPoint.toW_add, add_comm]
  nsmul := nsmulRec
  zsmul := zsmulRec

theorem EdPoint.zero_x : (0 : EdPoint a d).x = 0 := rfl
theorem EdPoint.zero_y : (0 : EdPoint a d).y = 1 := rfl
theorem EdPoint.add_x (P Q : EdPoint a d) :
    (P + Q).x = (P.x * Q.y + Q.x * P.y) / (1 + d * P.x * Q.x * P.y * Q.y) := rfl
theorem EdPoint.add_y (P Q : EdPoint a d) :
    (P + Q).y = (P.y * Q.y - a * P.x * Q.x) / (1 - d * P.x * Q.x * P.y * Q.y) := rfl

end Spec
