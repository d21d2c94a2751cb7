import Verif.Model.Keccak
import Verif.Spec.Keccak
import Mathlib.Tactic.FinCases
import Mathlib.Tactic.IntervalCases

/-!
# The steps of `keccak.c.h` on words are the step mappings of FIPS 202 on bits
-/

namespace Keccak
open Spec.Keccak (Arr)

/-- The words hold the bits of the array. -/
def Rel (l : State) (A : Arr) : Prop := l.length = 25 ∧ ∀ (x y : Fin 5) (z : Fin 64), (get l y x).getLsbD z = A x y z

theorem list25 (l : List W) (h : l.length = 25) : ∃ a0 a1 a2 a3 a4 a5 a6 a7 a8 a9 a10 a11 a12 a13 a14 a15 a16 a17 a18 a19 a20 a21 a22 a23 a24,
    l = [a0, a1, a2, a3, a4, a5, a6, a7, a8, a9, a10, a11, a12, a13, a14, a15, a16, a17, a18, a19, a20, a21, a22, a23, a24] := by
  match l, h with
  | [a0, a1, a2, a3, a4, a5, a6, a7, a8, a9, a10, a11, a12, a13, a14, a15, a16, a17, a18, a19, a20, a21, a22, a23, a24], _ =>
    exact ⟨a0, a1, a2, a3, a4, a5, a6, a7, a8, a9, a10, a11, a12, a13, a14, a15, a16, a17, a18, a19, a20, a21, a22, a23, a24, rfl⟩

theorem rot_bit (x : W) (s : Nat) (z : Fin 64) : (rot x s).getLsbD z = x.getLsbD (z - Fin.ofNat 64 s : Fin 64) := by
  have hz := z.isLt
  have hv : (z - Fin.ofNat 64 s : Fin 64).val = (64 - s % 64 + z.val) % 64 := by
    rw [Fin.sub_def]; rfl
  rw [hv]
  unfold rot
  have hs := Nat.mod_lt s (show 64 > 0 by decide)
  generalize s % 64 = u at *
  simp only
  split
  · rw [BitVec.getLsbD_or, BitVec.getLsbD_shiftLeft, BitVec.getLsbD_ushiftRight]
    by_cases hc : z.val < u
    · have : (64 - u + z.val) % 64 = 64 - u + z.val := Nat.mod_eq_of_lt (by omega)
      rw [this]
      simp [hc]
    · have : (64 - u + z.val) % 64 = z.val - u := by omega
      rw [this, BitVec.getLsbD_of_ge x (64 - u + z.val) (by omega)]
      simp [hc, hz]
  · have : (64 - u + z.val) % 64 = z.val := by omega
    rw [this]

/-- The column parities. -/
def col (l : State) (x : Nat) : W := get l 0 x ^^^ get l 1 x ^^^ get l 2 x ^^^ get l 3 x ^^^ get l 4 x

theorem length_put (l : State) (y x : Nat) (v : W) : (put l y x v).length = l.length := by simp [put]

theorem length_foldl {α : Type} (f : State → α → State) (hf : ∀ l a, (f l a).length = l.length) (as : List α) (l : State) :
    (as.foldl f l).length = l.length := by
  induction as generalizing l with
  | nil => rfl
  | cons a as ih => rw [List.foldl_cons, ih, hf]

theorem length_theta (l : State) : (theta l).length = l.length := by
  unfold theta
  exact length_foldl _ (fun l x => length_foldl _ (fun l y => length_put _ _ _ _) _ _) _ _

theorem length_rhoLoop (n t x y : Nat) (l : State) : (rhoLoop n t x y l).length = l.length := by
  induction n generalizing t x y l with
  | zero => rfl
  | succ n ih => simp only [rhoLoop]; rw [ih, length_put]

theorem length_rho (l : State) : (rho l).length = l.length := length_rhoLoop _ _ _ _ _

theorem length_pi (l : State) : (pi l).length = l.length := by
  simp only [pi, length_put]

theorem length_chi (l : State) : (chi l).length = l.length := by
  unfold chi
  exact length_foldl _ (fun l y => by simp only [length_put]) _ _

set_option maxRecDepth 4000 in
theorem theta_list (a0 a1 a2 a3 a4 a5 a6 a7 a8 a9 a10 a11 a12 a13 a14 a15 a16 a17 a18 a19 a20 a21 a22 a23 a24 : W) :
    theta [a0, a1, a2, a3, a4, a5, a6, a7, a8, a9, a10, a11, a12, a13, a14, a15, a16, a17, a18, a19, a20, a21, a22, a23, a24] =
      [a0 ^^^ ((a4 ^^^ a9 ^^^ a14 ^^^ a19 ^^^ a24) ^^^ rot (a1 ^^^ a6 ^^^ a11 ^^^ a16 ^^^ a21) 1),
        a1 ^^^ ((a0 ^^^ a5 ^^^ a10 ^^^ a15 ^^^ a20) ^^^ rot (a2 ^^^ a7 ^^^ a12 ^^^ a17 ^^^ a22) 1),
        a2 ^^^ ((a1 ^^^ a6 ^^^ a11 ^^^ a16 ^^^ a21) ^^^ rot (a3 ^^^ a8 ^^^ a13 ^^^ a18 ^^^ a23) 1),
        a3 ^^^ ((a2 ^^^ a7 ^^^ a12 ^^^ a17 ^^^ a22) ^^^ rot (a4 ^^^ a9 ^^^ a14 ^^^ a19 ^^^ a24) 1),
        a4 ^^^ ((a3 ^^^ a8 ^^^ a13 ^^^ a18 ^^^ a23) ^^^ rot (a0 ^^^ a5 ^^^ a10 ^^^ a15 ^^^ a20) 1),
        a5 ^^^ ((a4 ^^^ a9 ^^^ a14 ^^^ a19 ^^^ a24) ^^^ rot (a1 ^^^ a6 ^^^ a11 ^^^ a16 ^^^ a21) 1),
        a6 ^^^ ((a0 ^^^ a5 ^^^ a10 ^^^ a15 ^^^ a20) ^^^ rot (a2 ^^^ a7 ^^^ a12 ^^^ a17 ^^^ a22) 1),
        a7 ^^^ ((a1 ^^^ a6 ^^^ a11 ^^^ a16 ^^^ a21) ^^^ rot (a3 ^^^ a8 ^^^ a13 ^^^ a18 ^^^ a23) 1),
        a8 ^^^ ((a2 ^^^ a7 ^^^ a12 ^^^ a17 ^^^ a22) ^^^ rot (a4 ^^^ a9 ^^^ a14 ^^^ a19 ^^^ a24) 1),
        a9 ^^^ ((a3 ^^^ a8 ^^^ a13 ^^^ a18 ^^^ a23) ^^^ rot (a0 ^^^ a5 ^^^ a10 ^^^ a15 ^^^ a20) 1),
        a10 ^^^ ((a4 ^^^ a9 ^^^ a14 ^^^ a19 ^^^ a24) ^^^ rot (a1 ^^^ a6 ^^^ a11 ^^^ a16 ^^^ a21) 1),
        a11 ^^^ ((a0 ^^^ a5 ^^^ a10 ^^^ a15 ^^^ a20) ^^^ rot (a2 ^^^ a7 ^^^ a12 ^^^ a17 ^^^ a22) 1),
        a12 ^^^ ((a1 ^^^ a6 ^^^ a11 ^^^ a16 ^^^ a21) ^^^ rot (a3 ^^^ a8 ^^^ a13 ^^^ a18 ^^^ a23) 1),
        a13 ^^^ ((a2 ^^^ a7 ^^^ a12 ^^^ a17 ^^^ a22) ^^^ rot (a4 ^^^ a9 ^^^ a14 ^^^ a19 ^^^ a24) 1),
        a14 ^^^ ((a3 ^^^ a8 ^^^ a13 ^^^ a18 ^^^ a23) ^^^ rot (a0 ^^^ a5 ^^^ a10 ^^^ a15 ^^^ a20) 1),
        a15 ^^^ ((a4 ^^^ a9 ^^^ a14 ^^^ a19 ^^^ a24) ^^^ rot (a1 ^^^ a6 ^^^ a11 ^^^ a16 ^^^ a21) 1),
        a16 ^^^ ((a0 ^^^ a5 ^^^ a10 ^^^ a15 ^^^ a20) ^^^ rot (a2 ^^^ a7 ^^^ a12 ^^^ a17 ^^^ a22) 1),
        a17 ^^^ ((a1 ^^^ a6 ^^^ a11 ^^^ a16 ^^^ a21) ^^^ rot (a3 ^^^ a8 ^^^ a13 ^^^ a18 ^^^ a23) 1),
        a18 ^^^ ((a2 ^^^ a7 ^^^ a12 ^^^ a17 ^^^ a22) ^^^ rot (a4 ^^^ a9 ^^^ a14 ^^^ a19 ^^^ a24) 1),
        a19 ^^^ ((a3 ^^^ a8 ^^^ a13 ^^^ a18 ^^^ a23) ^^^ rot (a0 ^^^ a5 ^^^ a10 ^^^ a15 ^^^ a20) 1),
        a20 ^^^ ((a4 ^^^ a9 ^^^ a14 ^^^ a19 ^^^ a24) ^^^ rot (a1 ^^^ a6 ^^^ a11 ^^^ a16 ^^^ a21) 1),
        a21 ^^^ ((a0 ^^^ a5 ^^^ a10 ^^^ a15 ^^^ a20) ^^^ rot (a2 ^^^ a7 ^^^ a12 ^^^ a17 ^^^ a22) 1),
        a22 ^^^ ((a1 ^^^ a6 ^^^ a11 ^^^ a16 ^^^ a21) ^^^ rot (a3 ^^^ a8 ^^^ a13 ^^^ a18 ^^^ a23) 1),
        a23 ^^^ ((a2 ^^^ a7 ^^^ a12 ^^^ a17 ^^^ a22) ^^^ rot (a4 ^^^ a9 ^^^ a14 ^^^ a19 ^^^ a24) 1),
        a24 ^^^ ((a3 ^^^ a8 ^^^ a13 ^^^ a18 ^^^ a23) ^^^ rot (a0 ^^^ a5 ^^^ a10 ^^^ a15 ^^^ a20) 1)] := by
  have r : List.range 5 = [0, 1, 2, 3, 4] := rfl
  have m : mod5 (-1) = 4 := by decide
  have m0 : mod5 1 = 1 := by decide
  have m1 : mod5 2 = 2 := by decide
  have m2 : mod5 3 = 3 := by decide
  have m3 : mod5 4 = 4 := by decide
  have m4 : mod5 0 = 0 := by decide
  have m5 : mod5 5 = 0 := by decide
  simp [theta, r, get, put, m, m0, m1, m2, m3, m4, m5]

set_option maxRecDepth 4000 in
theorem rho_list (a0 a1 a2 a3 a4 a5 a6 a7 a8 a9 a10 a11 a12 a13 a14 a15 a16 a17 a18 a19 a20 a21 a22 a23 a24 : W) :
    rho [a0, a1, a2, a3, a4, a5, a6, a7, a8, a9, a10, a11, a12, a13, a14, a15, a16, a17, a18, a19, a20, a21, a22, a23, a24] =
      [a0,
        rot a1 1,
        rot a2 190,
        rot a3 28,
        rot a4 91,
        rot a5 36,
        rot a6 300,
        rot a7 6,
        rot a8 55,
        rot a9 276,
        rot a10 3,
        rot a11 10,
        rot a12 171,
        rot a13 153,
        rot a14 231,
        rot a15 105,
        rot a16 45,
        rot a17 15,
        rot a18 21,
        rot a19 136,
        rot a20 210,
        rot a21 66,
        rot a22 253,
        rot a23 120,
        rot a24 78] := by
  have m : ∀ x y : Fin 5, mod5 (2 * (x.val : Int) + 3 * (y.val : Int)) = (2 * x.val + 3 * y.val) % 5 := by decide
  have m' : ∀ x y : Nat, x < 5 → y < 5 → mod5 (2 * (x : Int) + 3 * (y : Int)) = (2 * x + 3 * y) % 5 :=
    fun x y hx hy => m ⟨x, hx⟩ ⟨y, hy⟩
  unfold rho
  iterate 24
    rw [rhoLoop, m' _ _ (by decide) (by decide)]
    simp only [get, put, List.getD_cons_zero, List.getD_cons_succ, List.set_cons_zero, List.set_cons_succ, Nat.reduceMul, Nat.reduceAdd, Nat.reduceMod, Nat.reduceShiftRight]
  rw [rhoLoop]

set_option maxRecDepth 4000 in
theorem pi_list (a0 a1 a2 a3 a4 a5 a6 a7 a8 a9 a10 a11 a12 a13 a14 a15 a16 a17 a18 a19 a20 a21 a22 a23 a24 : W) :
    pi [a0, a1, a2, a3, a4, a5, a6, a7, a8, a9, a10, a11, a12, a13, a14, a15, a16, a17, a18, a19, a20, a21, a22, a23, a24] =
      [a0,
        a6,
        a12,
        a18,
        a24,
        a3,
        a9,
        a10,
        a16,
        a22,
        a1,
        a7,
        a13,
        a19,
        a20,
        a4,
        a5,
        a11,
        a17,
        a23,
        a2,
        a8,
        a14,
        a15,
        a21] := by
  simp [pi, get, put]

set_option maxRecDepth 4000 in
theorem chi_list (a0 a1 a2 a3 a4 a5 a6 a7 a8 a9 a10 a11 a12 a13 a14 a15 a16 a17 a18 a19 a20 a21 a22 a23 a24 : W) :
    chi [a0, a1, a2, a3, a4, a5, a6, a7, a8, a9, a10, a11, a12, a13, a14, a15, a16, a17, a18, a19, a20, a21, a22, a23, a24] =
      [a0 ^^^ (~~~a1 &&& a2),
        a1 ^^^ (~~~a2 &&& a3),
        a2 ^^^ (~~~a3 &&& a4),
        a3 ^^^ (~~~a4 &&& a0),
        a4 ^^^ (~~~a0 &&& a1),
        a5 ^^^ (~~~a6 &&& a7),
        a6 ^^^ (~~~a7 &&& a8),
        a7 ^^^ (~~~a8 &&& a9),
        a8 ^^^ (~~~a9 &&& a5),
        a9 ^^^ (~~~a5 &&& a6),
        a10 ^^^ (~~~a11 &&& a12),
        a11 ^^^ (~~~a12 &&& a13),
        a12 ^^^ (~~~a13 &&& a14),
        a13 ^^^ (~~~a14 &&& a10),
        a14 ^^^ (~~~a10 &&& a11),
        a15 ^^^ (~~~a16 &&& a17),
        a16 ^^^ (~~~a17 &&& a18),
        a17 ^^^ (~~~a18 &&& a19),
        a18 ^^^ (~~~a19 &&& a15),
        a19 ^^^ (~~~a15 &&& a16),
        a20 ^^^ (~~~a21 &&& a22),
        a21 ^^^ (~~~a22 &&& a23),
        a22 ^^^ (~~~a23 &&& a24),
        a23 ^^^ (~~~a24 &&& a20),
        a24 ^^^ (~~~a20 &&& a21)] := by
  have r : List.range 5 = [0, 1, 2, 3, 4] := rfl
  simp [chi, r, get, put]

theorem theta_get (l : State) (h : l.length = 25) : (theta l).length = 25 ∧ ∀ (x y : Fin 5),
    get (theta l) y x = get l y x ^^^ (col l (x - 1 : Fin 5) ^^^ rot (col l (x + 1 : Fin 5)) 1) := by
  obtain ⟨a0, a1, a2, a3, a4, a5, a6, a7, a8, a9, a10, a11, a12, a13, a14, a15, a16, a17, a18, a19, a20, a21, a22, a23, a24, rfl⟩ := list25 l h
  refine ⟨(length_theta _).trans h, fun x y => ?_⟩
  rw [theta_list]
  fin_cases x <;> fin_cases y <;> rfl

/-- The rotation counts. -/
def rhoTable : List Nat := [0, 1, 190, 28, 91, 36, 300, 6, 55, 276, 3, 10, 171, 153, 231, 105, 45, 15, 21, 136, 210, 66, 253, 120, 78]

theorem rhoTable_eq : ∀ x y : Fin 5, Spec.Keccak.rhoOff x y = rhoTable.getD (5 * y.val + x.val) 0 := by decide +kernel

theorem rho_get (l : State) (h : l.length = 25) : (rho l).length = 25 ∧ ∀ (x y : Fin 5),
    get (rho l) y x = rot (get l y x) (Spec.Keccak.rhoOff x y) := by
  obtain ⟨a0, a1, a2, a3, a4, a5, a6, a7, a8, a9, a10, a11, a12, a13, a14, a15, a16, a17, a18, a19, a20, a21, a22, a23, a24, rfl⟩ := list25 l h
  refine ⟨(length_rho _).trans h, fun x y => ?_⟩
  rw [rho_list]
  have t : Spec.Keccak.rhoOff x y = rhoTable.getD (5 * y.val + x.val) 0 := rhoTable_eq x y
  rw [t]
  fin_cases x <;> fin_cases y <;> rfl

theorem pi_get (l : State) (h : l.length = 25) : (pi l).length = 25 ∧ ∀ (x y : Fin 5),
    get (pi l) y x = get l x (x + 3 * y : Fin 5) := by
  obtain ⟨a0, a1, a2, a3, a4, a5, a6, a7, a8, a9, a10, a11, a12, a13, a14, a15, a16, a17, a18, a19, a20, a21, a22, a23, a24, rfl⟩ := list25 l h
  refine ⟨(length_pi _).trans h, fun x y => ?_⟩
  rw [pi_list]
  fin_cases x <;> fin_cases y <;> rfl

theorem chi_get (l : State) (h : l.length = 25) : (chi l).length = 25 ∧ ∀ (x y : Fin 5),
    get (chi l) y x = get l y x ^^^ (~~~get l y (x + 1 : Fin 5) &&& get l y (x + 2 : Fin 5)) := by
  obtain ⟨a0, a1, a2, a3, a4, a5, a6, a7, a8, a9, a10, a11, a12, a13, a14, a15, a16, a17, a18, a19, a20, a21, a22, a23, a24, rfl⟩ := list25 l h
  refine ⟨(length_chi _).trans h, fun x y => ?_⟩
  rw [chi_list]
  fin_cases x <;> fin_cases y <;> rfl

theorem theta_rel {l : State} {A : Arr} (h : Rel l A) : Rel (theta l) (Spec.Keccak.theta A) := by
  obtain ⟨hl, h⟩ := h
  obtain ⟨hl', h'⟩ := theta_get l hl
  have hc : ∀ (x : Fin 5) (z : Fin 64), (col l x).getLsbD z = (A x 0 z ^^ A x 1 z ^^ A x 2 z ^^ A x 3 z ^^ A x 4 z) := by
    intro x z
    unfold col
    simp only [BitVec.getLsbD_xor]
    rw [← h x 0 z, ← h x 1 z, ← h x 2 z, ← h x 3 z, ← h x 4 z]
    rfl
  refine ⟨hl', fun x y z => ?_⟩
  rw [h' x y, BitVec.getLsbD_xor, BitVec.getLsbD_xor, rot_bit, hc, hc, h]
  rfl

theorem rho_rel {l : State} {A : Arr} (h : Rel l A) : Rel (rho l) (Spec.Keccak.rho A) := by
  obtain ⟨hl, h⟩ := h
  obtain ⟨hl', h'⟩ := rho_get l hl
  refine ⟨hl', fun x y z => ?_⟩
  rw [h' x y, rot_bit, h]
  rfl

theorem pi_rel {l : State} {A : Arr} (h : Rel l A) : Rel (pi l) (Spec.Keccak.pi A) := by
  obtain ⟨hl, h⟩ := h
  obtain ⟨hl', h'⟩ := pi_get l hl
  refine ⟨hl', fun x y z => ?_⟩
  rw [h' x y, h]
  rfl

theorem chi_rel {l : State} {A : Arr} (h : Rel l A) : Rel (chi l) (Spec.Keccak.chi A) := by
  obtain ⟨hl, h⟩ := h
  obtain ⟨hl', h'⟩ := chi_get l hl
  refine ⟨hl', fun x y z => ?_⟩
  rw [h' x y, BitVec.getLsbD_xor, BitVec.getLsbD_and, BitVec.getLsbD_not, h, h, h]
  simp [Spec.Keccak.chi]

/-- `lfsr` before round `ir`. -/
def lfsrAt : Nat → BitVec 32
  | 0 => 1
  | ir + 1 => (iotaLoop (lfsrAt ir)).2

theorem rc_eq : ∀ ir < 24, ∀ z : Fin 64, (iotaLoop (lfsrAt ir)).1.getLsbD z = Spec.Keccak.RC ir z := by
  decide +kernel

attribute [local irreducible] theta rho pi chi Spec.Keccak.theta Spec.Keccak.rho Spec.Keccak.pi Spec.Keccak.chi iotaLoop Spec.Keccak.RC

theorem round_rel {l : State} {A : Arr} (rounds ir : Nat) (hi : ir < 24) (h : Rel l A) :
    (roundStep rounds (l, lfsrAt ir) ir).2 = lfsrAt (ir + 1) ∧
    Rel (roundStep rounds (l, lfsrAt ir) ir).1 (if ir + rounds ≥ 24 then Spec.Keccak.rnd A ir else A) := by
  refine ⟨rfl, ?_⟩
  unfold roundStep
  by_cases hc : ir + rounds ≥ 24
  · simp only [hc, if_true]
    have h4 := chi_rel (pi_rel (rho_rel (theta_rel h)))
    generalize hB : chi (pi (rho (theta l))) = B at h4 ⊢
    unfold Spec.Keccak.rnd
    generalize Spec.Keccak.chi _ = A' at h4 ⊢
    obtain ⟨hl, h4⟩ := h4
    refine ⟨by simpa [put] using hl, fun x y z => ?_⟩
    unfold Spec.Keccak.iota
    by_cases h0 : x = 0 ∧ y = 0
    · obtain ⟨rfl, rfl⟩ := h0
      rw [if_pos ⟨rfl, rfl⟩, ← h4 0 0 z, ← rc_eq ir hi z, ← BitVec.getLsbD_xor]
      congr 1
      have : 0 < B.length := by omega
      simp [get, put, this]
    · rw [if_neg h0, ← h4 x y z]
      congr 1
      have : 5 * y.val + x.val ≠ 0 := fun h => h0 ⟨Fin.ext (by simp; omega), Fin.ext (by simp; omega)⟩
      simp only [get, put]
      rw [List.getD_eq_getElem?_getD, List.getElem?_set_ne (by omega), List.getD_eq_getElem?_getD]
  · simp only [hc, if_false]
    exact h

theorem loop_rel {l : State} {A : Arr} (rounds : Nat) (h : Rel l A) (n : Nat) (hn : n ≤ 24) :
    ((List.range n).foldl (roundStep rounds) (l, 1)).2 = lfsrAt n ∧
    Rel ((List.range n).foldl (roundStep rounds) (l, 1)).1
      ((List.range n).foldl (fun A ir => if ir + rounds ≥ 24 then Spec.Keccak.rnd A ir else A) A) := by
  induction n with
  | zero => exact ⟨rfl, h⟩
  | succ n ih =>
    obtain ⟨h1, h2⟩ := ih (by omega)
    rw [List.range_succ, List.foldl_append, List.foldl_append]
    simp only [List.foldl_cons, List.foldl_nil]
    have := round_rel rounds n (by omega) h2
    rw [← h1] at this
    exact ⟨this.1.trans rfl, this.2⟩

/-- The rounds left out do nothing. -/
theorem skip_rounds (A : Arr) (nr : Nat) (hn : nr ≤ 24) :
    (List.range 24).foldl (fun A ir => if ir + nr ≥ 24 then Spec.Keccak.rnd A ir else A) A =
      (List.range' (24 - nr) nr).foldl Spec.Keccak.rnd A := by
  have e : List.range 24 = List.range' 0 (24 - nr) ++ List.range' (24 - nr) nr := by
    interval_cases nr <;> decide +kernel
  rw [e, List.foldl_append]
  have h1 : ∀ (l : List Nat) (A : Arr), (∀ i ∈ l, ¬ (i + nr ≥ 24)) →
      l.foldl (fun A ir => if ir + nr ≥ 24 then Spec.Keccak.rnd A ir else A) A = A := by
    intro l
    induction l with
    | nil => intros; rfl
    | cons i l ih =>
      intro A hi
      rw [List.foldl_cons, if_neg (hi i (by simp)), ih A fun j hj => hi j (by simp [hj])]
  have h2 : ∀ (l : List Nat) (A : Arr), (∀ i ∈ l, i + nr ≥ 24) →
      l.foldl (fun A ir => if ir + nr ≥ 24 then Spec.Keccak.rnd A ir else A) A = l.foldl Spec.Keccak.rnd A := by
    intro l
    induction l with
    | nil => intros; rfl
    | cons i l ih =>
      intro A hi
      rw [List.foldl_cons, List.foldl_cons, if_pos (hi i (by simp)), ih _ fun j hj => hi j (by simp [hj])]
  rw [h1 (List.range' 0 (24 - nr)) _ (by intro i hi; rw [List.mem_range'_1] at hi; omega), h2 _ _ (by intro i hi; rw [List.mem_range'_1] at hi; omega)]

end Keccak
