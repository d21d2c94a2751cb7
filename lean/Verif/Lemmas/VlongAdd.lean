import Verif.Model.Vlong
import Verif.Spec.Words
import Mathlib.Data.Int.ModEq
import Mathlib.Tactic.Ring
import Mathlib.Tactic.Linarith

/-! Helper lemmas: word lists, digit sums and the addition kernel. -/

namespace Vlong
open Spec

theorem val_lt (l : List W) : val l < 2 ^ (32 * l.length) := by
  induction l with
  | nil => simp [val]
  | cons w l ih =>
    have := w.isLt
    simp only [val, List.length_cons, Nat.mul_add, Nat.mul_one, Nat.pow_add]
    have : val l + 1 ≤ 2 ^ (32 * l.length) := ih
    nlinarith

/-- Sum of `n` digits `d i, d (i+1), ...` in base `2^32`. -/
def dsum (d : Nat → Int) (i : Nat) : Nat → Int
  | 0 => 0
  | n + 1 => d i + 2 ^ 32 * dsum d (i + 1) n

theorem modEq_of_eq {a b n : Int} (h : a = b) : a ≡ b [ZMOD n] := h ▸ Int.ModEq.refl _

theorem dsum_congr {d e : Nat → Int} (h : ∀ j, d j = e j) (i n : Nat) : dsum d i n = dsum e i n := by
  induction n generalizing i with
  | zero => rfl
  | succ n ih => simp [dsum, h, ih]

theorem dsum_shift (d : Nat → Int) (k i n : Nat) :
    dsum d (i + k) n = dsum (fun j => d (j + k)) i n := by
  induction n generalizing i with
  | zero => rfl
  | succ n ih =>
    have : i + k + 1 = (i + 1) + k := by omega
    simp [dsum, this, ih]

theorem dsum_add (d e : Nat → Int) (i n : Nat) :
    dsum (fun j => d j + e j) i n = dsum d i n + dsum e i n := by
  induction n generalizing i with
  | zero => simp [dsum]
  | succ n ih => simp only [dsum, ih]; ring

theorem dsum_neg (d : Nat → Int) (i n : Nat) :
    dsum (fun j => - d j) i n = - dsum d i n := by
  induction n generalizing i with
  | zero => simp [dsum]
  | succ n ih => simp only [dsum, ih]; ring

theorem dsum_mul (d : Nat → Int) (k : Int) (i n : Nat) :
    dsum (fun j => d j * k) i n = dsum d i n * k := by
  induction n generalizing i with
  | zero => simp [dsum]
  | succ n ih => simp only [dsum, ih]; ring

theorem dsum_zero (i n : Nat) : dsum (fun _ => 0) i n = 0 := by
  induction n generalizing i with
  | zero => simp [dsum]
  | succ n ih => simp [dsum, ih]

theorem rd_nil (i : Nat) : rd [] i = 0 := by simp [rd]
theorem rd_cons_zero (w : W) (l : List W) : rd (w :: l) 0 = w := by simp [rd]
theorem rd_cons_succ (w : W) (l : List W) (i : Nat) : rd (w :: l) (i + 1) = rd l i := by simp [rd]
theorem rd_ge {l : List W} {i : Nat} (h : l.length ≤ i) : rd l i = 0 := by
  simp [rd, List.getElem?_eq_none h]

theorem dsum_rd (l : List W) (n : Nat) :
    dsum (fun j => ((rd l j).toNat : Int)) 0 n = ((val l % 2 ^ (32 * n) : Nat) : Int) := by
  induction n generalizing l with
  | zero => simp [dsum, Nat.mod_one]
  | succ n ih =>
    cases l with
    | nil =>
      simp only [dsum]
      have := dsum_shift (fun j => ((rd [] j).toNat : Int)) 1 0 n
      rw [this]
      simp [rd_nil, val, dsum_zero]
    | cons w l =>
      simp only [dsum]
      have := dsum_shift (fun j => ((rd (w :: l) j).toNat : Int)) 1 0 n
      rw [this]
      simp only [rd_cons_zero, rd_cons_succ, ih, val]
      have hw := w.isLt
      have e : (2:Nat) ^ (32 * (n + 1)) = 2 ^ 32 * 2 ^ (32 * n) := by
        rw [← Nat.pow_add]; congr 1; omega
      rw [e, Nat.mod_mul]
      have h1 : (w.toNat + 2 ^ 32 * val l) % 2 ^ 32 = w.toNat := by omega
      have h2 : (w.toNat + 2 ^ 32 * val l) / 2 ^ 32 = val l := by omega
      rw [h1, h2]; push_cast; rfl

/-- The value of a list obtained by writing digit `f i` to every word. -/
theorem val_map_range (f : Nat → W) (n : Nat) :
    (val ((List.range n).map f) : Int) = dsum (fun j => ((f j).toNat : Int)) 0 n := by
  induction n generalizing f with
  | zero => simp [val, dsum]
  | succ n ih =>
    rw [List.range_succ_eq_map]
    simp only [List.map_cons, List.map_map, val, dsum]
    have h1 := ih (f ∘ Nat.succ)
    push_cast
    rw [h1]
    have := dsum_shift (fun j => ((f j).toNat : Int)) 1 0 n
    simp only [Nat.zero_add] at this
    rw [this]; rfl

theorem val_cpy (c : Nat) (a : List W) : val (cpy c a) = val a % 2 ^ (32 * c) := by
  have := val_map_range (rd a) c
  rw [dsum_rd] at this
  exact_mod_cast this

theorem length_cpy (c : Nat) (a : List W) : (cpy c a).length = c := by simp [cpy]

/-- Splitting a 64-bit accumulator into the stored word and the signed carry. -/
theorem split_carry (x : BitVec 64) :
    x.toInt = ((x.setWidth 32).toNat : Int) + 2 ^ 32 * (carry x).toInt := by
  have h := x.isLt
  unfold carry
  rw [BitVec.toInt_signExtend_of_le (by omega)]
  rw [BitVec.toInt_eq_toNat_cond, BitVec.toInt_eq_toNat_cond]
  simp only [BitVec.toNat_setWidth, BitVec.toNat_ushiftRight, Nat.shiftRight_eq_div_pow]
  split <;> split <;> omega

theorem carry_bound (x : BitVec 64) : -2 ^ 31 ≤ (carry x).toInt ∧ (carry x).toInt < 2 ^ 31 := by
  unfold carry
  rw [BitVec.toInt_signExtend_of_le (by omega)]
  have h1 := BitVec.toInt_lt (x := (x >>> 32).setWidth 32)
  have h2 := BitVec.le_toInt (x := (x >>> 32).setWidth 32)
  constructor
  · exact h2
  · exact h1

theorem toInt_setWidth_32 (w : W) : (w.setWidth 64).toInt = (w.toNat : Int) := by
  have := w.isLt
  rw [BitVec.toInt_eq_toNat_cond]
  simp only [BitVec.toNat_setWidth]
  split <;> omega

theorem toInt_add_small (x y : BitVec 64) (h : -2 ^ 63 ≤ x.toInt + y.toInt)
    (h' : x.toInt + y.toInt < 2 ^ 63) : (x + y).toInt = x.toInt + y.toInt := by
  rw [BitVec.toInt_add, Int.bmod_def]
  omega

theorem toInt_sub_small (x y : BitVec 64) (h : -2 ^ 63 ≤ x.toInt - y.toInt)
    (h' : x.toInt - y.toInt < 2 ^ 63) : (x - y).toInt = x.toInt - y.toInt := by
  rw [BitVec.toInt_sub, Int.bmod_def]
  omega

theorem length_addKernel (a : List W) (f) (n i : Nat) (x) : (addKernel a f n i x).length = n := by
  induction n generalizing i x with
  | zero => rfl
  | succ n ih => simp [addKernel, ih]

theorem pow32_succ (n : Nat) : (2 : Int) ^ (32 * (n + 1)) = 2 ^ 32 * 2 ^ (32 * n) := by
  rw [← pow_add]; congr 1; omega

/-- The addition kernel adds the digits `d i` contributed by `BEXPR`, modulo `2^(32n)`. -/
theorem addKernel_val (a : List W) (f : Nat → BitVec 64 → BitVec 64) (d : Nat → Int)
    (hd : ∀ i x, -2 ^ 31 ≤ x.toInt → x.toInt < 2 ^ 33 → (f i x).toInt = x.toInt + d i)
    (n i : Nat) (x : BitVec 64) (h1 : -2 ^ 31 ≤ x.toInt) (h2 : x.toInt < 2 ^ 31) :
    (val (addKernel a f n i x) : Int) ≡
      x.toInt + dsum (fun j => ((rd a j).toNat : Int) + d j) i n [ZMOD 2 ^ (32 * n)] := by
  induction n generalizing i x with
  | zero => simp [Int.modEq_one]
  | succ n ih =>
    simp only [addKernel, val, dsum]
    set y := f i (x + (rd a i).setWidth 64) with hy
    have ha := (rd a i).isLt
    have e1 : (x + (rd a i).setWidth 64).toInt = x.toInt + (rd a i).toNat := by
      rw [toInt_add_small] <;> rw [toInt_setWidth_32] <;> omega
    have e2 : y.toInt = x.toInt + (rd a i).toNat + d i := by
      rw [hy, hd _ _ (by omega) (by omega), e1]
    have e3 := split_carry y
    obtain ⟨c1, c2⟩ := carry_bound y
    have := ih (i + 1) (carry y) c1 c2
    rw [pow32_succ]
    have h3 := this.mul_left' (c := 2 ^ 32)
    push_cast
    calc ((y.setWidth 32).toNat : Int) + 2 ^ 32 * (val (addKernel a f n (i + 1) (carry y)) : Int)
        ≡ ((y.setWidth 32).toNat : Int) + 2 ^ 32 * ((carry y).toInt +
          dsum (fun j => ((rd a j).toNat : Int) + d j) (i + 1) n) [ZMOD 2 ^ 32 * 2 ^ (32 * n)] :=
          Int.ModEq.add_left _ h3
      _ = _ := by rw [Int.mul_add, ← add_assoc, ← e3, e2]; ring

/-- From a congruence to the exact word value. -/
theorem val_of_modEq {l : List W} {n : Nat} (hl : l.length = n) {z : Int}
    (h : (val l : Int) ≡ z [ZMOD 2 ^ (32 * n)]) : (val l : Int) = z % 2 ^ (32 * n) := by
  have hv := val_lt l
  rw [hl] at hv
  have : (val l : Int) % 2 ^ (32 * n) = val l := by
    apply Int.emod_eq_of_lt (by omega)
    exact_mod_cast hv
  rw [← this]; exact h

theorem modEq_of_mod (a n : Nat) : ((a % 2 ^ (32 * n) : Nat) : Int) ≡ (a : Int) [ZMOD 2 ^ (32 * n)] := by
  push_cast
  exact Int.mod_modEq _ _

theorem addv_modEq (c : Nat) (a b : List W) :
    (val (addv c a b) : Int) ≡ (val a : Int) + val b [ZMOD 2 ^ (32 * c)] := by
  have h := addKernel_val a (fun i x => x + (rd b i).setWidth 64) (fun i => ((rd b i).toNat : Int))
    (by
      intro i x h1 h2
      have := (rd b i).isLt
      rw [toInt_add_small] <;> rw [toInt_setWidth_32] <;> omega) c 0 0 (by decide) (by decide)
  refine h.trans ?_
  rw [dsum_add, dsum_rd, dsum_rd]
  rw [show (0 : BitVec 64).toInt = 0 from rfl, zero_add]
  exact (modEq_of_mod _ _).add (modEq_of_mod _ _)

theorem subv_modEq (c : Nat) (a b : List W) :
    (val (subv c a b) : Int) ≡ (val a : Int) - val b [ZMOD 2 ^ (32 * c)] := by
  have h := addKernel_val a (fun i x => x - (rd b i).setWidth 64) (fun i => -((rd b i).toNat : Int))
    (by
      intro i x h1 h2
      have := (rd b i).isLt
      rw [toInt_sub_small] <;> rw [toInt_setWidth_32] <;> omega) c 0 0 (by decide) (by decide)
  refine h.trans ?_
  rw [dsum_add, dsum_neg, dsum_rd, dsum_rd]
  rw [show (0 : BitVec 64).toInt = 0 from rfl, zero_add]
  exact (modEq_of_mod _ _).sub (modEq_of_mod _ _)

theorem dsum_single (b : Int) (s : Nat) (i n : Nat) (hi : i ≤ s) :
    dsum (fun j => if j = s then b else 0) i n ≡ b * 2 ^ (32 * (s - i)) [ZMOD 2 ^ (32 * n)] := by
  induction n generalizing i with
  | zero => simp [Int.modEq_one]
  | succ n ih =>
    simp only [dsum]
    by_cases h : i = s
    · subst h
      have : ∀ m k, i < k → dsum (fun j => if j = i then b else 0) k m = 0 := by
        intro m
        induction m with
        | zero => intros; rfl
        | succ m ihm =>
          intro k hk
          simp only [dsum]
          rw [if_neg (by omega), ihm (k + 1) (by omega)]; simp
      rw [this n (i + 1) (by omega)]
      simp
    · have := (ih (i + 1) (by omega)).mul_left' (c := 2 ^ 32)
      rw [if_neg h, pow32_succ, zero_add]
      refine this.trans ?_
      have e : 32 * (s - i) = 32 * (s - (i + 1)) + 32 := by omega
      rw [e, pow_add]
      exact modEq_of_eq (by ring)

theorem adds_modEq (c : Nat) (a : List W) (b : BitVec 64) (s : Nat)
    (h1 : -2 ^ 62 < b.toInt) (h2 : b.toInt < 2 ^ 62) :
    (val (adds c a b s) : Int) ≡ (val a : Int) + b.toInt * 2 ^ (32 * s) [ZMOD 2 ^ (32 * c)] := by
  have h := addKernel_val a (fun i x => x + (if i = s then b else 0))
    (fun i => if i = s then b.toInt else 0)
    (by
      intro i x g1 g2
      split
      · rw [toInt_add_small] <;> omega
      · simp) c 0 0 (by decide) (by decide)
  refine h.trans ?_
  rw [dsum_add, dsum_rd]
  rw [show (0 : BitVec 64).toInt = 0 from rfl, zero_add]
  exact (modEq_of_mod _ _).add (dsum_single _ _ _ _ (by omega))

theorem val_mulx (c : Nat) (a : List W) : val (mulx c a) = (2 ^ 32 * val a) % 2 ^ (32 * c) := by
  have h := val_map_range (fun i => if i ≤ a.length ∧ i > 0 then rd a (i - 1) else 0) c
  have e : ∀ j, ((((if j ≤ a.length ∧ j > 0 then rd a (j - 1) else 0) : W).toNat : Int)) =
      ((rd (0 :: a) j).toNat : Int) := by
    intro j
    cases j with
    | zero => simp [rd]
    | succ j =>
      rw [rd_cons_succ]
      by_cases hj : j + 1 ≤ a.length
      · simp [hj]
      · rw [if_neg (by omega), rd_ge (by omega : a.length ≤ j)]
  rw [dsum_congr e, dsum_rd] at h
  have : val (0 :: a) = 2 ^ 32 * val a := by simp [val]
  rw [this] at h
  exact_mod_cast h

theorem length_mulx (c : Nat) (a : List W) : (mulx c a).length = c := by simp [mulx]

theorem length_mulsLoop (a : List W) (b : W) (acc) (out : List W) (i x) :
    (mulsLoop a b acc out i x).length = out.length := by
  induction out generalizing i x with
  | nil => rfl
  | cons o out ih => simp [mulsLoop, ih]

theorem length_imulsLoop (a : List W) (b) (acc) (out : List W) (i x) :
    (imulsLoop a b acc out i x).length = out.length := by
  induction out generalizing i x with
  | nil => rfl
  | cons o out ih => simp [imulsLoop, ih]

theorem mulsLoop_val (a : List W) (b : W) (acc : Bool) (out : List W) (i : Nat) (x : BitVec 64)
    (hx : x.toNat < 2 ^ 32) :
    (val (mulsLoop a b acc out i x) : Int) ≡ x.toNat +
      dsum (fun j => ((rd a j).toNat : Int) * b.toNat) i out.length + (if acc then val out else 0)
      [ZMOD 2 ^ (32 * out.length)] := by
  induction out generalizing i x with
  | nil => simp [Int.modEq_one]
  | cons o out ih =>
    simp only [mulsLoop]
    have ea : (if i < a.length then (rd a i).setWidth 64 * b.setWidth 64 else (0 : BitVec 64)).toNat
        = (rd a i).toNat * b.toNat := by
      have h1 := (rd a i).isLt
      have h2 := b.isLt
      split
      · rw [BitVec.toNat_mul]
        simp only [BitVec.toNat_setWidth]
        rw [Nat.mod_eq_of_lt (a := (rd a i).toNat) (by omega), Nat.mod_eq_of_lt (a := b.toNat) (by omega)]
        apply Nat.mod_eq_of_lt
        calc _ ≤ (2^32 - 1) * (2^32 - 1) := Nat.mul_le_mul (by omega) (by omega)
          _ < _ := by decide
      · rename_i h
        rw [rd_ge (by omega)]; simp
    have hprod : (rd a i).toNat * b.toNat ≤ (2^32 - 1) * (2^32 - 1) := by
      have h1 := (rd a i).isLt
      have h2 := b.isLt
      exact Nat.mul_le_mul (by omega) (by omega)
    have ho := o.isLt
    set p := (if i < a.length then (rd a i).setWidth 64 * b.setWidth 64 else (0 : BitVec 64)) with hp
    set y := (if acc = true then x + p + o.setWidth 64 else x + p) with hy
    have ey : y.toNat = x.toNat + (rd a i).toNat * b.toNat + (if acc then o.toNat else 0) := by
      rw [hy]
      split
      · simp only [BitVec.toNat_add, BitVec.toNat_setWidth, ea]
        omega
      · simp only [BitVec.toNat_add, ea]
        omega
    have hyl := y.isLt
    have es : y.toNat = (y.setWidth 32).toNat + 2 ^ 32 * (y >>> 32).toNat := by
      simp only [BitVec.toNat_setWidth, BitVec.toNat_ushiftRight, Nat.shiftRight_eq_div_pow]
      omega
    have hc : (y >>> 32).toNat < 2 ^ 32 := by
      simp only [BitVec.toNat_ushiftRight, Nat.shiftRight_eq_div_pow]; omega
    have h3 := (ih (i + 1) (y >>> 32) hc).mul_left' (c := 2 ^ 32)
    simp only [val, dsum, List.length_cons]
    rw [pow32_succ]
    push_cast
    refine (Int.ModEq.add_left _ h3).trans (modEq_of_eq ?_)
    have es' : (y.toNat : Int) = ((y.setWidth 32).toNat : Int) + 2 ^ 32 * ((y >>> 32).toNat : Int) := by
      exact_mod_cast es
    have ey' : (y.toNat : Int) = x.toNat + (rd a i).toNat * b.toNat + (if acc then o.toNat else 0) := by
      exact_mod_cast ey
    have : ((y.setWidth 32).toNat : Int) = x.toNat + (rd a i).toNat * b.toNat +
      ((if acc then o.toNat else 0 : Nat) : Int) - 2 ^ 32 * ((y >>> 32).toNat : Int) := by
      push_cast; linarith
    rw [this]
    cases acc
    · simp; ring
    · simp; ring

theorem muls_modEq (out a : List W) (b : W) (acc : Bool) :
    (val (muls out a b acc) : Int) ≡ (val a : Int) * b.toNat + (if acc then val out else 0)
      [ZMOD 2 ^ (32 * out.length)] := by
  have h := mulsLoop_val a b acc out 0 0 (by decide)
  refine h.trans ?_
  rw [dsum_mul, dsum_rd]
  rw [show (0 : BitVec 64).toNat = 0 from rfl, Nat.cast_zero, zero_add]
  exact Int.ModEq.add_right _ (Int.ModEq.mul_right _ (modEq_of_mod _ _))

theorem imulsLoop_val (a : List W) (b : BitVec 64) (acc : Bool) (out : List W) (i : Nat)
    (x : BitVec 64) (hb1 : -2 ^ 31 ≤ b.toInt) (hb2 : b.toInt < 2 ^ 31)
    (hx : -2 ^ 31 ≤ x.toInt) (hx' : x.toInt < 2 ^ 31) :
    (val (imulsLoop a b acc out i x) : Int) ≡ x.toInt +
      dsum (fun j => ((rd a j).toNat : Int) * b.toInt) i out.length + (if acc then val out else 0)
      [ZMOD 2 ^ (32 * out.length)] := by
  induction out generalizing i x with
  | nil => simp [Int.modEq_one]
  | cons o out ih =>
    simp only [imulsLoop]
    have hprod1 : ((rd a i).toNat : Int) * b.toInt ≤ (2^32 - 1) * (2^31 - 1) := by
      have h1 := (rd a i).isLt
      by_cases hs : 0 ≤ b.toInt
      · exact mul_le_mul (by omega) (by omega) hs (by decide)
      · have : ((rd a i).toNat : Int) * b.toInt ≤ 0 := by
          apply mul_nonpos_of_nonneg_of_nonpos <;> omega
        omega
    have hprod2 : -((2^32 - 1) * 2^31) ≤ ((rd a i).toNat : Int) * b.toInt := by
      have h1 := (rd a i).isLt
      by_cases hs : 0 ≤ b.toInt
      · have : 0 ≤ ((rd a i).toNat : Int) * b.toInt := by
          apply mul_nonneg <;> omega
        omega
      · have : ((rd a i).toNat : Int) * (-b.toInt) ≤ (2^32-1) * 2^31 :=
          mul_le_mul (by omega) (by omega) (by omega) (by decide)
        linarith
    have ea : (if i < a.length then (rd a i).setWidth 64 * b else (0 : BitVec 64)).toInt
        = (rd a i).toNat * b.toInt := by
      split
      · rw [BitVec.toInt_mul, toInt_setWidth_32, Int.bmod_def]
        omega
      · rename_i h
        rw [rd_ge (by omega)]; simp
    have ho := o.isLt
    set p := (if i < a.length then (rd a i).setWidth 64 * b else (0 : BitVec 64)) with hp
    set y := (if acc = true then x + p + o.setWidth 64 else x + p) with hy
    have ey : y.toInt = x.toInt + (rd a i).toNat * b.toInt + (if acc then (o.toNat : Int) else 0) := by
      rw [hy]
      by_cases hacc : acc = true
      · simp only [hacc, if_true]
        have e1 : (x + p).toInt = x.toInt + p.toInt := by rw [toInt_add_small] <;> omega
        rw [toInt_add_small] <;> rw [e1, toInt_setWidth_32] <;> omega
      · simp only [hacc]
        rw [if_neg (by simp), if_neg (by simp), toInt_add_small] <;> omega
    have es := split_carry y
    obtain ⟨c1, c2⟩ := carry_bound y
    have h3 := (ih (i + 1) (carry y) c1 c2).mul_left' (c := 2 ^ 32)
    simp only [val, dsum, List.length_cons]
    rw [pow32_succ]
    push_cast
    refine (Int.ModEq.add_left _ h3).trans (modEq_of_eq ?_)
    have : ((y.setWidth 32).toNat : Int) = x.toInt + (rd a i).toNat * b.toInt +
      (if acc then (o.toNat : Int) else 0) - 2 ^ 32 * (carry y).toInt := by
      linarith
    rw [this]
    cases acc
    · simp; ring
    · simp; ring

theorem imuls_modEq (out a : List W) (b : BitVec 64) (acc : Bool)
    (hb1 : -2 ^ 31 ≤ b.toInt) (hb2 : b.toInt < 2 ^ 31) :
    (val (imuls out a b acc) : Int) ≡ (val a : Int) * b.toInt + (if acc then val out else 0)
      [ZMOD 2 ^ (32 * out.length)] := by
  have h := imulsLoop_val a b acc out 0 0 hb1 hb2 (by decide) (by decide)
  refine h.trans ?_
  rw [dsum_mul, dsum_rd]
  rw [show (0 : BitVec 64).toInt = 0 from rfl, zero_add]
  exact Int.ModEq.add_right _ (Int.ModEq.mul_right _ (modEq_of_mod _ _))

end Vlong
