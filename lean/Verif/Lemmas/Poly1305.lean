import Verif.Model.Poly1305
import Verif.Spec.Poly1305
import Mathlib.Tactic.Ring
import Mathlib.Data.Nat.ModEq

namespace Poly1305
open Spec

/-- The number a `p1305bn_t` stands for. -/
def bval (a : Bn) : Nat :=
  a.w0.toNat + 2 ^ 32 * a.w1.toNat + 2 ^ 64 * a.w2.toNat + 2 ^ 96 * a.w3.toNat + 2 ^ 128 * a.w4.toNat

def dval (a : Bd) : Nat :=
  a.w0.toNat + 2 ^ 32 * a.w1.toNat + 2 ^ 64 * a.w2.toNat + 2 ^ 96 * a.w3.toNat + 2 ^ 128 * a.w4.toNat

/-- The borrow trick: bit 63 of the 64-bit difference. -/
theorem carry_bit (a u : W) : (((a + u).setWidth 64 - u.setWidth 64 : D) >>> 63).setWidth 32 =
    (BitVec.ofNat 32 ((a.toNat + u.toNat) / 2 ^ 32)) := by
  apply BitVec.eq_of_toNat_eq
  have ha := a.isLt
  have hu := u.isLt
  rw [BitVec.toNat_setWidth, BitVec.toNat_ushiftRight, BitVec.toNat_sub, BitVec.toNat_setWidth, BitVec.toNat_setWidth,
    BitVec.toNat_add, BitVec.toNat_ofNat, Nat.shiftRight_eq_div_pow]
  omega

theorem addStep_spec (a b u : W) (hu : u.toNat ≤ 1) :
    (addStep a b u).1.toNat + 2 ^ 32 * (addStep a b u).2.toNat = a.toNat + b.toNat + u.toNat ∧ (addStep a b u).2.toNat ≤ 1 := by
  unfold addStep
  simp only [carry_bit]
  have ha := a.isLt
  have hb := b.isLt
  rw [BitVec.toNat_add, BitVec.toNat_add, BitVec.toNat_add, BitVec.toNat_ofNat, BitVec.toNat_ofNat]
  omega

theorem add_spec (a b : Bn) (h : bval a + bval b < 2 ^ 160) : bval (add a b) = bval a + bval b := by
  unfold add bval at *
  obtain ⟨e0, c0⟩ := addStep_spec a.w0 b.w0 0 (by decide)
  obtain ⟨e1, c1⟩ := addStep_spec a.w1 b.w1 _ c0
  obtain ⟨e2, c2⟩ := addStep_spec a.w2 b.w2 _ c1
  obtain ⟨e3, c3⟩ := addStep_spec a.w3 b.w3 _ c2
  obtain ⟨e4, c4⟩ := addStep_spec a.w4 b.w4 _ c3
  have z : (0 : W).toNat = 0 := rfl
  simp only [] at *
  rw [z] at e0
  omega

/-- Low four words of a sum: what the tag shows. -/
def low4 (a : Bn) : Nat := a.w0.toNat + 2 ^ 32 * a.w1.toNat + 2 ^ 64 * a.w2.toNat + 2 ^ 96 * a.w3.toNat

theorem low4_eq (a : Bn) : low4 a = bval a % 2 ^ 128 := by
  unfold low4 bval
  have := a.w0.isLt; have := a.w1.isLt; have := a.w2.isLt; have := a.w3.isLt
  omega

theorem and_ffff (x : D) : (x &&& 0xffffffff#64).toNat = x.toNat % 2 ^ 32 := by
  rw [BitVec.toNat_and]
  exact Nat.and_two_pow_sub_one_eq_mod x.toNat 32

theorem and_3 (x : D) : (x &&& 3#64).toNat = x.toNat % 4 := by
  rw [BitVec.toNat_and]
  exact Nat.and_two_pow_sub_one_eq_mod x.toNat 2

/-- No word overflows while carrying. -/
def carryFits (w : Bd) : Prop :=
  w.w1.toNat + w.w0.toNat / 2 ^ 32 < 2 ^ 64 ∧ w.w2.toNat + (w.w1.toNat + w.w0.toNat / 2 ^ 32) / 2 ^ 32 < 2 ^ 64 ∧
  w.w3.toNat + (w.w2.toNat + (w.w1.toNat + w.w0.toNat / 2 ^ 32) / 2 ^ 32) / 2 ^ 32 < 2 ^ 64 ∧
  w.w4.toNat + (w.w3.toNat + (w.w2.toNat + (w.w1.toNat + w.w0.toNat / 2 ^ 32) / 2 ^ 32) / 2 ^ 32) / 2 ^ 32 < 2 ^ 64

theorem carry_spec (w : Bd) (h : carryFits w) : dval (carry w) = dval w ∧
    (carry w).w0.toNat < 2 ^ 32 ∧ (carry w).w1.toNat < 2 ^ 32 ∧ (carry w).w2.toNat < 2 ^ 32 ∧ (carry w).w3.toNat < 2 ^ 32 := by
  unfold carryFits at h
  unfold carry dval
  simp only [and_ffff, BitVec.toNat_add, BitVec.toNat_ushiftRight, Nat.shiftRight_eq_div_pow]
  generalize w.w0.toNat = a0 at *
  generalize w.w1.toNat = a1 at *
  generalize w.w2.toNat = a2 at *
  generalize w.w3.toNat = a3 at *
  generalize w.w4.toNat = a4 at *
  obtain ⟨h1, h2, h3, h4⟩ := h
  rw [Nat.mod_eq_of_lt h1, Nat.mod_eq_of_lt h2, Nat.mod_eq_of_lt h3, Nat.mod_eq_of_lt h4]
  refine ⟨by omega, by omega, by omega, by omega, by omega⟩

/-- `fold` subtracts a multiple of the prime. -/
theorem fold_spec (w : Bd) (h : w.w0.toNat + 5 * (w.w4.toNat / 4) < 2 ^ 64) :
    dval (fold w) + p1305 * (w.w4.toNat / 4) = dval w ∧ (fold w).w0.toNat = w.w0.toNat + 5 * (w.w4.toNat / 4) ∧
      (fold w).w4.toNat = w.w4.toNat % 4 := by
  have e0 : (fold w).w0.toNat = w.w0.toNat + 5 * (w.w4.toNat / 4) := by
    unfold fold
    rw [BitVec.toNat_add, BitVec.toNat_mul, BitVec.toNat_ushiftRight, Nat.shiftRight_eq_div_pow, show (5#64).toNat = 5 from rfl,
      show (2 : Nat) ^ 2 = 4 from rfl, Nat.mod_eq_of_lt (a := 5 * _) (by omega), Nat.mod_eq_of_lt h]
  have e4 : (fold w).w4.toNat = w.w4.toNat % 4 := and_3 _
  refine ⟨?_, e0, e4⟩
  unfold dval
  rw [e0, e4, show (fold w).w1 = w.w1 from rfl, show (fold w).w2 = w.w2 from rfl, show (fold w).w3 = w.w3 from rfl]
  unfold p1305
  omega

theorem narrow_spec (w : Bd) (h0 : w.w0.toNat < 2 ^ 32) (h1 : w.w1.toNat < 2 ^ 32) (h2 : w.w2.toNat < 2 ^ 32) (h3 : w.w3.toNat < 2 ^ 32)
    (h4 : w.w4.toNat < 2 ^ 32) : bval (narrow w) = dval w := by
  unfold bval narrow dval
  simp only [BitVec.toNat_setWidth]
  rw [Nat.mod_eq_of_lt h0, Nat.mod_eq_of_lt h1, Nat.mod_eq_of_lt h2, Nat.mod_eq_of_lt h3, Nat.mod_eq_of_lt h4]

/-- Fold then carry, for words that leave room. -/
theorem reduce_spec (w : Bd) (b : Nat) (h0 : w.w0.toNat < 2 ^ 32) (h1 : w.w1.toNat < 2 ^ 32) (h2 : w.w2.toNat < 2 ^ 32) (h3 : w.w3.toNat < 2 ^ 32)
    (h4 : w.w4.toNat ≤ b) (hb : b ≤ 2 ^ 48) :
    bval (narrow (carry (fold w))) % p1305 = dval w % p1305 ∧ bval (narrow (carry (fold w))) < 2 ^ 130 + 5 * (b / 4) := by
  obtain ⟨e, f0, f4⟩ := fold_spec w (by omega)
  have f1 : (fold w).w1 = w.w1 := rfl
  have f2 : (fold w).w2 = w.w2 := rfl
  have f3 : (fold w).w3 = w.w3 := rfl
  obtain ⟨c, c0, c1, c2, c3⟩ := carry_spec (fold w) (by
    unfold carryFits
    rw [f0, f4, f1, f2, f3]
    omega)
  have hd : dval (fold w) < 2 ^ 130 + 5 * (b / 4) := by
    unfold dval
    rw [f0, f4, f1, f2, f3]
    omega
  have c4 : (carry (fold w)).w4.toNat < 2 ^ 32 := by
    have : dval (carry (fold w)) < 2 ^ 131 := by rw [c]; omega
    unfold dval at this
    omega
  rw [narrow_spec _ c0 c1 c2 c3 c4, c]
  refine ⟨?_, hd⟩
  rw [← e, Nat.add_mul_mod_self_left]

theorem modp_spec (x : Bn) : bval (modp x) % p1305 = bval x % p1305 ∧ bval (modp x) < 2 ^ 130 + 5 * (x.w4.toNat / 4) := by
  have hx : dval ⟨x.w0.setWidth 64, x.w1.setWidth 64, x.w2.setWidth 64, x.w3.setWidth 64, x.w4.setWidth 64⟩ = bval x := by
    unfold dval bval
    simp only [BitVec.toNat_setWidth]
    have := x.w0.isLt; have := x.w1.isLt; have := x.w2.isLt; have := x.w3.isLt; have := x.w4.isLt
    omega
  have := x.w0.isLt; have := x.w1.isLt; have := x.w2.isLt; have := x.w3.isLt; have := x.w4.isLt
  have h := reduce_spec ⟨x.w0.setWidth 64, x.w1.setWidth 64, x.w2.setWidth 64, x.w3.setWidth 64, x.w4.setWidth 64⟩ x.w4.toNat
    (by simp only [BitVec.toNat_setWidth]; omega) (by simp only [BitVec.toNat_setWidth]; omega) (by simp only [BitVec.toNat_setWidth]; omega)
    (by simp only [BitVec.toNat_setWidth]; omega) (by simp only [BitVec.toNat_setWidth]; omega) (by omega)
  rw [hx] at h
  exact h

theorem mulw (a : W) (x : D) (hx : x.toNat ≤ 2 ^ 32) : (a.setWidth 64 * x).toNat = a.toNat * x.toNat ∧ a.toNat * x.toNat ≤ (2 ^ 32 - 1) * 2 ^ 32 := by
  have ha := a.isLt
  have h1 : a.toNat * x.toNat ≤ (2 ^ 32 - 1) * 2 ^ 32 := Nat.mul_le_mul (by omega) hx
  refine ⟨?_, h1⟩
  rw [BitVec.toNat_mul, BitVec.toNat_setWidth, Nat.mod_eq_of_lt (a := a.toNat) (by omega), Nat.mod_eq_of_lt (by omega)]

theorem scl_spec (a : Bn) (x : D) (hx : x.toNat ≤ 2 ^ 32) (ha : a.w4.toNat ≤ 7) :
    bval (scl a x) % p1305 = bval a * x.toNat % p1305 ∧ bval (scl a x) < 2 ^ 130 + 2 ^ 37 := by
  obtain ⟨m0, b0⟩ := mulw a.w0 x hx
  obtain ⟨m1, b1⟩ := mulw a.w1 x hx
  obtain ⟨m2, b2⟩ := mulw a.w2 x hx
  obtain ⟨m3, b3⟩ := mulw a.w3 x hx
  obtain ⟨m4, b4⟩ := mulw a.w4 x hx
  have b5 : a.w4.toNat * x.toNat ≤ 7 * 2 ^ 32 := Nat.mul_le_mul ha hx
  unfold scl
  set w : Bd := ⟨a.w0.setWidth 64 * x, a.w1.setWidth 64 * x, a.w2.setWidth 64 * x, a.w3.setWidth 64 * x, a.w4.setWidth 64 * x⟩ with hw
  have hv : dval w = bval a * x.toNat := by
    unfold dval bval
    rw [hw]
    simp only []
    rw [m0, m1, m2, m3, m4]; ring
  have hfit : carryFits w := by
    unfold carryFits
    rw [hw]
    simp only []
    rw [m0, m1, m2, m3, m4]
    generalize a.w0.toNat * x.toNat = q0 at *
    generalize a.w1.toNat * x.toNat = q1 at *
    generalize a.w2.toNat * x.toNat = q2 at *
    generalize a.w3.toNat * x.toNat = q3 at *
    generalize a.w4.toNat * x.toNat = q4 at *
    omega
  obtain ⟨c, c0, c1, c2, c3⟩ := carry_spec w hfit
  have c4 : (carry w).w4.toNat ≤ 8 * 2 ^ 32 := by
    have hva : bval a < 2 ^ 131 := by
      unfold bval
      have := a.w0.isLt; have := a.w1.isLt; have := a.w2.isLt; have := a.w3.isLt
      omega
    have : dval w ≤ 2 ^ 131 * 2 ^ 32 := by
      rw [hv]; exact Nat.mul_le_mul hva.le hx
    rw [← c] at this
    unfold dval at this
    omega
  obtain ⟨r1, r2⟩ := reduce_spec (carry w) (8 * 2 ^ 32) c0 c1 c2 c3 c4 (by omega)
  rw [c, hv] at r1
  exact ⟨r1, lt_of_lt_of_le r2 (by omega)⟩

theorem w4_le (a : Bn) (k : Nat) (h : bval a < 2 ^ 128 * (k + 1)) : a.w4.toNat ≤ k := by
  unfold bval at h
  omega

theorem sclPow_spec (i : Nat) : ∀ (m : Bn), bval m < 2 ^ 130 + 2 ^ 37 →
    bval (sclPow m i) % p1305 = bval m * 2 ^ (32 * i) % p1305 ∧ bval (sclPow m i) < 2 ^ 130 + 2 ^ 37 := by
  induction i with
  | zero => intro m h; refine ⟨?_, h⟩; rw [Nat.mul_zero, Nat.pow_zero, Nat.mul_one]; rfl
  | succ i ih =>
    intro m h
    obtain ⟨s1, s2⟩ := scl_spec m 0x100000000#64 (by decide) (w4_le m 7 (by omega))
    obtain ⟨g1, g2⟩ := ih _ s2
    refine ⟨?_, g2⟩
    show bval (sclPow (scl m 0x100000000#64) i) % p1305 = _
    rw [g1, Nat.mul_mod, s1, ← Nat.mul_mod, show (0x100000000#64).toNat = 2 ^ 32 from rfl]
    rw [show 32 * (i + 1) = 32 + 32 * i by ring, Nat.pow_add, Nat.mul_assoc]

theorem term_spec (a : Bn) (ha : a.w4.toNat ≤ 7) (x : W) (i : Nat) :
    bval (sclPow (scl a (x.setWidth 64)) i) % p1305 = bval a * (x.toNat * 2 ^ (32 * i)) % p1305 ∧
      bval (sclPow (scl a (x.setWidth 64)) i) < 2 ^ 130 + 2 ^ 37 := by
  have hx := x.isLt
  have e : (x.setWidth 64 : D).toNat = x.toNat := by rw [BitVec.toNat_setWidth]; exact Nat.mod_eq_of_lt (by omega)
  obtain ⟨s1, s2⟩ := scl_spec a (x.setWidth 64) (by omega) ha
  obtain ⟨g1, g2⟩ := sclPow_spec i _ s2
  refine ⟨?_, g2⟩
  rw [g1, Nat.mul_mod, s1, ← Nat.mul_mod, e, Nat.mul_assoc]

theorem mod_add_congr {n a b a' b' : Nat} (h1 : a % n = a' % n) (h2 : b % n = b' % n) : (a + b) % n = (a' + b') % n := by
  rw [Nat.add_mod, h1, h2, ← Nat.add_mod]

theorem mul_spec (a b : Bn) (ha : a.w4.toNat ≤ 7) :
    bval (mul a b) % p1305 = bval a * bval b % p1305 ∧ bval (mul a b) < 2 ^ 130 + 30 := by
  unfold mul
  obtain ⟨t4, l4⟩ := term_spec a ha b.w4 4
  obtain ⟨t3, l3⟩ := term_spec a ha b.w3 3
  obtain ⟨t2, l2⟩ := term_spec a ha b.w2 2
  obtain ⟨t1, l1⟩ := term_spec a ha b.w1 1
  obtain ⟨t0, l0⟩ := term_spec a ha b.w0 0
  generalize sclPow (scl a (b.w4.setWidth 64)) 4 = m4 at *
  generalize sclPow (scl a (b.w3.setWidth 64)) 3 = m3 at *
  generalize sclPow (scl a (b.w2.setWidth 64)) 2 = m2 at *
  generalize sclPow (scl a (b.w1.setWidth 64)) 1 = m1 at *
  generalize sclPow (scl a (b.w0.setWidth 64)) 0 = m0 at *
  have z : bval zero = 0 := rfl
  have a4 := add_spec zero m4 (by rw [z]; omega)
  have a3 := add_spec (add zero m4) m3 (by rw [a4, z]; omega)
  have a2 := add_spec (add (add zero m4) m3) m2 (by rw [a3, a4, z]; omega)
  have a1 := add_spec (add (add (add zero m4) m3) m2) m1 (by rw [a2, a3, a4, z]; omega)
  have a0 := add_spec (add (add (add (add zero m4) m3) m2) m1) m0 (by rw [a1, a2, a3, a4, z]; omega)
  simp only []
  set n := add (add (add (add (add zero m4) m3) m2) m1) m0
  have hn : bval n = bval m4 + bval m3 + bval m2 + bval m1 + bval m0 := by rw [a0, a1, a2, a3, a4, z]; omega
  obtain ⟨r1, r2⟩ := modp_spec n
  have hw := w4_le n 23 (by rw [hn]; omega)
  refine ⟨?_, by omega⟩
  rw [r1, hn]
  have hb : bval a * bval b = bval a * (b.w4.toNat * 2 ^ (32 * 4)) + bval a * (b.w3.toNat * 2 ^ (32 * 3)) +
      bval a * (b.w2.toNat * 2 ^ (32 * 2)) + bval a * (b.w1.toNat * 2 ^ (32 * 1)) + bval a * (b.w0.toNat * 2 ^ (32 * 0)) := by
    conv_lhs => rw [show bval b = b.w0.toNat + 2 ^ 32 * b.w1.toNat + 2 ^ 64 * b.w2.toNat + 2 ^ 96 * b.w3.toNat + 2 ^ 128 * b.w4.toNat from rfl]
    ring
  rw [hb]
  exact mod_add_congr (mod_add_congr (mod_add_congr (mod_add_congr t4 t3) t2) t1) t0

theorem addtoStep_spec (a u : W) : (addtoStep a u).1.toNat + 2 ^ 32 * (addtoStep a u).2.toNat = a.toNat + u.toNat ∧ (addtoStep a u).2.toNat ≤ 1 := by
  unfold addtoStep
  simp only [carry_bit]
  have ha := a.isLt
  have hb := u.isLt
  rw [BitVec.toNat_add, BitVec.toNat_ofNat]
  omega

theorem addto4_spec (a : Bn) (u : W) (h : a.w4.toNat + u.toNat < 2 ^ 32) : bval (addto4 a u) = bval a + 2 ^ 128 * u.toNat := by
  obtain ⟨h1, h2⟩ := addtoStep_spec a.w4 u
  unfold addto4
  split
  · rename_i hu; subst hu; simp
  · unfold bval
    simp only []
    omega

theorem addto4_one (e : Bn) (h : e.w4.toNat ≤ 5) : bval (addto4 e 1#32) = bval e + 2 ^ 128 := by
  have one : (1#32).toNat = 1 := rfl
  rw [addto4_spec e 1#32 (by rw [one]; omega), one, Nat.mul_one]

theorem addto3_spec (a : Bn) (u : W) (h : a.w4.toNat + 1 < 2 ^ 32) : bval (addto3 a u) = bval a + 2 ^ 96 * u.toNat := by
  obtain ⟨h1, h2⟩ := addtoStep_spec a.w3 u
  unfold addto3
  split
  · rename_i hu; subst hu; simp
  · rw [addto4_spec _ _ (by simp only []; omega)]
    unfold bval
    simp only []
    omega

theorem addto2_spec (a : Bn) (u : W) (h : a.w4.toNat + 1 < 2 ^ 32) : bval (addto2 a u) = bval a + 2 ^ 64 * u.toNat := by
  obtain ⟨h1, h2⟩ := addtoStep_spec a.w2 u
  unfold addto2
  split
  · rename_i hu; subst hu; simp
  · rw [addto3_spec _ _ (by simp only []; omega)]
    unfold bval
    simp only []
    omega

theorem addto1_spec (a : Bn) (u : W) (h : a.w4.toNat + 1 < 2 ^ 32) : bval (addto1 a u) = bval a + 2 ^ 32 * u.toNat := by
  obtain ⟨h1, h2⟩ := addtoStep_spec a.w1 u
  unfold addto1
  split
  · rename_i hu; subst hu; simp
  · rw [addto2_spec _ _ (by simp only []; omega)]
    unfold bval
    simp only []
    omega

theorem addto0_spec (a : Bn) (u : W) (h : a.w4.toNat + 1 < 2 ^ 32) : bval (addto0 a u) = bval a + u.toNat := by
  obtain ⟨h1, h2⟩ := addtoStep_spec a.w0 u
  unfold addto0
  split
  · rename_i hu; subst hu; simp
  · rw [addto1_spec _ _ (by simp only []; omega)]
    unfold bval
    simp only []
    omega

theorem or_sh (a b : Nat) (k : Nat) (hb : b < 2 ^ k) : b ||| a * 2 ^ k = b + a * 2 ^ k := by
  have := Nat.two_pow_add_eq_or_of_lt hb a
  rw [Nat.or_comm, Nat.mul_comm a, ← this, Nat.add_comm]

theorem le32_toNat (p : List Byte) (i : Nat) : (le32 p i).toNat =
    (p.getD (4 * i) 0).toNat + 256 * (p.getD (4 * i + 1) 0).toNat + 256 ^ 2 * (p.getD (4 * i + 2) 0).toNat + 256 ^ 3 * (p.getD (4 * i + 3) 0).toNat := by
  unfold le32
  generalize p.getD (4 * i) 0 = b0
  generalize p.getD (4 * i + 1) 0 = b1
  generalize p.getD (4 * i + 2) 0 = b2
  generalize p.getD (4 * i + 3) 0 = b3
  have h0 := b0.isLt; have h1 := b1.isLt; have h2 := b2.isLt; have h3 := b3.isLt
  simp only [BitVec.toNat_or, BitVec.toNat_shiftLeft, BitVec.toNat_setWidth, Nat.shiftLeft_eq]
  rw [Nat.mod_eq_of_lt (a := b0.toNat) (by omega), Nat.mod_eq_of_lt (a := b1.toNat) (by omega), Nat.mod_eq_of_lt (a := b2.toNat) (by omega),
    Nat.mod_eq_of_lt (a := b3.toNat) (by omega), Nat.mod_eq_of_lt (a := b1.toNat * 2 ^ 8) (by omega),
    Nat.mod_eq_of_lt (a := b2.toNat * 2 ^ 16) (by omega), Nat.mod_eq_of_lt (a := b3.toNat * 2 ^ 24) (by omega),
    or_sh _ _ 8 (by omega), or_sh _ _ 16 (by omega), or_sh _ _ 24 (by omega)]
  omega

theorem leNat16 (l : List Byte) (h : l.length = 16) : leNat l = (le32 l 0).toNat + 2 ^ 32 * (le32 l 1).toNat + 2 ^ 64 * (le32 l 2).toNat + 2 ^ 96 * (le32 l 3).toNat := by
  simp only [le32_toNat]
  match l, h with
  | [a0, a1, a2, a3, a4, a5, a6, a7, a8, a9, a10, a11, a12, a13, a14, a15], _ =>
    simp only [leNat, List.getD_cons_zero, List.getD_cons_succ, Nat.mul_zero, Nat.zero_add, Nat.reduceMul, Nat.reduceAdd]
    ring

/-- What one block does to the accumulator. -/
theorem block_spec (c : Ctx) (hc : bval c.a < 2 ^ 130 + 30) (d : List Byte) (hd : d.length = 16) :
    bval (block c d).a % p1305 = (bval c.a + (leNat d + 2 ^ 128)) * bval c.r % p1305 ∧ bval (block c d).a < 2 ^ 130 + 30 ∧
      (block c d).r = c.r ∧ (block c d).s = c.s := by
  have l0 := (le32 d 0).isLt
  have l1 := (le32 d 1).isLt
  have l2 := (le32 d 2).isLt
  have l3 := (le32 d 3).isLt
  have hv := leNat16 d hd
  have a0 := addto0_spec c.a (le32 d 0) (by have := w4_le c.a 4 (by omega); omega)
  obtain ⟨e0, he0⟩ : ∃ e, e = addto0 c.a (le32 d 0) := ⟨_, rfl⟩
  rw [← he0] at a0
  have a1 := addto1_spec e0 (le32 d 1) (by have := w4_le e0 5 (by omega); omega)
  obtain ⟨e1, he1⟩ : ∃ e, e = addto1 e0 (le32 d 1) := ⟨_, rfl⟩
  rw [← he1] at a1
  have a2 := addto2_spec e1 (le32 d 2) (by have := w4_le e1 5 (by omega); omega)
  obtain ⟨e2, he2⟩ : ∃ e, e = addto2 e1 (le32 d 2) := ⟨_, rfl⟩
  rw [← he2] at a2
  have a3 := addto3_spec e2 (le32 d 3) (by have := w4_le e2 5 (by omega); omega)
  obtain ⟨e3, he3⟩ : ∃ e, e = addto3 e2 (le32 d 3) := ⟨_, rfl⟩
  rw [← he3] at a3
  have a4 := addto4_one e3 (w4_le e3 5 (by omega))
  obtain ⟨e4, he4⟩ : ∃ e, e = addto4 e3 1#32 := ⟨_, rfl⟩
  rw [← he4] at a4
  have hf : bval e4 = bval c.a + (leNat d + 2 ^ 128) := by rw [a4, a3, a2, a1, a0, hv]; ring
  have hr : (block c d) = { c with a := mul e4 c.r } := by rw [he4, he3, he2, he1, he0]; rfl
  obtain ⟨m1, m2⟩ := mul_spec e4 c.r (w4_le _ 7 (by omega))
  rw [hf] at m1
  rw [hr]
  exact ⟨m1, m2, rfl, rfl⟩

theorem blocks_spec (bs : List (List Byte)) (hb : ∀ b ∈ bs, b.length = 16) : ∀ (c : Ctx) (acc : Nat), bval c.a < 2 ^ 130 + 30 →
    bval c.a % p1305 = acc % p1305 →
    bval (bs.foldl block c).a % p1305 = poly1305Acc (bval c.r) acc bs % p1305 ∧ bval (bs.foldl block c).a < 2 ^ 130 + 30 ∧
      (bs.foldl block c).r = c.r ∧ (bs.foldl block c).s = c.s := by
  induction bs with
  | nil => intro c acc h1 h2; exact ⟨h2, h1, rfl, rfl⟩
  | cons b bs ih =>
    intro c acc h1 h2
    obtain ⟨s1, s2, s3, s4⟩ := block_spec c h1 b (hb b (by simp))
    have := ih (fun x hx => hb x (by simp [hx])) (block c b) ((acc + (leNat b + 2 ^ 128)) * bval c.r % p1305) s2 (by
      rw [s1, Nat.mod_mod]
      rw [Nat.mul_mod, mod_add_congr h2 rfl, ← Nat.mul_mod])
    rw [s3, s4] at this
    exact this

theorem and_split (a b c d : Nat) (hb : b < 2 ^ 32) (hd : d < 2 ^ 32) :
    (b + 2 ^ 32 * a) &&& (d + 2 ^ 32 * c) = (b &&& d) + 2 ^ 32 * (a &&& c) := by
  have hbd : b &&& d < 2 ^ 32 := lt_of_le_of_lt Nat.and_le_left hb
  apply Nat.eq_of_testBit_eq
  intro i
  rw [Nat.testBit_and, Nat.add_comm b, Nat.add_comm d, Nat.add_comm (b &&& d), Nat.testBit_two_pow_mul_add a hb, Nat.testBit_two_pow_mul_add c hd,
    Nat.testBit_two_pow_mul_add _ hbd]
  split
  · rw [Nat.testBit_and]
  · rw [Nat.testBit_and]

theorem getD_take (l : List Byte) (n i : Nat) (h : i < n) : (l.take n).getD i 0 = l.getD i 0 := by
  rw [List.getD_eq_getElem?_getD, List.getD_eq_getElem?_getD, List.getElem?_take, if_pos h]

theorem getD_drop (l : List Byte) (n i : Nat) : (l.drop n).getD i 0 = l.getD (n + i) 0 := by
  rw [List.getD_eq_getElem?_getD, List.getD_eq_getElem?_getD, List.getElem?_drop]

theorem init_spec (k : List Byte) (hk : k.length = 32) :
    bval (init k).r = leNat (k.take 16) &&& clampMask ∧ bval (init k).s = leNat ((k.drop 16).take 16) ∧ bval (init k).a = 0 := by
  have e1 : ∀ i, i < 4 → le32 (k.take 16) i = le32 k i := by
    intro i hi
    unfold le32
    rw [getD_take _ _ _ (by omega), getD_take _ _ _ (by omega), getD_take _ _ _ (by omega), getD_take _ _ _ (by omega)]
  have e2 : ∀ i, i < 4 → le32 ((k.drop 16).take 16) i = le32 k (i + 4) := by
    intro i hi
    unfold le32
    rw [getD_take _ _ _ (by omega), getD_take _ _ _ (by omega), getD_take _ _ _ (by omega), getD_take _ _ _ (by omega),
      getD_drop, getD_drop, getD_drop, getD_drop]
    rw [show 16 + 4 * i = 4 * (i + 4) by omega, show 16 + (4 * i + 1) = 4 * (i + 4) + 1 by omega,
      show 16 + (4 * i + 2) = 4 * (i + 4) + 2 by omega, show 16 + (4 * i + 3) = 4 * (i + 4) + 3 by omega]
  refine ⟨?_, ?_, rfl⟩
  · rw [leNat16 _ (by simp [hk]), e1 0 (by omega), e1 1 (by omega), e1 2 (by omega), e1 3 (by omega)]
    unfold init bval
    simp only [BitVec.toNat_and]
    have l0 := (le32 k 0).isLt
    have l1 := (le32 k 1).isLt
    have l2 := (le32 k 2).isLt
    generalize (le32 k 0).toNat = x0 at *
    generalize (le32 k 1).toNat = x1 at *
    generalize (le32 k 2).toNat = x2 at *
    generalize (le32 k 3).toNat = x3 at *
    rw [show x0 + 2 ^ 32 * x1 + 2 ^ 64 * x2 + 2 ^ 96 * x3 = x0 + 2 ^ 32 * (x1 + 2 ^ 32 * (x2 + 2 ^ 32 * x3)) by ring,
      show clampMask = 0x0fffffff + 2 ^ 32 * (0x0ffffffc + 2 ^ 32 * (0x0ffffffc + 2 ^ 32 * 0x0ffffffc)) from rfl,
      and_split _ _ _ _ l0 (by omega), and_split _ _ _ _ l1 (by omega), and_split _ _ _ _ l2 (by omega)]
    rw [show (0x0fffffff#32).toNat = 0x0fffffff from rfl, show (0x0ffffffc#32).toNat = 0x0ffffffc from rfl,
      show (0 : W).toNat = 0 from rfl]
    ring
  · rw [leNat16 _ (by simp [hk]), e2 0 (by omega), e2 1 (by omega), e2 2 (by omega), e2 3 (by omega)]
    unfold init bval
    simp only [Nat.zero_add, Nat.reduceAdd]
    rw [show (0 : W).toNat = 0 from rfl]
    rfl

theorem tag_leNat (c : Ctx) : leNat (tag c) = low4 c.a ∧ (tag c).length = 16 := by
  refine ⟨?_, rfl⟩
  unfold tag low4
  have sh : ∀ (w : W) (k : Nat), ((w >>> k).setWidth 8 : Byte).toNat = w.toNat / 2 ^ k % 256 := by
    intro w k
    rw [BitVec.toNat_setWidth, BitVec.toNat_ushiftRight, Nat.shiftRight_eq_div_pow]
  have s0 : ∀ (w : W), (w.setWidth 8 : Byte).toNat = w.toNat % 256 := by
    intro w; rw [BitVec.toNat_setWidth]
  simp only [List.flatMap_cons, List.flatMap_nil, List.append_nil, List.cons_append, List.nil_append, leNat, sh, s0]
  have := c.a.w0.isLt; have := c.a.w1.isLt; have := c.a.w2.isLt; have := c.a.w3.isLt
  omega

/-- The whole computation. -/
theorem poly_spec (k : List Byte) (hk : k.length = 32) (bs : List (List Byte)) (hb : ∀ b ∈ bs, b.length = 16) :
    ∃ acc, acc % p1305 = poly1305Acc (leNat (k.take 16) &&& clampMask) 0 bs % p1305 ∧ acc < 2 ^ 130 + 30 ∧
      leNat (tag (final (bs.foldl block (init k)))) = (acc + leNat ((k.drop 16).take 16)) % 2 ^ 128 := by
  obtain ⟨i1, i2, i3⟩ := init_spec k hk
  obtain ⟨h1, h2, h3, h4⟩ := blocks_spec bs hb (init k) 0 (by omega) (by rw [i3])
  refine ⟨_, ?_, h2, ?_⟩
  · rw [h1, i1]
  · rw [(tag_leNat _).1, low4_eq]
    unfold final
    simp only []
    have hs : bval (init k).s < 2 ^ 128 + 1 := by
      rw [i2]
      have : leNat ((k.drop 16).take 16) < 2 ^ 128 := by
        rw [leNat16 _ (by simp [hk])]
        have := (le32 ((k.drop 16).take 16) 0).isLt
        have := (le32 ((k.drop 16).take 16) 1).isLt
        have := (le32 ((k.drop 16).take 16) 2).isLt
        have := (le32 ((k.drop 16).take 16) 3).isLt
        omega
      omega
    rw [add_spec _ _ (by rw [h4]; omega), h4, i2]

theorem acc_lt (r : Nat) : ∀ (bs : List (List Byte)) (acc : Nat), acc < p1305 → poly1305Acc r acc bs < p1305
  | [], _, h => h
  | b :: bs, acc, _ => acc_lt r bs _ (Nat.mod_lt _ (by decide))

end Poly1305
