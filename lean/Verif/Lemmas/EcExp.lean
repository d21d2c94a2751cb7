import Verif.Lemmas.EcOps

/-! # `vlong_modexpv_shiftadded` -/

namespace Ec
open Vlong Spec

theorem val_one_words (c : Nat) (hc : 0 < c) :
    val ((List.range c).map fun i => if i ≠ 0 then (0:W) else 1) = 1 := by
  rw [val_digits _ 1 c]
  · apply Nat.mod_eq_of_lt
    apply Nat.one_lt_two_pow; omega
  · intro j _
    by_cases h : j = 0
    · subst h; rfl
    · rw [if_pos h, Nat.shiftRight_eq_div_pow, Nat.div_eq_of_lt]
      · rfl
      · apply Nat.one_lt_two_pow; omega

/-- The window value at word `j`: `(E mod 2^(32(j+1)) + addend) / 2^(32 j)`. -/
def window (v : Nat) (addend : Int) (j : Nat) : Int :=
  ((v % 2 ^ (32 * (j + 1)) : Nat) + addend) / 2 ^ (32 * j)

theorem rd_toNat (e : List W) (j : Nat) : (rd e j).toNat = val e / 2 ^ (32 * j) % 2 ^ 32 := by
  rw [rd_eq_ofNat, BitVec.toNat_ofNat, Nat.shiftRight_eq_div_pow]

theorem mod_succ_word (v j : Nat) :
    v % 2 ^ (32 * (j + 2)) = v % 2 ^ (32 * (j + 1)) + 2 ^ (32 * (j + 1)) * (v / 2 ^ (32 * (j + 1)) % 2 ^ 32) := by
  have : 32 * (j + 2) = 32 * (j + 1) + 32 := by omega
  rw [this, Nat.pow_add, Nat.mod_mul]

theorem window_succ (e : List W) (addend : Int) (j : Nat) :
    window (val e) addend (j + 1) = window (val e) addend j / 2 ^ 32 + (rd e (j + 1)).toNat := by
  unfold window
  rw [mod_succ_word, ← rd_toNat]
  have e1 : (2:Int) ^ (32 * (j + 1)) = 2 ^ (32 * j) * 4294967296 := by
    rw [show (4294967296:Int) = 2 ^ 32 by norm_num, ← pow_add]; congr 1
  push_cast
  rw [Int.ediv_ediv_of_nonneg (by positivity), ← e1]
  have e2 : ((val e : Int) % 2 ^ (32 * (j + 1)) + 2 ^ (32 * (j + 1)) * ((rd e (j + 1)).toNat : Int) + addend)
      = ((val e : Int) % 2 ^ (32 * (j + 1)) + addend) + 2 ^ (32 * (j + 1)) * ((rd e (j + 1)).toNat : Int) := by ring
  rw [e2, Int.add_mul_ediv_left _ _ (by positivity)]

/-- Below word `j+1` the window shows the bits of `E = v + addend`. -/
theorem window_bit (v E : Nat) (addend : Int) (hE : (E : Int) = v + addend) (i : Nat) :
    (window v addend (i / 32) / 2 ^ (i % 32)) % 2 = ((E / 2 ^ i % 2 : Nat) : Int) := by
  unfold window
  have h1 : (v % 2 ^ (32 * (i / 32 + 1)) : Nat) + addend =
      (E : Int) - 2 ^ (32 * (i / 32 + 1)) * (v / 2 ^ (32 * (i / 32 + 1)) : Nat) := by
    rw [hE]
    have := Nat.mod_add_div v (2 ^ (32 * (i / 32 + 1)))
    have h2 : ((v % 2 ^ (32 * (i / 32 + 1)) : Nat) : Int) +
      ((2 ^ (32 * (i / 32 + 1)) : Nat) : Int) * (v / 2 ^ (32 * (i / 32 + 1)) : Nat) = v := by exact_mod_cast this
    rw [Nat.cast_pow] at h2
    push_cast at h2 ⊢
    linarith
  rw [h1, Int.ediv_ediv_of_nonneg (by positivity), ← pow_add]
  have e1 : 32 * (i / 32) + i % 32 = i := by omega
  rw [e1]
  have e2 : (2:Int) ^ (32 * (i / 32 + 1)) = 2 ^ i * (2 * 2 ^ (31 - i % 32)) := by
    rw [mul_comm (2:Int) (2 ^ (31 - i % 32)), ← pow_succ, ← pow_add]; congr 1; omega
  rw [e2]
  have e3 : (E : Int) - 2 ^ i * (2 * 2 ^ (31 - i % 32)) * ((v / 2 ^ (32 * (i / 32 + 1)) : Nat) : Int) =
      (E : Int) + 2 ^ i * (-(2 * (2 ^ (31 - i % 32) * ((v / 2 ^ (32 * (i / 32 + 1)) : Nat) : Int)))) := by ring
  rw [e3, Int.add_mul_ediv_left _ _ (by positivity)]
  have e4 : ∀ z y : Int, (z + -(2 * y)) % 2 = z % 2 := by intro z y; omega
  rw [e4]
  push_cast
  rfl

section
variable {aux : Aux} {c p : Nat} (hF : FieldOk aux c p)
include hF

theorem mulM_mask_rep {k k' : Nat} {a b : List W} {x y : ZMod p} (ha : Rep c p k a x) (hb : Rep c p k' b y)
    (hk : k ≤ 2 ^ 7) (mask : W) (n : Nat) (hn : n = 0 ∨ n = 1) (hm : mask = BitVec.ofNat 32 n) :
    Rep c p 1 (mulM aux c a b mask) (x * y ^ n) := by
  have h0 : mask = 0 ∨ mask = 1 := by
    rcases hn with h | h <;> subst h
    · left; exact hm
    · right; exact hm
  obtain ⟨h1, h2, h3⟩ := mulM_raw hF a b mask h0 (Rep.ne_nil hF hb)
    (ha.le.trans (Nat.mul_le_mul_right _ hk))
  refine ⟨h1, by omega, ?_⟩
  rw [cast_modEq h3, Nat.cast_mul, ha.res]
  rcases hn with h | h <;> subst h
  · have : mask ≠ 1 := by rw [hm]; decide
    rw [factor, if_neg this]; simp
  · have : mask = 1 := by rw [hm]; rfl
    rw [factor, if_pos this, hb.res, pow_one]

theorem shiftAddLoop_rep (addend : Int) (E : Nat)
    (hE : (E : Int) = p + addend) (hEl : E < 2 ^ (32 * aux.modCtx.length))
    (k i : Nat) (hk : k + i = 32 * aux.modCtx.length) (hk0 : 0 < k) (w : BitVec 64)
    (hw : (w.toNat : Int) = window p addend (i / 32)) {k1 k2 : Nat} (hk1 : k1 ≤ 2 ^ 7) (hk2 : k2 ≤ 2 ^ 7)
    (out tmp1 : List W) (x y : ZMod p) (ho : Rep c p k1 out y) (ht : Rep c p k2 tmp1 x) :
    Rep c p 1 (shiftAddLoop aux aux.modCtx k i w out tmp1) (y * x ^ (E / 2 ^ i)) := by
  induction k generalizing i w out tmp1 x y k1 k2 with
  | zero => omega
  | succ k ih =>
    rw [shiftAddLoop]
    simp only
    have hmask : ((w >>> (i % 32)) &&& 1).setWidth 32 = BitVec.ofNat 32 (E / 2 ^ i % 2) := by
      apply BitVec.eq_of_toNat_eq
      rw [BitVec.toNat_setWidth, BitVec.toNat_and, BitVec.toNat_ushiftRight, Nat.shiftRight_eq_div_pow,
        show (1 : BitVec 64).toNat = 1 from rfl, Nat.and_one_is_mod, BitVec.toNat_ofNat]
      have h := window_bit p E addend hE i
      rw [← hw] at h
      have : w.toNat / 2 ^ (i % 32) % 2 = E / 2 ^ i % 2 := by exact_mod_cast h
      rw [this]
    have hn : E / 2 ^ i % 2 = 0 ∨ E / 2 ^ i % 2 = 1 := by omega
    have hom := mulM_mask_rep hF ho ht hk1 (((w >>> (i % 32)) &&& 1).setWidth 32) _ hn hmask
    rw [ho.len]
    by_cases hkz : k = 0
    · subst hkz
      rw [if_pos rfl]
      have : E / 2 ^ i < 2 := by
        rw [Nat.div_lt_iff_lt_mul (Nat.pow_pos (by decide))]
        rw [← hk, Nat.zero_add, Nat.pow_add] at hEl
        omega
      rw [Nat.mod_eq_of_lt this] at hom
      exact hom
    · rw [if_neg hkz, ht.len]
      have htt := mul_rr hF ht ht hk2
      have hres := ih (i + 1) (by omega) (by omega)
        (if (i + 1) % 32 = 0 then (w >>> 32) + (rd aux.modCtx ((i + 1) / 32)).setWidth 64 else w) ?_
        (by norm_num) (by norm_num) _ _ _ _ hom htt
      · refine hres.of_eq ?_
        have hdiv : E / 2 ^ i = 2 * (E / 2 ^ (i + 1)) + E / 2 ^ i % 2 := by
          rw [Nat.pow_succ, ← Nat.div_div_eq_div_mul]; omega
        rw [← pow_two, ← pow_mul, mul_assoc, ← pow_add, Nat.add_comm, ← hdiv]
      · split
        · rename_i h32
          have hj : (i + 1) / 32 = i / 32 + 1 := by omega
          rw [hj]
          have hctx := hF.ctx
          have hs := window_succ aux.modCtx addend (i / 32)
          rw [hctx, ← hw] at hs
          rw [hs, BitVec.toNat_add, BitVec.toNat_ushiftRight, Nat.shiftRight_eq_div_pow, BitVec.toNat_setWidth]
          have h1 := w.isLt
          have h2 := (rd aux.modCtx (i / 32 + 1)).isLt
          have h3 : w.toNat / 2 ^ 32 < 2 ^ 32 := by omega
          rw [Nat.mod_eq_of_lt (a := (rd aux.modCtx (i / 32 + 1)).toNat) (by omega), Nat.mod_eq_of_lt (by omega)]
          push_cast; rfl
        · rename_i h32
          have hj : (i + 1) / 32 = i / 32 := by omega
          rw [hj]; exact hw

/-- `vlong_modexpv_shiftadded` raises to `(p + addend) >> shift`. -/
theorem modexp_repK {k2 : Nat} (hk2 : k2 ≤ 2 ^ 7) (addend : BitVec 32) (shift E : Nat) (hE : (E : Int) = p + addend.toInt)
    (hlo : 0 ≤ ((rd aux.modCtx 0).toNat : Int) + addend.toInt)
    (hEl : E < 2 ^ (32 * aux.modCtx.length)) (hsh : shift < 32) (hlen : aux.modCtx ≠ [])
    {l : List W} {x : ZMod p} (hl : Rep c p k2 l x) :
    Rep c p 1 (modexpShiftAdded aux c l addend shift) (x ^ (E / 2 ^ shift)) := by
  have hpos : 0 < aux.modCtx.length := List.length_pos_iff.mpr hlen
  have hc := hF.cpos
  unfold modexpShiftAdded
  simp only
  have hone : Rep c p 1 ((List.range c).map fun i => if i ≠ 0 then (0:W) else 1) 1 := by
    refine ⟨by simp, ?_, ?_⟩
    · rw [val_one_words c hc]; have := hF.two; omega
    · rw [val_one_words c hc]; simp
  have hw : ((((rd aux.modCtx 0).setWidth 64 + addend.signExtend 64 : BitVec 64).toNat : Nat) : Int) =
      window p addend.toInt (shift / 32) := by
    have e0 : shift / 32 = 0 := by omega
    rw [e0]
    unfold window
    have hr := rd_toNat aux.modCtx 0
    rw [hF.ctx] at hr
    simp only [Nat.mul_zero, pow_zero, Nat.div_one, zero_add, Nat.mul_one] at hr ⊢
    rw [← hr]
    have h1 := (rd aux.modCtx 0).isLt
    have h2 : addend.toInt < 2 ^ 31 := by have := BitVec.two_mul_toInt_lt (x := addend); omega
    have h3 : -2 ^ 31 ≤ addend.toInt := by have := BitVec.le_two_mul_toInt (x := addend); omega
    have e : ((rd aux.modCtx 0).setWidth 64 + addend.signExtend 64 : BitVec 64).toInt =
        ((rd aux.modCtx 0).toNat : Int) + addend.toInt := by
      have es : (addend.signExtend 64).toInt = addend.toInt := BitVec.toInt_signExtend_of_le (by decide)
      rw [toInt_add_small] <;> rw [toInt_setWidth_32, es] <;> omega
    have e' := BitVec.toInt_eq_toNat_cond ((rd aux.modCtx 0).setWidth 64 + addend.signExtend 64 : BitVec 64)
    rw [e] at e'
    rw [Int.ediv_one]
    split at e'
    · omega
    · have := ((rd aux.modCtx 0).setWidth 64 + addend.signExtend 64 : BitVec 64).isLt
      omega
  have := shiftAddLoop_rep hF addend.toInt E hE hEl (aux.modCtx.length * 32 - shift) shift
    (by omega) (by omega) _ hw (by norm_num) hk2 _ _ x 1 hone (cpy_rep hF hl)
  rwa [one_mul] at this

theorem modexp_rep (addend : BitVec 32) (shift E : Nat) (hE : (E : Int) = p + addend.toInt)
    (hlo : 0 ≤ ((rd aux.modCtx 0).toNat : Int) + addend.toInt)
    (hEl : E < 2 ^ (32 * aux.modCtx.length)) (hsh : shift < 32) (hlen : aux.modCtx ≠ [])
    {l : List W} {x : ZMod p} (hl : Rep c p 1 l x) :
    Rep c p 1 (modexpShiftAdded aux c l addend shift) (x ^ (E / 2 ^ shift)) :=
  modexp_repK hF (by norm_num) addend shift E hE hlo hEl hsh hlen hl

end

end Ec
