import Verif.Lemmas.VlongAdd

/-! Helper lemmas: bits of word lists, shifted words, comparison, masked subtraction, division. -/

namespace Vlong
open Spec

theorem val_testBit (l : List W) (k : Nat) :
    (val l).testBit k = (rd l (k / 32)).getLsbD (k % 32) := by
  induction l generalizing k with
  | nil => simp [val, rd_nil]
  | cons w l ih =>
    have hw := w.isLt
    have : val (w :: l) = 2 ^ 32 * val l + w.toNat := by simp [val]; omega
    rw [this, Nat.testBit_two_pow_mul_add _ hw]
    by_cases h : k < 32
    · rw [if_pos h]
      have h0 : k / 32 = 0 := by omega
      have h1 : k % 32 = k := by omega
      rw [h0, h1, rd_cons_zero]; rfl
    · rw [if_neg h, ih]
      have h0 : k / 32 = (k - 32) / 32 + 1 := by omega
      have h1 : k % 32 = (k - 32) % 32 := by omega
      rw [h0, h1, rd_cons_succ]

theorem rd_eq_ofNat (l : List W) (j : Nat) : rd l j = BitVec.ofNat 32 (val l >>> (32 * j)) := by
  apply BitVec.eq_of_getLsbD_eq
  intro i hi
  rw [BitVec.getLsbD_ofNat, Nat.testBit_shiftRight, val_testBit]
  have h0 : (32 * j + i) / 32 = j := by omega
  have h1 : (32 * j + i) % 32 = i := by omega
  simp [h0, h1, hi]

/-- A list whose words are the base-`2^32` digits of `N`. -/
theorem val_digits (f : Nat → W) (N n : Nat)
    (h : ∀ j, j < n → f j = BitVec.ofNat 32 (N >>> (32 * j))) :
    val ((List.range n).map f) = N % 2 ^ (32 * n) := by
  apply Nat.eq_of_testBit_eq
  intro k
  rw [val_testBit, Nat.testBit_mod_two_pow]
  by_cases hk : k < 32 * n
  · have hj : k / 32 < n := by omega
    have : rd ((List.range n).map f) (k / 32) = f (k / 32) := by simp [rd, hj]
    rw [this, h _ hj, BitVec.getLsbD_ofNat, Nat.testBit_shiftRight]
    have h1 : 32 * (k / 32) + k % 32 = k := by omega
    have h2 : k % 32 < 32 := by omega
    simp [h1, h2, hk]
  · rw [rd_ge (by simp; omega)]
    simp [hk]

theorem dsum_digits (d : Nat → W) (N n : Nat)
    (h : ∀ j, j < n → d j = BitVec.ofNat 32 (N >>> (32 * j))) :
    dsum (fun j => ((d j).toNat : Int)) 0 n = ((N % 2 ^ (32 * n) : Nat) : Int) := by
  rw [← val_map_range, val_digits d N n h]

theorem wordShifted_eq (b : List W) (j s : Nat) :
    wordShifted b j s = BitVec.ofNat 32 ((val b <<< s) >>> (32 * j)) := by
  apply BitVec.eq_of_getLsbD_eq
  intro i hi
  rw [BitVec.getLsbD_ofNat, Nat.testBit_shiftRight, Nat.testBit_shiftLeft]
  unfold wordShifted
  by_cases hr : s % 32 = 0
  · simp only [hr, ne_eq, not_true_eq_false, if_false]
    by_cases hw : s / 32 ≤ j
    · have hs : s ≤ 32 * j + i := by omega
      rw [if_pos hw, val_testBit]
      have h0 : (32 * j + i - s) / 32 = j - s / 32 := by omega
      have h1 : (32 * j + i - s) % 32 = i := by omega
      simp [h0, h1, hi, hs]
    · have hs : ¬ (s ≤ 32 * j + i) := by omega
      simp [hw, hs]
  · simp only [ne_eq, hr, not_false_eq_true, if_true]
    rw [BitVec.getLsbD_or, BitVec.getLsbD_shiftLeft]
    by_cases hi' : i < s % 32
    · simp only [hi', hi, decide_true, Bool.not_true, Bool.and_false, Bool.false_and, Bool.false_or,
        Bool.true_and]
      by_cases hw : s / 32 + 1 ≤ j
      · have hs : s ≤ 32 * j + i := by omega
        rw [if_pos hw, BitVec.getLsbD_ushiftRight, val_testBit]
        have h0 : (32 * j + i - s) / 32 = j - s / 32 - 1 := by omega
        have h1 : (32 * j + i - s) % 32 = 32 - s % 32 + i := by omega
        simp [h0, h1, hs]
      · have hs : ¬ (s ≤ 32 * j + i) := by omega
        simp [hw, hs]
    · simp only [hi', hi, decide_true, decide_false, Bool.not_false, Bool.true_and]
      have hz : (if s / 32 + 1 ≤ j then rd b (j - s / 32 - 1) >>> (32 - s % 32) else (0 : W)).getLsbD i
          = false := by
        split
        · rw [BitVec.getLsbD_ushiftRight]
          apply BitVec.getLsbD_of_ge
          omega
        · simp
      rw [hz, Bool.or_false]
      by_cases hw : s / 32 ≤ j
      · have hs : s ≤ 32 * j + i := by omega
        rw [if_pos hw, val_testBit]
        have h0 : (32 * j + i - s) / 32 = j - s / 32 := by omega
        have h1 : (32 * j + i - s) % 32 = i - s % 32 := by omega
        simp [h0, h1, hs]
      · have hs : ¬ (s ≤ 32 * j + i) := by omega
        simp [hw, hs]

theorem nzMask_eq (x : W) : nzMask x = if x = 0 then 0 else BitVec.allOnes 32 := by
  unfold nzMask
  simp only
  by_cases h : x = 0
  · subst h; decide
  · rw [if_neg h]
    set y : W := (x ||| x >>> 16) &&& 0xffff with hy
    have hy0 : y ≠ 0 := by
      intro h0
      apply h
      apply BitVec.eq_of_getLsbD_eq
      intro i hi
      have hb : ∀ k, k < 16 → y.getLsbD k = (x.getLsbD k || x.getLsbD (16 + k)) := by
        intro k hk
        rw [hy, BitVec.getLsbD_and, BitVec.getLsbD_or, BitVec.getLsbD_ushiftRight]
        have : (0xffff : W).getLsbD k = true := by
          have : (0xffff : W) = BitVec.setWidth 32 (BitVec.allOnes 16) := by decide
          rw [this, BitVec.getLsbD_setWidth, BitVec.getLsbD_allOnes]
          simp; omega
        rw [this, Bool.and_true]
      have h1 := hb (i % 16) (by omega)
      rw [h0] at h1
      have h1' : (x.getLsbD (i % 16) || x.getLsbD (16 + i % 16)) = false := by rw [← h1]; simp
      rw [Bool.or_eq_false_iff] at h1'
      by_cases h16 : i < 16
      · have : i % 16 = i := by omega
        rw [this] at h1'
        rw [h1'.1]; simp
      · have : 16 + i % 16 = i := by omega
        rw [this] at h1'
        rw [h1'.2]; simp
    have hyl : y.toNat < 2 ^ 16 := by
      rw [hy, BitVec.toNat_and]
      calc _ ≤ (0xffff : W).toNat := Nat.and_le_right
        _ < _ := by decide
    have hpos : 0 < y.toNat := by
      rcases Nat.eq_zero_or_pos y.toNat with h | h
      · exact absurd (BitVec.eq_of_toNat_eq (by simpa using h)) hy0
      · exact h
    have hm : (y - 1).toNat < 2 ^ 16 := by
      rw [BitVec.toNat_sub]
      have : (1 : W).toNat = 1 := rfl
      rw [this]; omega
    have hz : (y ^^^ (y - 1)) >>> 31 = 0 := by
      apply BitVec.eq_of_toNat_eq
      rw [BitVec.toNat_ushiftRight, BitVec.toNat_xor, Nat.shiftRight_eq_div_pow]
      have := Nat.xor_lt_two_pow hyl hm
      rw [show (0 : W).toNat = 0 from rfl]
      omega
    rw [hz]; decide

/-- The three-way comparison code of `vlong.h:57-60`: 2 less, 0 equal, 1 greater. -/
def cmpRes (x y : Nat) : W := if x < y then 2 else if x = y then 0 else 1

theorem cmps_eq (a b : W) : cmps a b = cmpRes a.toNat b.toNat := by
  have ha := a.isLt
  have hb := b.isLt
  unfold cmps cmpRes
  simp only
  rw [nzMask_eq]
  have hy : (BitVec.setWidth 64 a - BitVec.setWidth 64 b).toNat =
      if a.toNat < b.toNat then 2 ^ 64 - (b.toNat - a.toNat) else a.toNat - b.toNat := by
    rw [BitVec.toNat_sub]
    simp only [BitVec.toNat_setWidth]
    split <;> omega
  have hs : ((BitVec.setWidth 64 a - BitVec.setWidth 64 b) >>> 32 &&& 1) =
      if a.toNat < b.toNat then 1 else 0 := by
    apply BitVec.eq_of_toNat_eq
    rw [BitVec.toNat_and, BitVec.toNat_ushiftRight, Nat.shiftRight_eq_div_pow, hy]
    rw [show (1 : BitVec 64).toNat = 1 from rfl, Nat.and_one_is_mod]
    split
    · rename_i h
      show (_ : Nat) = (1 : BitVec 64).toNat
      rw [show (1 : BitVec 64).toNat = 1 from rfl]; omega
    · rw [show (0 : BitVec 64).toNat = 0 from rfl]; omega
  have hx : (BitVec.setWidth 32 (BitVec.setWidth 64 a - BitVec.setWidth 64 b) = 0) ↔ a.toNat = b.toNat := by
    constructor
    · intro h
      have := congrArg BitVec.toNat h
      rw [BitVec.toNat_setWidth, hy, show (0 : W).toNat = 0 from rfl] at this
      split at this <;> omega
    · intro h
      apply BitVec.eq_of_toNat_eq
      rw [BitVec.toNat_setWidth, hy, show (0 : W).toNat = 0 from rfl]
      split <;> omega
  rw [hs]
  simp only [hx]
  by_cases h1 : a.toNat < b.toNat
  · have h2 : ¬ (a.toNat = b.toNat) := by omega
    simp only [h1, h2, if_true, if_false]
    decide
  · by_cases h2 : a.toNat = b.toNat
    · rw [if_neg h1, if_neg h1, if_pos h2, if_pos h2]; decide
    · rw [if_neg h1, if_neg h1, if_neg h2, if_neg h2]; decide

theorem cmpvLoop_ne (a b : List W) (s t : Nat) (res : W) (h : res = 1 ∨ res = 2) :
    cmpvLoop a b s t res = res := by
  induction t with
  | zero => rfl
  | succ t ih =>
    have hr : ∀ u v : W, res ||| (~~~((1 &&& (res >>> 1 ||| res)) * 3) &&& cmps u v) = res := by
      intro u v
      have hc : cmps u v = 0 ∨ cmps u v = 1 ∨ cmps u v = 2 := by
        rw [cmps_eq]; unfold cmpRes; split
        · simp
        · split <;> simp
      rcases h with h | h <;> rcases hc with hc | hc | hc <;> rw [h, hc] <;> decide
    simp only [cmpvLoop]
    rw [hr, ih]

theorem cmpvLoop_eq (a b : List W) (s t : Nat) :
    cmpvLoop a b s t 0 = cmpRes (val a % 2 ^ (32 * t)) ((val b <<< s) % 2 ^ (32 * t)) := by
  induction t with
  | zero => simp [cmpvLoop, cmpRes, Nat.mod_one]
  | succ t ih =>
    simp only [cmpvLoop]
    have h0 : ∀ u v : W, (0 : W) ||| (~~~((1 &&& ((0:W) >>> 1 ||| 0)) * 3) &&& cmps u v) = cmps u v := by
      intro u v
      have : ~~~((1 &&& ((0:W) >>> 1 ||| 0)) * 3) = BitVec.allOnes 32 := by decide
      rw [this, BitVec.allOnes_and]; simp
    rw [h0]
    have hu : (rd a t).toNat = val a / 2 ^ (32 * t) % 2 ^ 32 := by
      rw [rd_eq_ofNat, BitVec.toNat_ofNat, Nat.shiftRight_eq_div_pow]
    have hv : (wordShifted b t s).toNat = (val b <<< s) / 2 ^ (32 * t) % 2 ^ 32 := by
      rw [wordShifted_eq, BitVec.toNat_ofNat, Nat.shiftRight_eq_div_pow]
    have e : (2:Nat) ^ (32 * (t + 1)) = 2 ^ (32 * t) * 2 ^ 32 := by
      rw [← Nat.pow_add]; congr 1
    rw [e, Nat.mod_mul, Nat.mod_mul (x := val b <<< s), ← hu, ← hv]
    have hp : 0 < 2 ^ (32 * t) := Nat.pow_pos (by decide)
    have l1 := Nat.mod_lt (val a) hp
    have l2 := Nat.mod_lt (val b <<< s) hp
    set x := val a % 2 ^ (32 * t)
    set y := (val b <<< s) % 2 ^ (32 * t)
    set P := 2 ^ (32 * t)
    set u := (rd a t).toNat
    set v := (wordShifted b t s).toNat
    rw [cmps_eq]
    change cmpvLoop a b s t (cmpRes u v) = _
    rcases Nat.lt_trichotomy u v with h | h | h
    · have : cmpRes u v = 2 := by simp [cmpRes, h]
      rw [this, cmpvLoop_ne _ _ _ _ _ (Or.inr rfl)]
      have hm : P * (u + 1) ≤ P * v := Nat.mul_le_mul_left _ h
      rw [Nat.mul_add] at hm
      rw [cmpRes, if_pos (by omega)]
    · have : cmpRes u v = 0 := by simp [cmpRes, h]
      rw [this, ih, h]
      simp only [cmpRes, Nat.add_lt_add_iff_right, Nat.add_right_cancel_iff]
    · have : cmpRes u v = 1 := by rw [cmpRes, if_neg (by omega), if_neg (by omega)]
      rw [this, cmpvLoop_ne _ _ _ _ _ (Or.inl rfl)]
      have hm : P * (v + 1) ≤ P * u := Nat.mul_le_mul_left _ h
      rw [Nat.mul_add] at hm
      have g : y + P * v < x + P * u := by
        clear_value x y P u v; omega
      rw [cmpRes, if_neg (by omega), if_neg (by omega)]

theorem cmpvShifted_eq (a b : List W) (s : Nat) :
    cmpvShifted a b s = cmpRes (val a) (val b * 2 ^ s) := by
  unfold cmpvShifted
  simp only
  set t := if a.length > b.length + (s + 31) / 32 then a.length else b.length + (s + 31) / 32
  have ht1 : a.length ≤ t := by simp only [t]; split <;> omega
  have ht2 : b.length + (s + 31) / 32 ≤ t := by simp only [t]; split <;> omega
  rw [cmpvLoop_eq, Nat.mod_eq_of_lt, Nat.mod_eq_of_lt, Nat.shiftLeft_eq]
  · rw [Nat.shiftLeft_eq]
    calc val b * 2 ^ s < 2 ^ (32 * b.length) * 2 ^ s :=
          Nat.mul_lt_mul_of_pos_right (val_lt b) (Nat.pow_pos (by decide))
      _ = 2 ^ (32 * b.length + s) := by rw [Nat.pow_add]
      _ ≤ _ := Nat.pow_le_pow_right (by decide) (by omega)
  · exact Nat.lt_of_lt_of_le (val_lt a) (Nat.pow_le_pow_right (by decide) (by omega))

theorem cmp_bit (x y : Nat) : ~~~(cmpRes x y >>> 1) &&& 1 = if y ≤ x then 1 else 0 := by
  unfold cmpRes
  rcases Nat.lt_trichotomy x y with h | h | h
  · rw [if_pos h, if_neg (by omega)]; decide
  · rw [if_neg (by omega), if_pos h, if_pos (by omega)]; decide
  · rw [if_neg (by omega), if_neg (by omega), if_pos (by omega)]; decide

theorem length_shift1bit (x : List W) (b : W) : (shift1bit x b).length = x.length := by
  simp [shift1bit]

theorem val_shift1bit (x : List W) (b : W) :
    val (shift1bit x b) = (2 * val x + b.toNat % 2) % 2 ^ (32 * x.length) := by
  unfold shift1bit
  apply val_digits
  intro j _
  apply BitVec.eq_of_getLsbD_eq
  intro i hi
  rw [BitVec.getLsbD_ofNat, Nat.testBit_shiftRight, BitVec.getLsbD_or, BitVec.getLsbD_shiftLeft]
  have hd : (2 * val x + b.toNat % 2) / 2 = val x := by omega
  by_cases hz : 32 * j + i = 0
  · have hj : j = 0 := by omega
    have hi0 : i = 0 := by omega
    subst hj; subst hi0
    simp [Nat.testBit_zero, BitVec.getLsbD]
  · have e : 32 * j + i = (32 * j + i - 1) + 1 := by omega
    rw [e, Nat.testBit_succ, hd, val_testBit]
    by_cases hi0 : i = 0
    · subst hi0
      have hj : j ≠ 0 := by omega
      have h0 : (32 * j + 0 - 1) / 32 = j - 1 := by omega
      have h1 : (32 * j + 0 - 1) % 32 = 31 := by omega
      simp only [hj, ne_eq, not_false_eq_true, if_true, h0, h1, BitVec.getLsbD_ushiftRight]
      simp
    · have h0 : (32 * j + i - 1) / 32 = j := by omega
      have h1 : (32 * j + i - 1) % 32 = i - 1 := by omega
      have hz' : (if j ≠ 0 then rd x (j - 1) >>> 31 else b &&& 1).getLsbD i = false := by
        split
        · rw [BitVec.getLsbD_ushiftRight]; apply BitVec.getLsbD_of_ge; omega
        · rw [BitVec.getLsbD_and]
          have : (1 : W).getLsbD i = false := by
            have : (1 : W) = BitVec.ofNat 32 (2^0) := rfl
            rw [this, BitVec.getLsbD_ofNat, Nat.testBit_two_pow]
            simp; omega
          rw [this, Bool.and_false]
      rw [hz', h0, h1]
      have : ¬ i < 1 := by omega
      simp [hi, this]

theorem length_subShiftedMasked (c a b s m) : (subShiftedMasked c a b s m).length = c :=
  length_addKernel _ _ _ _ _

theorem subShifted_one (c : Nat) (a b : List W) (s : Nat) :
    (val (subShiftedMasked c a b s 1) : Int) ≡ (val a : Int) - ((val b * 2 ^ s : Nat) : Int)
      [ZMOD 2 ^ (32 * c)] := by
  unfold subShiftedMasked
  have e : ∀ w : W, w &&& (0 - 1) = w := by
    intro w
    have : (0 - 1 : W) = BitVec.allOnes 32 := by decide
    rw [this, BitVec.and_allOnes]
  simp only [e]
  have h := addKernel_val a (fun i x => x - (wordShifted b i s).setWidth 64)
    (fun i => -((wordShifted b i s).toNat : Int))
    (by
      intro i x h1 h2
      have := (wordShifted b i s).isLt
      rw [toInt_sub_small] <;> rw [toInt_setWidth_32] <;> omega) c 0 0 (by decide) (by decide)
  refine h.trans ?_
  rw [dsum_add, dsum_neg, dsum_rd, dsum_digits _ _ _ (fun j _ => wordShifted_eq b j s)]
  rw [show (0 : BitVec 64).toInt = 0 from rfl, zero_add, Nat.shiftLeft_eq]
  exact (modEq_of_mod _ _).sub (modEq_of_mod _ _)

theorem subShifted_zero (c : Nat) (a b : List W) (s : Nat) :
    (val (subShiftedMasked c a b s 0) : Int) ≡ (val a : Int) [ZMOD 2 ^ (32 * c)] := by
  unfold subShiftedMasked
  have e : ∀ w : W, w &&& (0 - 0) = 0 := by intro w; simp
  simp only [e]
  have h := addKernel_val a (fun i x => x - (0 : W).setWidth 64) (fun i => 0)
    (by intro i x h1 h2; simp) c 0 0 (by decide) (by decide)
  refine h.trans ?_
  rw [dsum_add, dsum_zero, dsum_rd, show (0 : BitVec 64).toInt = 0 from rfl, zero_add, add_zero]
  exact modEq_of_mod _ _

/-- One compare-and-subtract step. -/
theorem condSub_val (rem b : List W) (s : Nat) :
    val (subShiftedMasked rem.length rem b s (~~~(cmpvShifted rem b s >>> 1) &&& 1)) =
      if val b * 2 ^ s ≤ val rem then val rem - val b * 2 ^ s else val rem := by
  rw [cmpvShifted_eq, cmp_bit]
  have hl := val_lt rem
  split
  · rename_i h
    have h1 := val_of_modEq (length_subShiftedMasked _ _ _ _ _) (subShifted_one rem.length rem b s)
    rw [Int.emod_eq_of_lt] at h1
    · omega
    · omega
    · have : ((val rem : Nat) : Int) < ((2 ^ (32 * rem.length) : Nat) : Int) := by exact_mod_cast hl
      push_cast at this ⊢
      have : (0 : Int) ≤ (val b : Int) * 2 ^ s := by positivity
      omega
  · have h1 := val_of_modEq (length_subShiftedMasked _ _ _ _ _) (subShifted_zero rem.length rem b s)
    rw [Int.emod_eq_of_lt (by omega)] at h1
    · exact_mod_cast h1
    · exact_mod_cast hl

theorem topWord_le (b : List W) (i : Nat) : topWord b i ≤ i := by
  induction i with
  | zero => simp [topWord]
  | succ i ih => simp only [topWord]; split <;> omega

theorem topWord_lt (b : List W) (i : Nat) (h : 0 < i) : topWord b i < i := by
  cases i with
  | zero => omega
  | succ i => simp only [topWord]; have := topWord_le b i; split <;> omega

theorem val_mod_eq_zero_of_rd (b : List W) (i : Nat) :
    rd b i = 0 → val b % 2 ^ (32 * (i + 1)) = val b % 2 ^ (32 * i) := by
  intro h
  have e : (2:Nat) ^ (32 * (i + 1)) = 2 ^ (32 * i) * 2 ^ 32 := by
    rw [← Nat.pow_add]; congr 1
  rw [e, Nat.mod_mul, ← Nat.shiftRight_eq_div_pow]
  have := congrArg BitVec.toNat (rd_eq_ofNat b i)
  rw [h, BitVec.toNat_ofNat] at this
  rw [← this]; simp

theorem topWord_pow (b : List W) (i : Nat) (h : val b % 2 ^ (32 * i) ≠ 0) :
    2 ^ (32 * topWord b i) ≤ val b := by
  induction i with
  | zero => simp [Nat.mod_one] at h
  | succ i ih =>
    simp only [topWord]
    split
    · rename_i h0
      rw [val_mod_eq_zero_of_rd b i h0] at h
      exact ih h
    · rename_i h0
      by_contra hlt
      apply h0
      rw [rd_eq_ofNat, Nat.shiftRight_eq_div_pow, Nat.div_eq_of_lt (by omega)]; rfl

theorem length_remvLoop (b rem : List W) (i : Nat) : (remvLoop b i rem).length = rem.length := by
  induction i generalizing rem with
  | zero => rfl
  | succ i ih => simp only [remvLoop, ih, length_subShiftedMasked]

theorem remvLoop_val (b rem : List W) (i : Nat) (hb : val b ≠ 0) (h : val rem < val b * 2 ^ i) :
    val (remvLoop b i rem) = val rem % val b := by
  induction i generalizing rem with
  | zero => simp only [remvLoop]; rw [Nat.mod_eq_of_lt (by simpa using h)]
  | succ i ih =>
    simp only [remvLoop]
    have hc := condSub_val rem b i
    rw [ih]
    · rw [hc]
      split
      · have : val rem = (val rem - val b * 2 ^ i) + val b * 2 ^ i := by omega
        conv_rhs => rw [this]
        rw [Nat.add_mul_mod_self_left]
      · rfl
    · rw [hc]
      rw [Nat.pow_succ] at h
      split
      · rw [← Nat.mul_assoc] at h; omega
      · omega

theorem remvLoop_zero (b rem : List W) (i : Nat) (hb : val b = 0) :
    val (remvLoop b i rem) = val rem := by
  induction i generalizing rem with
  | zero => rfl
  | succ i ih =>
    simp only [remvLoop]
    rw [ih, condSub_val]; simp [hb]

theorem remvInplace_none (rem b : List W) : remvInplace rem b = none ↔ rem.length < b.length := by
  unfold remvInplace; split <;> simp_all

theorem remvInplace_val (rem b : List W) (h : b.length ≤ rem.length) :
    ∃ r, remvInplace rem b = some r ∧ r.length = rem.length ∧ val r = val rem % val b := by
  refine ⟨remvLoop b ((1 + rem.length - topWord b b.length) * 32) rem, ?_, length_remvLoop _ _ _, ?_⟩
  · unfold remvInplace; rw [if_neg (by omega)]
  · by_cases hb : val b = 0
    · rw [remvLoop_zero _ _ _ hb, hb, Nat.mod_zero]
    · apply remvLoop_val _ _ _ hb
      have h1 : 2 ^ (32 * topWord b b.length) ≤ val b := by
        apply topWord_pow
        rwa [Nat.mod_eq_of_lt (val_lt b)]
      have h2 := topWord_le b b.length
      calc val rem < 2 ^ (32 * rem.length) := val_lt rem
        _ ≤ 2 ^ (32 * topWord b b.length + (1 + rem.length - topWord b b.length) * 32) :=
            Nat.pow_le_pow_right (by decide) (by omega)
        _ = 2 ^ (32 * topWord b b.length) * 2 ^ ((1 + rem.length - topWord b b.length) * 32) := by
            rw [Nat.pow_add]
        _ ≤ _ := Nat.mul_le_mul_right _ h1

/-- Words after OR-ing `v` into word `j`. -/
theorem val_modify_or (l : List W) (j r : Nat) (v : W) (hj : j < l.length)
    (hv : v.toNat <<< r < 2 ^ 32) :
    val (l.modify j (· ||| (v <<< r))) = val l ||| (v.toNat <<< (32 * j + r)) := by
  apply Nat.eq_of_testBit_eq
  intro k
  rw [val_testBit, Nat.testBit_or, val_testBit, Nat.testBit_shiftLeft]
  have hrd : rd (l.modify j (· ||| (v <<< r))) (k / 32) =
      if k / 32 = j then rd l (k / 32) ||| v <<< r else rd l (k / 32) := by
    simp only [rd, List.getD_eq_getElem?_getD, List.getElem?_modify]
    by_cases h : j = k / 32
    · subst h
      rw [List.getElem?_eq_getElem hj]; simp
    · have h' : ¬ (k / 32 = j) := fun e => h e.symm
      simp [h, h']
  rw [hrd]
  split
  · rename_i h
    rw [BitVec.getLsbD_or, BitVec.getLsbD_shiftLeft]
    congr 1
    have hk : k % 32 < 32 := by omega
    by_cases hr : k % 32 < r
    · have : ¬ (k ≥ 32 * j + r) := by omega
      simp [hr, this]
    · have h1 : k ≥ 32 * j + r := by omega
      have h2 : k - (32 * j + r) = k % 32 - r := by omega
      simp [hr, h1, h2, hk, BitVec.getLsbD]
  · rename_i h
    by_cases h1 : k ≥ 32 * j + r
    · have h2 : k / 32 > j := by omega
      have : v.toNat.testBit (k - (32 * j + r)) = false := by
        have e : v.toNat.testBit (k - (32 * j + r)) = (v.toNat <<< r).testBit (k - 32 * j) := by
          rw [Nat.testBit_shiftLeft]
          have a1 : k - 32 * j ≥ r := by omega
          have a2 : k - 32 * j - r = k - (32 * j + r) := by omega
          simp [a1, a2]
        rw [e]
        apply Nat.testBit_lt_two_pow
        apply Nat.lt_of_lt_of_le hv
        apply Nat.pow_le_pow_right (by decide); omega
      simp [this]
    · simp [h1]

theorem or_bit_mul (Q i c : Nat) (hc : c < 2) : (Q * 2 ^ (i + 1)) ||| (c <<< i) = (2 * Q + c) * 2 ^ i := by
  have h := Nat.two_pow_add_eq_or_of_lt (i := i + 1) (b := c <<< i)
    (by rw [Nat.shiftLeft_eq, Nat.pow_succ]
        have : 0 < 2 ^ i := Nat.pow_pos (by decide)
        nlinarith) Q
  rw [Nat.mul_comm Q, ← h, Nat.shiftLeft_eq, Nat.pow_succ]; ring

theorem divvLoop_val (a b : List W) (i : Nat) (rem quo : List W) (Q : Nat)
    (hi : i ≤ 32 * quo.length) (hb : val b ≠ 0)
    (hroom : 2 * val b ≤ 2 ^ (32 * rem.length) ∨ val a < 2 ^ (32 * rem.length))
    (hq : val quo = Q * 2 ^ i) (hr : val rem < val b) (hinv : val a / 2 ^ i = Q * val b + val rem) :
    let p := divvLoop a b i rem quo
    val a = val p.2 * val b + val p.1 ∧ val p.1 < val b ∧
      p.1.length = rem.length ∧ p.2.length = quo.length := by
  induction i generalizing rem quo Q with
  | zero =>
    simp only [divvLoop]
    simp only [Nat.pow_zero, Nat.div_one, Nat.mul_one] at hinv hq
    rw [hq]
    exact ⟨hinv, hr, by simp, by simp⟩
  | succ i ih =>
    simp only [divvLoop]
    set bit := rd a (i / 32) >>> (i % 32)
    have hbit : bit.toNat % 2 = val a / 2 ^ i % 2 := by
      have h1 : (val a).testBit i = bit.getLsbD 0 := by
        rw [val_testBit, BitVec.getLsbD_ushiftRight]; simp
      rw [Nat.testBit_eq_decide_div_mod_eq] at h1
      simp only [BitVec.getLsbD, Nat.testBit_zero] at h1
      have := decide_eq_decide.mp h1
      omega
    set rem1 := shift1bit rem bit with hrem1
    have hl1 : rem1.length = rem.length := length_shift1bit _ _
    have hdiv : val a / 2 ^ i = 2 * (val a / 2 ^ (i + 1)) + val a / 2 ^ i % 2 := by
      rw [Nat.pow_succ, ← Nat.div_div_eq_div_mul]; omega
    have hv1 : val rem1 = 2 * val rem + bit.toNat % 2 := by
      rw [hrem1, val_shift1bit, Nat.mod_eq_of_lt]
      have hle : val a / 2 ^ i ≤ val a := Nat.div_le_self _ _
      rcases hroom with h | h <;> omega
    have hc := condSub_val rem1 b 0
    have hcmp : (~~~(cmpvShifted rem1 b 0 >>> 1) &&& 1 : W) =
        if val b ≤ val rem1 then 1 else 0 := by
      rw [cmpvShifted_eq, cmp_bit]; simp
    set cmp : W := ~~~(cmpvShifted rem1 b 0 >>> 1) &&& 1
    set rem2 := subShiftedMasked rem1.length rem1 b 0 cmp with hrem2
    have hl2 : rem2.length = rem.length := by rw [hrem2, length_subShiftedMasked, hl1]
    simp only [Nat.pow_zero, Nat.mul_one] at hc
    have hc2 : cmp.toNat < 2 := by rw [hcmp]; split <;> decide
    have hq2 : val (quo.modify (i / 32) (· ||| cmp <<< (i % 32))) = (2 * Q + cmp.toNat) * 2 ^ i := by
      rw [val_modify_or]
      · have e : 32 * (i / 32) + i % 32 = i := by omega
        rw [e, hq, or_bit_mul _ _ _ hc2]
      · omega
      · rw [Nat.shiftLeft_eq]
        have : (2:Nat) ^ (i % 32) ≤ 2 ^ 31 := Nat.pow_le_pow_right (by decide) (by omega)
        nlinarith
    have := ih rem2 (quo.modify (i / 32) (· ||| cmp <<< (i % 32))) (2 * Q + cmp.toNat)
      (by simp; omega) (by rw [hl2]; exact hroom) hq2
      (by rw [hc]; split <;> omega)
      (by
        rw [hdiv, hinv, hc, ← hbit]
        have hc3 : cmp.toNat = if val b ≤ val rem1 then 1 else 0 := by rw [hcmp]; split <;> rfl
        rw [hc3]
        split
        · rename_i h
          have e : (2 * Q + 1) * val b = 2 * (Q * val b) + val b := by ring
          rw [e]; omega
        · have e : (2 * Q + 0) * val b = 2 * (Q * val b) := by ring
          rw [e]; omega)
    rw [hl2] at this
    simpa using this

theorem val_replicate_zero (n : Nat) : val (List.replicate n (0 : W)) = 0 := by
  induction n with
  | zero => rfl
  | succ n ih => rw [List.replicate_succ, val, ih]; rfl

theorem divv_val (remc quoc : Nat) (a b : List W) (h1 : a.length ≤ quoc) (h2 : b.length ≤ remc)
    (hb : val b ≠ 0) (hroom : 2 * val b ≤ 2 ^ (32 * remc) ∨ val a < 2 ^ (32 * remc)) :
    ∃ r q, divv remc quoc a b = some (r, q) ∧ r.length = remc ∧ q.length = quoc ∧
      val r = val a % val b ∧ val q = val a / val b := by
  set p := divvLoop a b (a.length * 32) (List.replicate remc 0) (List.replicate quoc 0) with hp
  have h := divvLoop_val a b (a.length * 32) (List.replicate remc 0) (List.replicate quoc 0) 0
    (by simp; omega) hb (by simpa using hroom) (by rw [val_replicate_zero]; simp)
    (by rw [val_replicate_zero]; omega)
    (by rw [val_replicate_zero]; simp
        have := val_lt a
        rw [Nat.mul_comm] at this
        exact this)
  simp only [← hp, List.length_replicate] at h
  obtain ⟨e, hlt, l1, l2⟩ := h
  refine ⟨p.1, p.2, ?_, l1, l2, ?_, ?_⟩
  · unfold divv; rw [if_neg (by omega), if_neg (by omega)]
  · rw [e, Nat.mul_comm, Nat.mul_add_mod, Nat.mod_eq_of_lt hlt]
  · rw [e, Nat.mul_comm, Nat.mul_add_div (by omega), Nat.div_eq_of_lt hlt, Nat.add_zero]

/-- Division by zero: every trial subtraction succeeds and changes nothing. -/
theorem divvLoop_zero (a b : List W) (i : Nat) (rem quo : List W) (hb : val b = 0)
    (hroom : val a < 2 ^ (32 * rem.length)) (hinv : val a / 2 ^ i = val rem) :
    let p := divvLoop a b i rem quo
    val p.1 = val a ∧ p.1.length = rem.length ∧ p.2.length = quo.length := by
  induction i generalizing rem quo with
  | zero =>
    simp only [divvLoop]
    simp only [Nat.pow_zero, Nat.div_one] at hinv
    exact ⟨hinv.symm, by simp, by simp⟩
  | succ i ih =>
    simp only [divvLoop]
    set bit := rd a (i / 32) >>> (i % 32)
    have hbit : bit.toNat % 2 = val a / 2 ^ i % 2 := by
      have h1 : (val a).testBit i = bit.getLsbD 0 := by
        rw [val_testBit, BitVec.getLsbD_ushiftRight]; simp
      rw [Nat.testBit_eq_decide_div_mod_eq] at h1
      simp only [BitVec.getLsbD, Nat.testBit_zero] at h1
      have := decide_eq_decide.mp h1
      omega
    set rem1 := shift1bit rem bit with hrem1
    have hl1 : rem1.length = rem.length := length_shift1bit _ _
    have hdiv : val a / 2 ^ i = 2 * (val a / 2 ^ (i + 1)) + val a / 2 ^ i % 2 := by
      rw [Nat.pow_succ, ← Nat.div_div_eq_div_mul]; omega
    have hv1 : val rem1 = 2 * val rem + bit.toNat % 2 := by
      rw [hrem1, val_shift1bit, Nat.mod_eq_of_lt]
      have hle : val a / 2 ^ i ≤ val a := Nat.div_le_self _ _
      omega
    have hc := condSub_val rem1 b 0
    rw [hb] at hc
    simp only [Nat.zero_mul, Nat.zero_le, if_true, Nat.sub_zero] at hc
    set rem2 := subShiftedMasked rem1.length rem1 b 0 (~~~(cmpvShifted rem1 b 0 >>> 1) &&& 1) with hrem2
    have hl2 : rem2.length = rem.length := by rw [hrem2, length_subShiftedMasked, hl1]
    have := ih rem2 (quo.modify (i / 32) (· ||| (~~~(cmpvShifted rem1 b 0 >>> 1) &&& 1) <<< (i % 32)))
      (by rw [hl2]; exact hroom) (by rw [hc, hv1, hdiv, hinv, hbit])
    rw [hl2] at this
    simpa using this

theorem divv_zero (remc quoc : Nat) (a b : List W) (h1 : a.length ≤ quoc) (h2 : b.length ≤ remc)
    (hb : val b = 0) (hroom : val a < 2 ^ (32 * remc)) :
    ∃ r q, divv remc quoc a b = some (r, q) ∧ r.length = remc ∧ q.length = quoc ∧ val r = val a := by
  have h := divvLoop_zero a b (a.length * 32) (List.replicate remc 0) (List.replicate quoc 0) hb
    (by simpa using hroom)
    (by rw [val_replicate_zero]; simp
        have := val_lt a
        rw [Nat.mul_comm] at this
        exact this)
  simp only [List.length_replicate] at h
  obtain ⟨e, l1, l2⟩ := h
  refine ⟨_, _, ?_, l1, l2, e⟩
  unfold divv; rw [if_neg (by omega), if_neg (by omega)]

end Vlong
