import Verif.Lemmas.LargeInt3

/-! # Shifted words, comparison, subtraction -/
namespace LargeInt

theorem shift_words (U s : Nat) (h0 : 0 < s) (h : s < 32) :
    (U % 2 ^ 32) >>> s ||| ((U / 2 ^ 32 % 2 ^ 32) <<< (32 - s)) % 2 ^ 32 = U / 2 ^ s % 2 ^ 32 := by
  apply Nat.eq_of_testBit_eq
  intro b
  rw [← Nat.shiftRight_eq_div_pow, ← Nat.shiftRight_eq_div_pow]
  simp only [Nat.testBit_or, Nat.testBit_shiftRight, Nat.testBit_mod_two_pow, Nat.testBit_shiftLeft]
  by_cases hb : b < 32
  · by_cases h1 : s + b < 32
    · have h2 : ¬ 32 - s ≤ b := by omega
      simp [hb, h1, h2]
    · have h2 : 32 - s ≤ b := by omega
      have h3 : b - (32 - s) < 32 := by omega
      have h4 : 32 + (b - (32 - s)) = s + b := by omega
      simp [hb, h1, h2, h3, h4]
  · have h1 : ¬ s + b < 32 := by omega
    simp [hb, h1]

theorem gets_spec (s : Store) (v : View) (hl : v.len < 2 ^ 26) (i t : Nat) (hi : i < 2 ^ 26) (ht : t < 2 ^ 31) :
    (gets s v (BitVec.ofNat 32 (i * 32) - BitVec.ofNat 32 t)).toNat = vval s v * 2 ^ t / 2 ^ (32 * i) % 2 ^ 32 := by
  have hT : (BitVec.ofNat 32 (i * 32) - BitVec.ofNat 32 t).toNat = (2 ^ 32 - t + i * 32) % 2 ^ 32 := by
    rw [BitVec.toNat_sub, BitVec.toNat_ofNat, BitVec.toNat_ofNat]
    congr 1; omega
  generalize BitVec.ofNat 32 (i * 32) - BitVec.ofNat 32 t = T at hT
  have hm31 : (T &&& (31 : BitVec 32)).toNat = T.toNat % 32 := by
    rw [BitVec.toNat_and]; exact Nat.and_two_pow_sub_one_eq_mod _ 5
  have hm31' : (T &&& (31 : BitVec 32) ≠ 0) ↔ T.toNat % 32 ≠ 0 := by
    rw [← hm31, ne_eq, ne_eq, ← BitVec.toNat_inj]; rfl
  have hsgn : (T &&& 0x80000000#32 ≠ 0) ↔ 2 ^ 31 ≤ T.toNat := by
    have : (T &&& 0x80000000#32).toNat = if T.toNat.testBit 31 then 2 ^ 31 else 0 := by
      rw [BitVec.toNat_and]
      show T.toNat &&& 2 ^ 31 = _
      rw [Nat.and_two_pow]; cases T.toNat.testBit 31 <;> simp
    rw [ne_eq, ← BitVec.toNat_inj, this, Nat.testBit_eq_decide_div_mod_eq]
    have := T.isLt
    by_cases h : 2 ^ 31 ≤ T.toNat
    · rw [show T.toNat / 2 ^ 31 = 1 by omega]; simp; omega
    · rw [show T.toNat / 2 ^ 31 = 0 by omega]; simp; omega
  have hidx : (T >>> 5 ||| (if T &&& 0x80000000#32 ≠ 0 then 0xf8000000#32 else 0)).toNat = T.toNat / 32 + (if 2 ^ 31 ≤ T.toNat then 31 * 2 ^ 27 else 0) := by
    have hlt := T.isLt
    by_cases h : 2 ^ 31 ≤ T.toNat
    · rw [if_pos (hsgn.mpr h), if_pos h, BitVec.toNat_or, BitVec.toNat_ushiftRight, Nat.shiftRight_eq_div_pow, Nat.lor_comm]
      show 31 * 2 ^ 27 ||| T.toNat / 2 ^ 5 = _
      rw [Nat.mul_comm 31, ← Nat.two_pow_add_eq_or_of_lt (by omega)]
      omega
    · rw [if_neg (by rw [hsgn]; exact h), if_neg h, BitVec.toNat_or, BitVec.toNat_ushiftRight, Nat.shiftRight_eq_div_pow]
      simp
  unfold gets
  dsimp only
  generalize T >>> 5 ||| (if T &&& 0x80000000#32 ≠ 0 then 0xf8000000#32 else 0) = I at hidx
  by_cases hs : T.toNat % 32 = 0
  · rw [if_neg (by rw [hm31']; omega), vget_digit]
    by_cases hc : t ≤ i * 32
    · rw [hidx, if_neg (by omega), show 32 * i = t + (32 * i - t) from by omega, pow_add, ← Nat.div_div_eq_div_mul, Nat.mul_div_cancel _ (by positivity)]
      congr 3
      omega
    · rw [← vget_digit, vget_ge _ _ _ (by rw [hidx, if_pos (by omega)]; omega), show t = 32 * i + (32 + (t - 32 * i - 32)) from by omega, pow_add, pow_add]
      rw [show vval s v * (2 ^ (32 * i) * (2 ^ 32 * 2 ^ (t - 32 * i - 32))) = 2 ^ (32 * i) * (2 ^ 32 * (vval s v * 2 ^ (t - 32 * i - 32))) from by ring,
        Nat.mul_div_cancel_left _ (by positivity), Nat.mul_mod_right]
      rfl
  · rw [if_pos (by rw [hm31']; exact hs), BitVec.toNat_or, BitVec.toNat_ushiftRight, BitVec.toNat_shiftLeft, hm31]
    by_cases hc : t ≤ i * 32
    · have h1 : (I + 1).toNat = I.toNat + 1 := by rw [BitVec.toNat_add, hidx, if_neg (by omega)]; simp; omega
      rw [h1, vget_digit, vget_digit, hidx, if_neg (by omega), Nat.add_zero, Nat.mul_add, pow_add, ← Nat.div_div_eq_div_mul]
      rw [show (2 : Nat) ^ (32 * 1) = 2 ^ 32 from rfl, shift_words _ _ (by omega) (by omega), Nat.div_div_eq_div_mul, ← pow_add,
        show 32 * (T.toNat / 32) + T.toNat % 32 = 32 * i - t by omega,
        show (2 : Nat) ^ (32 * i) = 2 ^ t * 2 ^ (32 * i - t) from by rw [← pow_add]; congr 1; omega, ← Nat.div_div_eq_div_mul,
        Nat.mul_div_cancel _ (by positivity)]
    · rw [vget_ge _ _ I.toNat (by rw [hidx, if_pos (by omega)]; omega)]
      by_cases h32 : t < i * 32 + 32
      · have h1 : (I + 1).toNat = 0 := by rw [BitVec.toNat_add, hidx, if_pos (by omega)]; simp; omega
        rw [h1, vget_digit, show 32 - T.toNat % 32 = t - 32 * i by omega]
        obtain ⟨f, rfl⟩ := Nat.exists_eq_add_of_le (show 32 * i ≤ t by omega)
        rw [pow_add, show vval s v * (2 ^ (32 * i) * 2 ^ f) = 2 ^ (32 * i) * (vval s v * 2 ^ f) from by ring, Nat.mul_div_cancel_left _ (by positivity)]
        simp [Nat.shiftLeft_eq]
      · have h1 : v.len ≤ (I + 1).toNat := by rw [BitVec.toNat_add, hidx, if_pos (by omega)]; simp; omega
        rw [vget_ge _ _ _ h1, show t = 32 * i + (32 + (t - 32 * i - 32)) from by omega, pow_add, pow_add]
        rw [show vval s v * (2 ^ (32 * i) * (2 ^ 32 * 2 ^ (t - 32 * i - 32))) = 2 ^ (32 * i) * (2 ^ 32 * (vval s v * 2 ^ (t - 32 * i - 32))) from by ring,
          Nat.mul_div_cancel_left _ (by positivity), Nat.mul_mod_right]
        simp

/-- Word by word comparison from the top. -/
theorem ge_go (s : Store) (a b : View) (t : Nat) (U V : Nat) (n : Nat) (hU : ∀ i < n, (vget s a i).toNat = U / 2 ^ (32 * i) % 2 ^ 32)
    (hV : ∀ i < n, (gets s b (BitVec.ofNat 32 (i * 32) - BitVec.ofNat 32 t)).toNat = V / 2 ^ (32 * i) % 2 ^ 32) :
    shiftedGe.go s a b t n = decide (V % 2 ^ (32 * n) ≤ U % 2 ^ (32 * n)) := by
  induction n with
  | zero => simp [shiftedGe.go, Nat.mod_one]
  | succ n ih =>
    have hU' := hU n (by omega)
    have hV' := hV n (by omega)
    unfold shiftedGe.go
    dsimp only
    rw [ih (fun i hi => hU i (by omega)) (fun i hi => hV i (by omega)), show 32 * (n + 1) = 32 * n + 32 from by ring, pow_add, Nat.mod_mul, Nat.mod_mul]
    simp only [BitVec.lt_def, hU', hV', gt_iff_lt]
    have lu := Nat.mod_lt U (Nat.two_pow_pos (32 * n))
    have lv := Nat.mod_lt V (Nat.two_pow_pos (32 * n))
    generalize U % 2 ^ (32 * n) = u0 at *
    generalize V % 2 ^ (32 * n) = v0 at *
    generalize U / 2 ^ (32 * n) % 2 ^ 32 = u1 at *
    generalize V / 2 ^ (32 * n) % 2 ^ 32 = v1 at *
    generalize 2 ^ (32 * n) = P at *
    rcases Nat.lt_trichotomy u1 v1 with h | h | h
    · rw [if_pos h]
      symm
      rw [decide_eq_false_iff_not]
      have := Nat.mul_le_mul_left P (Nat.succ_le_of_lt h)
      rw [Nat.mul_succ] at this
      omega
    · subst h; rw [if_neg (by omega), if_neg (by omega)]; simp
    · rw [if_neg (by omega), if_pos h]
      symm
      rw [decide_eq_true_iff]
      have := Nat.mul_le_mul_left P (Nat.succ_le_of_lt h)
      rw [Nat.mul_succ] at this
      omega

/-- `shifted_ge` evaluates `a >= (b << t)`. -/
theorem ge_spec (s : Store) (a b : View) (t : Nat) (ha : a.len < 2 ^ 25) (hb : b.len < 2 ^ 25) (ht : t < 2 ^ 30) :
    shiftedGe s a b t = decide (vval s b * 2 ^ t ≤ vval s a) := by
  unfold shiftedGe
  dsimp only
  rw [ge_go s a b t (vval s a) (vval s b * 2 ^ t) _ (fun i _ => vget_digit s a i) (fun i hi => gets_spec s b (by omega) i t (by omega) (by omega))]
  have la : vval s a < 2 ^ (32 * max a.len (b.len + (t + 31) / 32)) :=
    lt_of_lt_of_le (vval_lt s a) (Nat.pow_le_pow_right (by decide) (by omega))
  have lb : vval s b * 2 ^ t < 2 ^ (32 * max a.len (b.len + (t + 31) / 32)) := by
    refine lt_of_lt_of_le (Nat.mul_lt_mul_of_pos_right (vval_lt s b) (Nat.two_pow_pos t)) ?_
    rw [← pow_add]
    exact Nat.pow_le_pow_right (by decide) (by omega)
  rw [Nat.mod_eq_of_lt la, Nat.mod_eq_of_lt lb]

/-- `shifted_sub` in place, when the difference is not negative. -/
theorem ssub_spec (s : Store) (r d : View) (t : Nat) (hv : r.base + r.len ≤ r.intd.len) (hd : Apart r.intd d.intd) (hr : r.len < 2 ^ 25) (hl : d.len < 2 ^ 25)
    (ht : t < 2 ^ 30) (h : vval s d * 2 ^ t ≤ vval s r) :
    vval (shiftedSub s r r d t) r = vval s r - vval s d * 2 ^ t := by
  let Ra : Reader := fun s i => vget s r i
  let Rb : Reader := fun s i => gets s d (BitVec.ofNat 32 (i * 32) - BitVec.ofNat 32 t)
  have ha : Later Ra r := fun s i x j hij => vset_ne s r r rfl i j x (by omega)
  have hb : Later Rb r := fun s i x j hij => by
    show gets _ _ _ = gets _ _ _
    unfold gets
    simp only [vset_apart s r d hd i]
  obtain ⟨_, bo, -, o, ho, he⟩ := sub_loop Ra Rb r hv ha hb s (max r.len (max r.len d.len))
  have e : shiftedSub s r r d t = ((List.range (max r.len (max r.len d.len))).foldl (subG Ra Rb r) (s, 0)).1 := rfl
  rw [e, ho.val (by omega)]
  generalize hN : max r.len (max r.len d.len) = N at *
  have ea : wsum (fun i => (Ra s i).toNat) N = vval s r := vval_ext s r N (by omega)
  have eb : wsum (fun i => (Rb s i).toNat) N = vval s d * 2 ^ t := by
    rw [wsum_congr (g := fun i => vval s d * 2 ^ t / 2 ^ (32 * i) % 2 ^ 32) (fun i hi => gets_spec s d (by omega) i t (by omega) (by omega)), wsum_digits,
      Nat.mod_eq_of_lt]
    exact lt_of_le_of_lt h (lt_of_lt_of_le (vval_lt s r) (Nat.pow_le_pow_right (by decide) (by omega)))
  rw [ea, eb] at he
  have lo : wsum o N < 2 ^ (32 * N) := wsum_lt ho.1 N
  have hbo : bo = false := by
    cases bo
    · rfl
    · simp only [Bool.toNat_true] at he; omega
  subst hbo
  simp only [Bool.toNat_false] at he
  rw [show wsum o N = vval s r - vval s d * 2 ^ t by omega, Nat.mod_eq_of_lt]
  exact lt_of_le_of_lt (Nat.sub_le _ _) (vval_lt s r)

/-- and it changes only words of the view. -/
theorem ssub_frame (s : Store) (r d : View) (t : Nat) (k : Nat)
    (hk : k < r.intd.p.getD 0 ∨ r.intd.p.getD 0 + r.intd.len ≤ k) : shiftedSub s r r d t k = s k :=
  fold_out (ssubStep r r d t) r (fun _ _ => ⟨_, rfl⟩) _ (s, 0) k hk

/-- Words of another view of the same integer, behind this one. -/
theorem fold_view {α : Type} (f : Store × α → Nat → Store × α) (out w : View) (hw : out.intd = w.intd) (hb : out.base + out.len ≤ w.base)
    (hf : ∀ st i, ∃ x, (f st i).1 = vset st.1 out i x) (l : List Nat) (st : Store × α) (j : Nat) : vget (l.foldl f st).1 w j = vget st.1 w j := by
  induction l generalizing st with
  | nil => rfl
  | cons i l ih =>
    rw [List.foldl_cons, ih]
    obtain ⟨x, e⟩ := hf st i
    rw [e]
    by_cases hi : i < out.len
    · exact vset_ne _ _ _ hw _ _ _ (by omega)
    · unfold vset; rw [if_pos (by omega)]

theorem fold_apart {α : Type} (f : Store × α → Nat → Store × α) (out w : View) (hw : Apart out.intd w.intd)
    (hf : ∀ st i, ∃ x, (f st i).1 = vset st.1 out i x) (l : List Nat) (st : Store × α) (j : Nat) : vget (l.foldl f st).1 w j = vget st.1 w j := by
  induction l generalizing st with
  | nil => rfl
  | cons i l ih =>
    rw [List.foldl_cons, ih]
    obtain ⟨x, e⟩ := hf st i
    rw [e]
    exact vset_apart _ _ _ hw _ _ _

end LargeInt
