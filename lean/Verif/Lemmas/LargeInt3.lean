import Verif.Lemmas.LargeInt2

/-! # `li_mul` -/
namespace LargeInt

theorem full_ok (d : Desc) : (full d).base + (full d).len ≤ (full d).intd.len := by simp [full]

theorem get_set_apart (s : Store) (d e : Desc) (h : Apart d e) (i j : Nat) (x : W) : get (set s d i x) e j = get s e j := by
  rw [set_full, get_full, get_full]
  exact vset_apart s (full d) (full e) h i j x

theorem get_set_ne (s : Store) (d : Desc) (i j : Nat) (x : W) (h : i ≠ j) : get (set s d i x) d j = get s d j := by
  rw [set_full, get_full, get_full]
  exact vset_ne s (full d) (full d) rfl i j x (by simpa [full] using h)

theorem get_set_at (s : Store) (d : Desc) (i : Nat) (x : W) (h : i < d.len) : get (set s d i x) d i = x := by
  rw [set_full, get_full]
  exact vset_at s (full d) (full_ok d) i x h

/-- The words of an integer. -/
def wd (s : Store) (d : Desc) (i : Nat) : Nat := (get s d i).toNat

/-- The number in an integer descriptor. -/
def dval (s : Store) (d : Desc) : Nat := wsum (wd s d) d.len

theorem dval_full (s : Store) (d : Desc) : dval s d = vval s (full d) := by
  unfold dval vval
  exact wsum_congr fun i _ => by unfold wd; rw [get_full]

theorem dval_ext (s : Store) (d : Desc) (n : Nat) (h : d.len ≤ n) : wsum (wd s d) n = dval s d :=
  wsum_ge (fun i hi => by unfold wd get; rw [if_pos hi]; rfl) h

theorem wd_lt (s : Store) (d : Desc) (i : Nat) : wd s d i < 2 ^ 32 := BitVec.isLt _

theorem dval_lt (s : Store) (d : Desc) : dval s d < 2 ^ (32 * d.len) := wsum_lt (wd_lt s d) _

theorem wsum_split (f : Nat → Nat) (n m : Nat) : wsum f (n + m) = wsum f n + wsum (fun i => f (n + i)) m * 2 ^ (32 * n) := by
  induction m with
  | zero => simp [wsum]
  | succ m ih =>
    rw [← Nat.add_assoc, wsum, ih, wsum, show 32 * (n + m) = 32 * m + 32 * n from by ring, pow_add]; ring

theorem wsum_mod (f : Nat → Nat) (h : ∀ i, f i < 2 ^ 32) (n m : Nat) (hm : m ≤ n) : wsum f n % 2 ^ (32 * m) = wsum f m := by
  obtain ⟨k, rfl⟩ := Nat.exists_eq_add_of_le hm
  rw [wsum_split, Nat.add_mul_mod_self_right, Nat.mod_eq_of_lt (wsum_lt h m)]

theorem clear_get (s : Store) (d : Desc) (i : Nat) : get (clear s d) d i = 0 := by
  unfold clear
  by_cases hi : i < d.len
  · have : ∀ n ≤ d.len, ∀ i < n, get ((List.range n).foldl (fun s i => set s d i 0) s) d i = 0 := by
      intro n hn
      induction n with
      | zero => intro i hi; omega
      | succ n ih =>
        intro i hi
        rw [List.range_succ, List.foldl_append, List.foldl_cons, List.foldl_nil]
        by_cases e : i = n
        · subst e; exact get_set_at _ d i 0 (by omega)
        · rw [get_set_ne _ _ _ _ _ (by omega)]; exact ih (by omega) i (by omega)
    exact this d.len (le_refl _) i hi
  · unfold get; rw [if_pos (by omega)]

theorem clear_apart (s : Store) (d e : Desc) (h : Apart d e) (i : Nat) : get (clear s d) e i = get s e i := by
  unfold clear
  generalize List.range d.len = l
  induction l generalizing s with
  | nil => rfl
  | cons k l ih => rw [List.foldl_cons, ih, get_set_apart s d e h]

theorem mul_arith (S' S X u T v z c w : Nat) {i j : Nat} {R R1 : Nat} (hR : R = 2 ^ (32 * j) * 2 ^ (32 * i)) (hR1 : R1 = 2 ^ 32 * R)
    (h4 : S' + X * R = S + u * T * 2 ^ (32 * i)) (d : 2 ^ 32 * c + w = X + u * v + z) :
    S' + w * R + c * R1 = S + z * R + u * (T + v * 2 ^ (32 * j)) * 2 ^ (32 * i) := by
  subst hR1 hR
  generalize (2 : Nat) ^ (32 * j) = P at *
  generalize (2 : Nat) ^ (32 * i) = Q at *
  generalize (2 : Nat) ^ 32 = K at *
  linear_combination h4 + P * Q * d

/-- One row. -/
theorem mul_row (out a b : Desc) (ha : Apart out a) (hb : Apart out b) (s : Store) (i j : Nat) (hj : i + j ≤ out.len) :
    let st := (List.range j).foldl (mulStep out a b i) (s, 0)
    (∀ k, get st.1 a k = get s a k) ∧ (∀ k, get st.1 b k = get s b k) ∧ (∀ k ≥ i + j, get st.1 out k = get s out k) ∧
    wsum (wd st.1 out) (i + j) + (st.2 >>> 32).toNat * 2 ^ (32 * (i + j)) = wsum (wd s out) (i + j) + wd s a i * wsum (wd s b) j * 2 ^ (32 * i) := by
  induction j with
  | zero => exact ⟨fun _ => rfl, fun _ => rfl, fun _ _ => rfl, by simp [wsum]⟩
  | succ j ih =>
    have ih := ih (by omega)
    simp only [List.range_succ, List.foldl_append, List.foldl_cons, List.foldl_nil] at ih ⊢
    generalize (List.range j).foldl (mulStep out a b i) (s, 0) = st at ih ⊢
    obtain ⟨h1, h2, h3, h4⟩ := ih
    have e : mulStep out a b i st j = (set st.1 out (i + j) ((st.2 >>> 32 + (get s a i).setWidth 64 * (get s b j).setWidth 64 +
        (get s out (i + j)).setWidth 64).setWidth 32), st.2 >>> 32 + (get s a i).setWidth 64 * (get s b j).setWidth 64 + (get s out (i + j)).setWidth 64) := by
      unfold mulStep
      rw [if_neg (by omega), h1, h2, h3 _ (le_refl _)]
    rw [e]
    have hx : (st.2 >>> 32).toNat < 2 ^ 32 := by
      rw [BitVec.toNat_ushiftRight, Nat.shiftRight_eq_div_pow]; have := st.2.isLt; omega
    have hp : (get s a i).toNat * (get s b j).toNat ≤ (2 ^ 32 - 1) * (2 ^ 32 - 1) :=
      Nat.mul_le_mul (by have := (get s a i).isLt; omega) (by have := (get s b j).isLt; omega)
    have ho := (get s out (i + j)).isLt
    have hy : (st.2 >>> 32 + (get s a i).setWidth 64 * (get s b j).setWidth 64 + (get s out (i + j)).setWidth 64).toNat =
        (st.2 >>> 32).toNat + (get s a i).toNat * (get s b j).toNat + (get s out (i + j)).toNat := by
      have la := (get s a i).isLt
      have lb := (get s b j).isLt
      rw [BitVec.toNat_add, BitVec.toNat_add, BitVec.toNat_mul, BitVec.toNat_setWidth, BitVec.toNat_setWidth, BitVec.toNat_setWidth,
        Nat.mod_eq_of_lt (show (get s a i).toNat < 2 ^ 64 by omega), Nat.mod_eq_of_lt (show (get s b j).toNat < 2 ^ 64 by omega)]
      generalize (get s a i).toNat * (get s b j).toNat = p at *
      omega
    generalize st.2 >>> 32 + (get s a i).setWidth 64 * (get s b j).setWidth 64 + (get s out (i + j)).setWidth 64 = y at hy ⊢
    refine ⟨fun k => by rw [get_set_apart _ _ _ ha, h1], fun k => by rw [get_set_apart _ _ _ hb, h2], fun k hk => by
      rw [get_set_ne _ _ _ _ _ (by omega), h3 k (by omega)], ?_⟩
    rw [← Nat.add_assoc, wsum, wsum, wsum]
    have w1 : wsum (wd (set st.1 out (i + j) (y.setWidth 32)) out) (i + j) = wsum (wd st.1 out) (i + j) := wsum_congr fun k hk => by
      unfold wd; rw [get_set_ne _ _ _ _ _ (by omega)]
    have w2 : wd (set st.1 out (i + j) (y.setWidth 32)) out (i + j) = y.toNat % 2 ^ 32 := by
      unfold wd; rw [get_set_at _ _ _ _ (by omega), BitVec.toNat_setWidth]
    rw [w1, w2]
    dsimp only
    rw [BitVec.toNat_ushiftRight y, Nat.shiftRight_eq_div_pow]
    have d := Nat.div_add_mod y.toNat (2 ^ 32)
    rw [hy] at d
    have hy2 : y.toNat / 2 ^ 32 = ((st.2 >>> 32).toNat + (get s a i).toNat * (get s b j).toNat + (get s out (i + j)).toNat) / 2 ^ 32 := by rw [hy]
    have hy3 : y.toNat % 2 ^ 32 = ((st.2 >>> 32).toNat + (get s a i).toNat * (get s b j).toNat + (get s out (i + j)).toNat) % 2 ^ 32 := by rw [hy]
    rw [hy2, hy3]
    exact mul_arith _ _ _ _ _ _ _ _ _ (pow_add 2 (32 * j) (32 * i) ▸ by rw [← Nat.mul_add, Nat.add_comm j i]) (by
      rw [show 32 * (i + j + 1) = 32 + 32 * (i + j) from by ring, pow_add]) h4 d

/-- The steps behind the end of `out` do nothing. -/
theorem mul_row_end (out a b : Desc) (i n m : Nat) (h : out.len ≤ i + n) (st : Store × BitVec 64) :
    (List.range' n m).foldl (mulStep out a b i) st = st := by
  induction m generalizing n st with
  | zero => rfl
  | succ m ih =>
    rw [List.range'_succ, List.foldl_cons, ih (n + 1) (by omega)]
    unfold mulStep
    rw [if_pos (by omega)]

theorem mul_row_val (out a b : Desc) (ha : Apart out a) (hb : Apart out b) (s : Store) (i : Nat)
    (hB : out.len ≤ b.len ∨ dval s b < 2 ^ (32 * (b.len - 1)) ∧ 0 < b.len)
    (h : dval s out = wsum (wd s a) i * dval s b % 2 ^ (32 * out.len)) :
    let st := (List.range b.len).foldl (mulStep out a b i) (s, 0)
    (∀ k, get st.1 a k = get s a k) ∧ (∀ k, get st.1 b k = get s b k) ∧
    dval st.1 out = wsum (wd s a) (i + 1) * dval s b % 2 ^ (32 * out.len) := by
  have hsum : wsum (wd s a) (i + 1) * dval s b = wsum (wd s a) i * dval s b + wd s a i * dval s b * 2 ^ (32 * i) := by rw [wsum]; ring
  by_cases hi : out.len ≤ i
  · have e : (List.range b.len).foldl (mulStep out a b i) (s, 0) = (s, 0) := by
      rw [List.range_eq_range']; exact mul_row_end out a b i 0 b.len (by omega) _
    rw [e]
    refine ⟨fun _ => rfl, fun _ => rfl, ?_⟩
    rw [h, hsum, show 32 * i = 32 * out.len + 32 * (i - out.len) from by omega, pow_add,
      show wd s a i * dval s b * (2 ^ (32 * out.len) * 2 ^ (32 * (i - out.len))) = 2 ^ (32 * out.len) * (wd s a i * dval s b * 2 ^ (32 * (i - out.len))) from by ring,
      Nat.add_mul_mod_self_left]
  by_cases hl : out.len ≤ i + b.len
  · obtain ⟨k, hk⟩ := Nat.exists_eq_add_of_le (show i ≤ out.len by omega)
    have e : (List.range b.len).foldl (mulStep out a b i) (s, 0) = (List.range k).foldl (mulStep out a b i) (s, 0) := by
      have : List.range b.len = List.range k ++ List.range' k (b.len - k) := by
        have := List.range'_append_1 (s := 0) (m := k) (n := b.len - k)
        rw [Nat.zero_add, show k + (b.len - k) = b.len by omega] at this
        rw [List.range_eq_range', List.range_eq_range', this]
      rw [this, List.foldl_append]
      exact mul_row_end out a b i k _ (by omega) _
    rw [e]
    obtain ⟨r1, r2, _, r4⟩ := mul_row out a b ha hb s i k (by omega)
    refine ⟨r1, r2, ?_⟩
    rw [← hk] at r4
    have r5 := congrArg (· % 2 ^ (32 * out.len)) r4
    rw [Nat.add_mul_mod_self_right] at r5
    change dval _ out % _ = (dval s out + _) % _ at r5
    rw [Nat.mod_eq_of_lt (dval_lt _ _)] at r5
    rw [r5, hsum, Nat.add_mod, h, Nat.mod_mod, ← Nat.add_mod]
    have hb2 := wsum_mod (wd s b) (wd_lt s b) b.len k (by omega)
    change dval s b % _ = _ at hb2
    rw [← hb2]
    have m := Nat.div_add_mod (dval s b) (2 ^ (32 * k))
    conv_rhs => rw [← m]
    rw [show wsum (wd s a) i * (2 ^ (32 * k) * (dval s b / 2 ^ (32 * k)) + dval s b % 2 ^ (32 * k)) = wsum (wd s a) i * dval s b from by rw [m]]
    rw [show wsum (wd s a) i * dval s b + wd s a i * (2 ^ (32 * k) * (dval s b / 2 ^ (32 * k)) + dval s b % 2 ^ (32 * k)) * 2 ^ (32 * i) =
      wsum (wd s a) i * dval s b + wd s a i * (dval s b % 2 ^ (32 * k)) * 2 ^ (32 * i) + 2 ^ (32 * out.len) * (wd s a i * (dval s b / 2 ^ (32 * k))) from by
        rw [hk, show 32 * (i + k) = 32 * k + 32 * i from by ring, pow_add]; ring, Nat.add_mul_mod_self_left]
  · obtain ⟨hB, h0⟩ := hB.resolve_left (by omega)
    obtain ⟨r1, r2, r3, r4⟩ := mul_row out a b ha hb s i b.len (by omega)
    refine ⟨r1, r2, ?_⟩
    generalize (List.range b.len).foldl (mulStep out a b i) (s, 0) = st at *
    change wsum (wd st.1 out) _ + _ = _ + wd s a i * dval s b * _ at r4
    have ub : wsum (wd s a) (i + 1) * dval s b < 2 ^ (32 * (i + b.len)) := by
      rw [show 32 * (i + b.len) = 32 * (i + 1) + 32 * (b.len - 1) from by omega, pow_add]
      exact Nat.mul_lt_mul'' (wsum_lt (wd_lt s a) _) hB
    have ob : wsum (wd s a) i * dval s b < 2 ^ (32 * out.len) :=
      lt_of_le_of_lt (by rw [hsum]; omega) (lt_of_lt_of_le ub (Nat.pow_le_pow_right (by decide) (by omega)))
    rw [Nat.mod_eq_of_lt ob] at h
    obtain ⟨m, hm⟩ := Nat.exists_eq_add_of_le (show i + b.len ≤ out.len by omega)
    have s1 := wsum_split (wd st.1 out) (i + b.len) m
    have s2 := wsum_split (wd s out) (i + b.len) m
    rw [← hm] at s1 s2
    change dval _ out = _ at s1
    change dval _ out = _ at s2
    have e : wsum (fun k => wd st.1 out (i + b.len + k)) m = wsum (fun k => wd s out (i + b.len + k)) m := wsum_congr fun k _ => by
      unfold wd; rw [r3 _ (by omega)]
    have c0 : (st.2 >>> 32).toNat = 0 := by
      by_contra c
      have : 1 * 2 ^ (32 * (i + b.len)) ≤ (st.2 >>> 32).toNat * 2 ^ (32 * (i + b.len)) := Nat.mul_le_mul_right _ (by omega)
      rw [hsum, ← h, s2] at ub
      omega
    rw [c0] at r4
    rw [s1, e, hsum, ← h, s2, Nat.mod_eq_of_lt]
    · omega
    · calc _ ≤ wsum (wd s a) (i + 1) * dval s b := by rw [hsum, ← h, s2]
        _ < _ := lt_of_lt_of_le ub (Nat.pow_le_pow_right (by decide) (by omega))

theorem mul_val (out a b : Desc) (ha : Apart out a) (hb : Apart out b) (s : Store)
    (hB : out.len ≤ b.len ∨ dval s b < 2 ^ (32 * (b.len - 1)) ∧ 0 < b.len) :
    dval (liMul s out a b) out = dval s a * dval s b % 2 ^ (32 * out.len) := by
  unfold liMul
  have key : ∀ n, let t := (List.range n).foldl (fun s i => ((List.range b.len).foldl (mulStep out a b i) (s, 0)).1) (clear s out)
      (∀ k, get t a k = get s a k) ∧ (∀ k, get t b k = get s b k) ∧ dval t out = wsum (wd s a) n * dval s b % 2 ^ (32 * out.len) := by
    intro n
    induction n with
    | zero =>
      refine ⟨fun k => clear_apart s out a ha k, fun k => clear_apart s out b hb k, ?_⟩
      show wsum _ _ = _
      rw [wsum_congr (g := fun _ => 0) fun i _ => by unfold wd; rw [List.range_zero, List.foldl_nil, clear_get]; rfl]
      rw [wsum_ge (n := 0) (fun _ _ => rfl) (Nat.zero_le _)]; simp [wsum]
    | succ n ih =>
      simp only [List.range_succ, List.foldl_append, List.foldl_cons, List.foldl_nil] at ih ⊢
      generalize (List.range n).foldl (fun s i => ((List.range b.len).foldl (mulStep out a b i) (s, 0)).1) (clear s out) = t at ih ⊢
      obtain ⟨i1, i2, i3⟩ := ih
      have ea : wd t a = wd s a := by funext k; unfold wd; rw [i1]
      have eb : wd t b = wd s b := by funext k; unfold wd; rw [i2]
      have eb2 : dval t b = dval s b := by unfold dval; rw [eb]
      have r := mul_row_val out a b ha hb t n (by rw [eb2]; exact hB) (by rw [ea, eb2]; exact i3)
      rw [ea, eb2] at r
      exact ⟨fun k => by rw [r.1, i1], fun k => by rw [r.2.1, i2], r.2.2⟩
  exact (key a.len).2.2

end LargeInt
