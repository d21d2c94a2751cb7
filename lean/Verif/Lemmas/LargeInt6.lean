import Verif.Lemmas.LargeInt5

/-! # `li_div`: entry and exit -/
namespace LargeInt

/-- Memory outside the integer. -/
def Out (d : Desc) (k : Nat) : Prop := k < d.p.getD 0 ∨ d.p.getD 0 + d.len ≤ k

theorem get_frame {s t : Store} {d e : Desc} (h : ∀ k, Out d k → t k = s k) (ha : Apart d e) (j : Nat) : get t e j = get s e j := by
  by_cases hj : j < e.len
  · rw [get_eq _ _ _ hj, get_eq _ _ _ hj, h]
    have := addr_lt hj
    rcases ha with ha | ha
    · exact .inr (by omega)
    · exact .inl (by omega)
  · unfold get; rw [if_pos (by omega), if_pos (by omega)]

theorem set_out (s : Store) (d : Desc) (i : Nat) (x : W) (k : Nat) (h : Out d k) : set s d i x k = s k := by
  rw [set_full]; exact vset_out s (full d) i x k h

/-- Words copied in order. -/
theorem copy_spec (R : Reader) (dst : Desc) (hR : Later R (full dst)) (s : Store) (k : Nat) :
    let t := (List.range k).foldl (fun s i => set s dst i (R s i)) s
    (∀ i < k, i < dst.len → get t dst i = R s i) ∧ (∀ j ≥ k, get t dst j = get s dst j) ∧ (∀ j ≥ k, R t j = R s j) ∧ ∀ a, Out dst a → t a = s a := by
  induction k with
  | zero => exact ⟨fun i h => by omega, fun _ _ => rfl, fun _ _ => rfl, fun _ _ => rfl⟩
  | succ k ih =>
    simp only [List.range_succ, List.foldl_append, List.foldl_cons, List.foldl_nil] at ih ⊢
    generalize (List.range k).foldl (fun s i => set s dst i (R s i)) s = t at ih ⊢
    obtain ⟨i1, i2, i3, i4⟩ := ih
    refine ⟨fun i hi hl => ?_, fun j hj => ?_, fun j hj => ?_, fun a ha => by rw [set_out _ _ _ _ _ ha, i4 a ha]⟩
    · by_cases e : i = k
      · subst e; rw [get_set_at _ _ _ _ hl, i3 i (le_refl _)]
      · rw [get_set_ne _ _ _ _ _ (by omega)]; exact i1 i (by omega) hl
    · rw [get_set_ne _ _ _ _ _ (by omega)]; exact i2 j (by omega)
    · rw [set_full, hR _ _ _ _ (by omega)]; exact i3 j (by omega)

/-- Words set to zero. -/
theorem fill_spec (dst : Desc) (s : Store) (m c : Nat) :
    let t := (List.range' m c).foldl (fun s i => set s dst i 0) s
    (∀ i, m ≤ i → i < m + c → get t dst i = 0) ∧ (∀ j, j < m ∨ m + c ≤ j → get t dst j = get s dst j) ∧ ∀ a, Out dst a → t a = s a := by
  induction c generalizing m s with
  | zero => exact ⟨fun i h => by omega, fun _ _ => rfl, fun _ _ => rfl⟩
  | succ c ih =>
    rw [List.range'_succ, List.foldl_cons]
    obtain ⟨i1, i2, i3⟩ := ih (set s dst m 0) (m + 1)
    refine ⟨fun i h1 h2 => ?_, fun j hj => ?_, fun a ha => by rw [i3 a ha, set_out _ _ _ _ _ ha]⟩
    · by_cases e : i = m
      · subst e
        rw [i2 i (by omega)]
        by_cases hl : i < dst.len
        · exact get_set_at _ _ _ _ hl
        · unfold get; rw [if_pos (by omega)]
      · exact i1 i (by omega) (by omega)
    · rw [i2 j (by omega), get_set_ne _ _ _ _ _ (by omega)]

theorem clear_out (s : Store) (d : Desc) (k : Nat) (h : Out d k) : clear s d k = s k := by
  unfold clear; rw [List.range_eq_range']; exact (fill_spec d s 0 d.len).2.2 k h

theorem dval_of {s : Store} {d : Desc} {V : Nat} (h : ∀ i < d.len, (get s d i).toNat = V / 2 ^ (32 * i) % 2 ^ 32) : dval s d = V % 2 ^ (32 * d.len) := by
  unfold dval
  rw [← wsum_digits]
  exact wsum_congr h

theorem digit_zero {Q n i : Nat} (h : Q < 2 ^ (32 * n)) (hi : n ≤ i) : Q / 2 ^ (32 * i) % 2 ^ 32 = 0 := by
  rw [Nat.div_eq_of_lt (lt_of_lt_of_le h (Nat.pow_le_pow_right (by decide) (by omega)))]
  rfl

/-- The loading of the dividend and the main loop. -/
theorem div_core (wv a b : Desc) (s : Store) (n : Nat) (h0 : 0 < n) (hn : n ≤ wv.len) (hb : n ≤ b.len) (hn2 : n < 2 ^ 24) (ha : Apart wv a) (hab : Apart wv b)
    (hB : 0 < dval s b % 2 ^ (32 * n)) :
    let A := dval s a % 2 ^ (32 * n)
    let B := dval s b % 2 ^ (32 * n)
    let st := (List.range (n * 32)).reverse.foldl (divStep ⟨0, n, b⟩)
      ⟨(List.range n).foldl (fun s i => vset s ⟨0, n, wv⟩ i (get s a i)) s, ⟨n, 0, wv⟩, ⟨0, n, wv⟩, 0, 0⟩
    (∀ k, Out wv k → st.s k = s k) ∧ (∀ j, n ≤ j → get st.s wv j = get s wv j) ∧ st.r.len ≤ n ∧ st.q.base = st.r.len ∧ st.q.base + st.q.len = n ∧
    st.q.len < n ∧ st.r.intd = wv ∧ st.r.base = 0 ∧ st.q.intd = wv ∧
    vval st.s st.r = A % B ∧ (∀ j < st.q.len, (vget st.s st.q j).toNat = A / B / 2 ^ (32 * j) % 2 ^ 32) ∧
    st.g.toNat = A / B / 2 ^ (32 * st.q.len) := by
  intro A B st
  have hA : A < 2 ^ (32 * n) := Nat.mod_lt _ (Nat.two_pow_pos _)
  -- loading
  have e : (fun (s : Store) i => vset s ⟨0, n, wv⟩ i (get s a i)) = fun s i => if i ≥ n then s else set s wv i (get s a i) := by
    funext s i; rfl
  have hload : (List.range n).foldl (fun s i => vset s ⟨0, n, wv⟩ i (get s a i)) s = (List.range n).foldl (fun s i => set s wv i (get s a i)) s := by
    have : ∀ m ≤ n, (List.range m).foldl (fun s i => vset s ⟨0, n, wv⟩ i (get s a i)) s = (List.range m).foldl (fun s i => set s wv i (get s a i)) s := by
      intro m hm
      induction m with
      | zero => rfl
      | succ m ih =>
        rw [List.range_succ, List.foldl_append, List.foldl_append, ih (by omega)]
        show vset _ _ m _ = set _ _ m _
        unfold vset
        rw [if_neg (show ¬ m ≥ n by omega)]
        rfl
    exact this n (le_refl _)
  have hR : Later (fun s i => get s a i) (full wv) := fun s i x j _ => by
    show get (vset s (full wv) i x) a j = get s a j
    rw [← set_full, get_set_apart _ _ _ ha]
  obtain ⟨c1, c2, -, c4⟩ := copy_spec (fun s i => get s a i) wv hR s n
  rw [← hload] at c1 c2 c4
  have hst : st = (List.range (n * 32)).reverse.foldl (divStep ⟨0, n, b⟩)
    ⟨(List.range n).foldl (fun s i => vset s ⟨0, n, wv⟩ i (get s a i)) s, ⟨n, 0, wv⟩, ⟨0, n, wv⟩, 0, 0⟩ := rfl
  generalize (List.range n).foldl (fun s i => vset s ⟨0, n, wv⟩ i (get s a i)) s = s0 at *
  have hd : vval s0 ⟨0, n, b⟩ = B := by
    unfold vval
    show wsum _ n = dval s b % _
    unfold dval
    rw [wsum_mod _ (wd_lt s b) b.len n hb]
    exact wsum_congr fun i hi => by
      unfold vget wd
      rw [if_neg (show ¬ i ≥ n by omega)]
      show (get s0 b (i + 0)).toNat = _
      rw [Nat.add_zero, get_frame c4 hab]
  have hr : vval s0 ⟨0, n, wv⟩ = A := by
    unfold vval
    show wsum _ n = dval s a % _
    rw [← wsum_digits]
    exact wsum_congr fun i hi => by
      unfold vget
      rw [if_neg (show ¬ i ≥ n by omega)]
      show (get s0 wv (i + 0)).toNat = _
      rw [Nat.add_zero, c1 i hi (by omega)]
      rw [get_full, vget_digit, dval_full]
  have hp : A < B * 2 ^ (n * 32) := by
    rw [Nat.mul_comm n]
    exact lt_of_lt_of_le hA (Nat.le_mul_of_pos_left _ hB)
  have inv := div_loop wv ⟨0, n, b⟩ s0 n A B ⟨s0, ⟨n, 0, wv⟩, ⟨0, n, wv⟩, 0, 0⟩ hab rfl hn hn2 hd hB hA (n * 32) (le_refl _)
    ⟨fun _ => rfl, fun _ _ => rfl, fun _ _ => rfl, rfl, rfl, rfl, by rw [hr, Nat.mod_eq_of_lt hp], by rw [if_pos (Nat.mul_mod_left n 32)]; rfl,
      .inl ⟨by
        rw [show (n * 32 + 31) / 32 = n by omega, Nat.div_div_eq_div_mul]
        exact Nat.div_eq_of_lt (lt_of_lt_of_le hA (Nat.le_mul_of_pos_left _ hB)), rfl, rfl, rfl, rfl⟩⟩
  rw [← hst] at inv
  have o : ∀ k, Out wv k → st.s k = s k := fun k hk => by rw [inv.out k hk, c4 k hk]
  have hg : ∀ j, n ≤ j → get st.s wv j = get s wv j := fun j hj => by rw [inv.high j hj, c2 j hj]
  have hv : vval st.s st.r = A % B := by have := inv.rv; rwa [pow_zero, Nat.mul_one] at this
  rcases inv.part with ⟨p1, p2, p3, p4, p5⟩ | ⟨k, p1, p2, p3, p4, p5, p6, p7, p8⟩
  · have p1' : A / B = 0 := by simpa using p1
    refine ⟨o, hg, by omega, by omega, by omega, by omega, inv.ri, inv.rb, inv.qi, hv, fun j hj => by omega, ?_⟩
    rw [p2, p1']; simp
  · have hk : k < n := by
      by_contra hc
      have : 2 ^ (32 * n) ≤ B * 2 ^ (32 * k) :=
        le_trans (Nat.pow_le_pow_right (by decide) (by omega)) (Nat.le_mul_of_pos_left _ hB)
      omega
    refine ⟨o, hg, by omega, by omega, by omega, by omega, inv.ri, inv.rb, inv.qi, hv, fun j hj => ?_, ?_⟩
    · rw [p8 j (by omega)]; simp
    · rw [p2]; congr 3; omega

/-- Words of the quotient after the last stage, wherever the working variable is. -/
theorem quo_words (quo : Desc) (s : Store) (q : View) (g : W) (n Q : Nat) (hQ : Q < 2 ^ (32 * n)) (hql : q.len < n)
    (hR : Later (fun s i => vget s q i) (full quo)) (hq : ∀ j < q.len, (vget s q j).toNat = Q / 2 ^ (32 * j) % 2 ^ 32) (hg : g.toNat = Q / 2 ^ (32 * q.len))
    (hz : ∀ j ≥ n, get s quo j = 0) :
    let k := min n q.len
    let t := (List.range k).foldl (fun s i => set s quo i (vget s q i)) s
    let t := set t quo k g
    let t := (List.range' (k + 1) (n - (k + 1))).foldl (fun s i => set s quo i 0) t
    dval t quo = Q % 2 ^ (32 * quo.len) ∧ ∀ a, Out quo a → t a = s a := by
  rw [Nat.min_eq_right (by omega)]
  intro k t1 t2 t3
  obtain ⟨c1, c2, -, c4⟩ := copy_spec (fun s i => vget s q i) quo hR s k
  obtain ⟨f1, f2, f3⟩ := fill_spec quo t2 (k + 1) (n - (k + 1))
  have hgl : Q / 2 ^ (32 * k) < 2 ^ 32 := by rw [← hg]; exact g.isLt
  refine ⟨dval_of fun i hi => ?_, fun a ha => by rw [show t3 a = t2 a from f3 a ha, show t2 a = t1 a from set_out _ _ _ _ _ ha, show t1 a = s a from c4 a ha]⟩
  show (get t3 quo i).toNat = _
  rcases Nat.lt_trichotomy i k with h | h | h
  · rw [show get t3 quo i = get t2 quo i from f2 i (by omega), show get t2 quo i = get t1 quo i from get_set_ne _ _ _ _ _ (by omega),
      show get t1 quo i = vget s q i from c1 i h hi, hq i h]
  · subst h
    rw [show get t3 quo k = get t2 quo k from f2 k (by omega), show get t2 quo k = g from get_set_at _ _ _ _ hi, hg, Nat.mod_eq_of_lt hgl]
  · by_cases hin : i < n
    · rw [show get t3 quo i = 0 from f1 i (by omega) (by omega)]
      rw [show 32 * i = 32 * k + (32 + 32 * (i - k - 1)) from by omega, pow_add, ← Nat.div_div_eq_div_mul,
        Nat.div_eq_of_lt (lt_of_lt_of_le hgl (Nat.pow_le_pow_right (by decide) (by omega)))]
      rfl
    · rw [show get t3 quo i = get t2 quo i from f2 i (by omega), show get t2 quo i = get t1 quo i from get_set_ne _ _ _ _ _ (by omega),
        show get t1 quo i = get s quo i from c2 i (by omega), hz i (by omega), digit_zero hQ (by omega)]
      rfl

theorem narrow_pos {n l : Nat} (h : 0 < n) (hl : 0 < l) : narrow n l = min n l := by
  unfold narrow
  by_cases h2 : l < n
  · rw [if_pos (.inr h2)]; omega
  · rw [if_neg (by omega)]; omega

/-- The number in the first `n` words of an integer with zeros behind them. -/
theorem low_val {s : Store} {d : Desc} {n V : Nat} (hV : V < 2 ^ (32 * n)) (h : ∀ i < n, i < d.len → (get s d i).toNat = V / 2 ^ (32 * i) % 2 ^ 32)
    (hz : ∀ j ≥ n, get s d j = 0) : dval s d = V % 2 ^ (32 * d.len) :=
  dval_of fun i hi => by
    by_cases hin : i < n
    · exact h i hin hi
    · rw [hz i (by omega), digit_zero hV (by omega)]; rfl

/-- Remainder and quotient both wanted. -/
theorem div_both (s : Store) (quo rem a b : Desc) (hq0 : 0 < quo.len) (hr0 : 0 < rem.len) (ha0 : 0 < a.len) (hb0 : 0 < b.len) (hqp : quo.p.isSome) (hrp : rem.p.isSome)
    (n : Nat) (hn : n = min (min (min quo.len rem.len) a.len) b.len) (hn2 : n < 2 ^ 24)
    (hqr : Apart quo rem) (hqa : Apart quo a) (hqb : Apart quo b) (hra : Apart rem a) (hrb : Apart rem b) (hB : 0 < dval s b % 2 ^ (32 * n)) :
    dval (liDiv s quo rem a b) quo = (dval s a % 2 ^ (32 * n)) / (dval s b % 2 ^ (32 * n)) ∧
    dval (liDiv s quo rem a b) rem = (dval s a % 2 ^ (32 * n)) % (dval s b % 2 ^ (32 * n)) ∧
    ∀ k, Out quo k → Out rem k → liDiv s quo rem a b k = s k := by
  have hn' : narrow (narrow (narrow (narrow 0 quo.len) rem.len) a.len) b.len = n := by
    rw [show narrow 0 quo.len = quo.len from if_pos (.inl rfl), narrow_pos hq0 hr0, narrow_pos (by omega) ha0, narrow_pos (by omega) hb0, hn]
  have f1 : ∀ k, Out quo k → Out rem k → clear (clear s quo) rem k = s k := fun k h1 h2 => by rw [clear_out _ _ _ h2, clear_out _ _ _ h1]
  have ga : ∀ j, get (clear (clear s quo) rem) a j = get s a j := fun j => by rw [clear_apart _ _ _ hra, clear_apart _ _ _ hqa]
  have gb : ∀ j, get (clear (clear s quo) rem) b j = get s b j := fun j => by rw [clear_apart _ _ _ hrb, clear_apart _ _ _ hqb]
  have va : dval (clear (clear s quo) rem) a = dval s a := wsum_congr fun i _ => by unfold wd; rw [ga]
  have vb : dval (clear (clear s quo) rem) b = dval s b := wsum_congr fun i _ => by unfold wd; rw [gb]
  have zr : ∀ j, get (clear (clear s quo) rem) rem j = 0 := fun j => clear_get _ _ _
  have zq : ∀ j, get (clear (clear s quo) rem) quo j = 0 := fun j => by rw [clear_apart _ _ _ hqr.symm]; exact clear_get _ _ _
  have core := div_core rem a b (clear (clear s quo) rem) n (by omega) (by omega) (by omega) hn2 hra hrb (by rw [vb]; exact hB)
  unfold liDiv
  simp only [hqp, hrp, if_true, hn', if_neg (show ¬ n = 0 by omega), show rem.p.isNone = false from by rw [← Option.not_isSome, hrp]; rfl, Bool.false_eq_true, if_false]
  generalize clear (clear s quo) rem = s1 at *
  rw [va, vb] at core
  generalize (List.range (n * 32)).reverse.foldl (divStep ⟨0, n, b⟩)
      ⟨(List.range n).foldl (fun s i => vset s ⟨0, n, rem⟩ i (get s a i)) s1, ⟨n, 0, rem⟩, ⟨0, n, rem⟩, 0, 0⟩ = st at *
  obtain ⟨k1, k2, k3, k4, k5, k6, k7, k8, k9, k10, k11, k12⟩ := core
  have hA : dval s a % 2 ^ (32 * n) < 2 ^ (32 * n) := Nat.mod_lt _ (Nat.two_pow_pos _)
  generalize dval s a % 2 ^ (32 * n) = A at *
  generalize dval s b % 2 ^ (32 * n) = B at *
  -- the remainder moved onto itself
  have hR1 : Later (fun s i => vget s st.r i) (full rem) := fun s i x j hij =>
    vset_ne s (full rem) st.r k7.symm i j x (by show i + 0 ≠ j + st.r.base; rw [k8]; omega)
  obtain ⟨c1, c2, c3, c4⟩ := copy_spec (fun s i => vget s st.r i) rem hR1 st.s st.r.len
  generalize (List.range st.r.len).foldl (fun s i => set s rem i (vget s st.r i)) st.s = s2 at *
  have hQ : A / B < 2 ^ (32 * n) := lt_of_le_of_lt (Nat.div_le_self _ _) hA
  have hR2 : Later (fun s i => vget s st.q i) (full quo) := fun s i x j hij => vset_apart s (full quo) st.q (by rw [k9]; exact hqr) i j x
  have qw : ∀ j < st.q.len, vget s2 st.q j = vget st.s st.q j := fun j hj => by
    unfold vget
    rw [if_neg (by omega), if_neg (by omega), k9]
    exact c2 _ (by omega)
  obtain ⟨q1, q2⟩ := quo_words quo s2 st.q st.g n (A / B) hQ k6 hR2 (fun j hj => by rw [qw j hj]; exact k11 j hj) k12 (fun j hj => by
    rw [get_frame c4 hqr.symm, get_frame k1 hqr.symm, zq])
  generalize (List.range' (min n st.q.len + 1) (n - (min n st.q.len + 1))).foldl (fun s i => set s quo i 0)
    (set ((List.range (min n st.q.len)).foldl (fun s i => set s quo i (vget s st.q i)) s2) quo (min n st.q.len) st.g) = s3 at *
  obtain ⟨f1', f2', f3'⟩ := fill_spec rem s3 st.r.len (n - st.r.len)
  generalize (List.range' st.r.len (n - st.r.len)).foldl (fun s i => set s rem i 0) s3 = s4 at *
  refine ⟨?_, ?_, fun k h1 h2 => by rw [f3' k h2, q2 k h1, c4 k h2, k1 k h2, f1 k h1 h2]⟩
  · have : dval s4 quo = dval s3 quo := wsum_congr fun i _ => by unfold wd; rw [get_frame f3' hqr.symm]
    rw [this, q1, Nat.mod_eq_of_lt]
    exact lt_of_lt_of_le hQ (Nat.pow_le_pow_right (by decide) (by omega))
  · have hRem : A % B < 2 ^ (32 * n) := lt_of_le_of_lt (Nat.mod_le _ _) hA
    rw [low_val (n := n) hRem, Nat.mod_eq_of_lt]
    · exact lt_of_lt_of_le hRem (Nat.pow_le_pow_right (by decide) (by omega))
    · intro i hin hi
      by_cases h : i < st.r.len
      · rw [f2' i (by omega), get_frame q2 hqr, c1 i h hi, vget_digit, k10]
      · rw [f1' i (by omega) (by omega), ← k10, digit_zero (vval_lt st.s st.r) (by omega)]; rfl
    · intro j hj
      rw [f2' j (by omega), get_frame q2 hqr, c2 j (by omega), k2 j hj, zr]

/-- Only the remainder wanted: `quo` is NULL with length 0. -/
theorem div_rem (s : Store) (quo rem a b : Desc) (hq0 : quo.len = 0) (hr0 : 0 < rem.len) (ha0 : 0 < a.len) (hb0 : 0 < b.len) (hqp : quo.p = none) (hrp : rem.p.isSome)
    (n : Nat) (hn : n = min (min rem.len a.len) b.len) (hn2 : n < 2 ^ 24)
    (hra : Apart rem a) (hrb : Apart rem b) (hB : 0 < dval s b % 2 ^ (32 * n)) :
    dval (liDiv s quo rem a b) rem = (dval s a % 2 ^ (32 * n)) % (dval s b % 2 ^ (32 * n)) ∧ ∀ k, Out rem k → liDiv s quo rem a b k = s k := by
  have hn' : narrow (narrow (narrow (narrow 0 quo.len) rem.len) a.len) b.len = n := by
    rw [hq0, show narrow (narrow 0 0) rem.len = rem.len from if_pos (.inl rfl), narrow_pos hr0 ha0, narrow_pos (by omega) hb0, hn]
  have f1 : ∀ k, Out rem k → clear s rem k = s k := fun k h2 => clear_out _ _ _ h2
  have va : dval (clear s rem) a = dval s a := wsum_congr fun i _ => by unfold wd; rw [clear_apart _ _ _ hra]
  have vb : dval (clear s rem) b = dval s b := wsum_congr fun i _ => by unfold wd; rw [clear_apart _ _ _ hrb]
  have zr : ∀ j, get (clear s rem) rem j = 0 := fun j => clear_get _ _ _
  have core := div_core rem a b (clear s rem) n (by omega) (by omega) (by omega) hn2 hra hrb (by rw [vb]; exact hB)
  unfold liDiv
  simp only [hqp, hrp, Option.isSome_none, if_true, hn', if_neg (show ¬ n = 0 by omega), show rem.p.isNone = false from by rw [← Option.not_isSome, hrp]; rfl,
    Bool.false_eq_true, if_false]
  generalize clear s rem = s1 at *
  rw [va, vb] at core
  generalize (List.range (n * 32)).reverse.foldl (divStep ⟨0, n, b⟩)
      ⟨(List.range n).foldl (fun s i => vset s ⟨0, n, rem⟩ i (get s a i)) s1, ⟨n, 0, rem⟩, ⟨0, n, rem⟩, 0, 0⟩ = st at *
  obtain ⟨k1, k2, k3, k4, k5, k6, k7, k8, k9, k10, k11, k12⟩ := core
  have hA : dval s a % 2 ^ (32 * n) < 2 ^ (32 * n) := Nat.mod_lt _ (Nat.two_pow_pos _)
  generalize dval s a % 2 ^ (32 * n) = A at *
  generalize dval s b % 2 ^ (32 * n) = B at *
  have hR1 : Later (fun s i => vget s st.r i) (full rem) := fun s i x j hij =>
    vset_ne s (full rem) st.r k7.symm i j x (by show i + 0 ≠ j + st.r.base; rw [k8]; omega)
  obtain ⟨c1, c2, c3, c4⟩ := copy_spec (fun s i => vget s st.r i) rem hR1 st.s st.r.len
  generalize (List.range st.r.len).foldl (fun s i => set s rem i (vget s st.r i)) st.s = s2 at *
  obtain ⟨f1', f2', f3'⟩ := fill_spec rem s2 st.r.len (n - st.r.len)
  generalize (List.range' st.r.len (n - st.r.len)).foldl (fun s i => set s rem i 0) s2 = s4 at *
  refine ⟨?_, fun k h2 => by rw [f3' k h2, c4 k h2, k1 k h2, f1 k h2]⟩
  have hRem : A % B < 2 ^ (32 * n) := lt_of_le_of_lt (Nat.mod_le _ _) hA
  rw [low_val (n := n) hRem, Nat.mod_eq_of_lt]
  · exact lt_of_lt_of_le hRem (Nat.pow_le_pow_right (by decide) (by omega))
  · intro i hin hi
    by_cases h : i < st.r.len
    · rw [f2' i (by omega), c1 i h hi, vget_digit, k10]
    · rw [f1' i (by omega) (by omega), ← k10, digit_zero (vval_lt st.s st.r) (by omega)]; rfl
  · intro j hj
    rw [f2' j (by omega), c2 j (by omega), k2 j hj, zr]

/-- Only the quotient wanted: `rem` is NULL with length 0; the quotient must have room for the working variable. -/
theorem div_quo (s : Store) (quo rem a b : Desc) (hr0 : rem.len = 0) (hq0 : 0 < quo.len) (ha0 : 0 < a.len) (hb0 : 0 < b.len) (hrp : rem.p = none) (hqp : quo.p.isSome)
    (n : Nat) (hn : n = min a.len b.len) (hnq : n ≤ quo.len) (hn2 : n < 2 ^ 24)
    (hqa : Apart quo a) (hqb : Apart quo b) (hB : 0 < dval s b % 2 ^ (32 * n)) :
    dval (liDiv s quo rem a b) quo = (dval s a % 2 ^ (32 * n)) / (dval s b % 2 ^ (32 * n)) ∧ ∀ k, Out quo k → liDiv s quo rem a b k = s k := by
  have hn' : narrow (narrow (narrow (narrow 0 quo.len) rem.len) a.len) b.len = n := by
    rw [hr0, show narrow 0 quo.len = quo.len from if_pos (.inl rfl), show narrow quo.len 0 = 0 from if_pos (.inr hq0),
      show narrow 0 a.len = a.len from if_pos (.inl rfl), narrow_pos ha0 hb0, hn]
  have f1 : ∀ k, Out quo k → clear s quo k = s k := fun k h2 => clear_out _ _ _ h2
  have va : dval (clear s quo) a = dval s a := wsum_congr fun i _ => by unfold wd; rw [clear_apart _ _ _ hqa]
  have vb : dval (clear s quo) b = dval s b := wsum_congr fun i _ => by unfold wd; rw [clear_apart _ _ _ hqb]
  have zr : ∀ j, get (clear s quo) quo j = 0 := fun j => clear_get _ _ _
  have core := div_core quo a b (clear s quo) n (by omega) (by omega) (by omega) hn2 hqa hqb (by rw [vb]; exact hB)
  unfold liDiv
  simp only [hqp, hrp, Option.isSome_none, if_true, hn', if_neg (show ¬ n = 0 by omega), show quo.p.isNone = false from by rw [← Option.not_isSome, hqp]; rfl,
    Bool.false_eq_true, if_false]
  generalize clear s quo = s1 at *
  rw [va, vb] at core
  generalize (List.range (n * 32)).reverse.foldl (divStep ⟨0, n, b⟩)
      ⟨(List.range n).foldl (fun s i => vset s ⟨0, n, quo⟩ i (get s a i)) s1, ⟨n, 0, quo⟩, ⟨0, n, quo⟩, 0, 0⟩ = st at *
  obtain ⟨k1, k2, k3, k4, k5, k6, k7, k8, k9, k10, k11, k12⟩ := core
  have hA : dval s a % 2 ^ (32 * n) < 2 ^ (32 * n) := Nat.mod_lt _ (Nat.two_pow_pos _)
  generalize dval s a % 2 ^ (32 * n) = A at *
  generalize dval s b % 2 ^ (32 * n) = B at *
  have hQ : A / B < 2 ^ (32 * n) := lt_of_le_of_lt (Nat.div_le_self _ _) hA
  have hR2 : Later (fun s i => vget s st.q i) (full quo) := fun s i x j hij =>
    vset_ne s (full quo) st.q k9.symm i j x (by show i + 0 ≠ j + st.q.base; omega)
  obtain ⟨q1, q2⟩ := quo_words quo st.s st.q st.g n (A / B) hQ k6 hR2 k11 k12 (fun j hj => by rw [k2 j hj, zr])
  refine ⟨?_, fun k h => by rw [q2 k h, k1 k h, f1 k h]⟩
  rw [q1, Nat.mod_eq_of_lt]
  exact lt_of_lt_of_le hQ (Nat.pow_le_pow_right (by decide) (by omega))

end LargeInt
