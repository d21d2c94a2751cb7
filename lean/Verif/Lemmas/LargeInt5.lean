import Verif.Lemmas.LargeInt4

/-! # `li_div` -/
namespace LargeInt

theorem vval_congr {s t : Store} {v : View} (h : ∀ i, vget s v i = vget t v i) : vval s v = vval t v := wsum_congr fun i _ => by rw [h]

/-- State of the division after the bits from `i` up. -/
structure DInv (wv : Desc) (d : View) (s0 : Store) (n A B i : Nat) (st : DivSt) : Prop where
  hd : ∀ j, vget st.s d j = vget s0 d j
  out : ∀ k, k < wv.p.getD 0 ∨ wv.p.getD 0 + wv.len ≤ k → st.s k = s0 k
  high : ∀ j, n ≤ j → get st.s wv j = get s0 wv j
  ri : st.r.intd = wv
  rb : st.r.base = 0
  qi : st.q.intd = wv
  rv : vval st.s st.r = A % (B * 2 ^ i)
  hv : st.h.toNat = if i % 32 = 0 then 0 else A / (B * 2 ^ i) * 2 ^ (i % 32) % 2 ^ 32
  part : (A / B / 2 ^ (32 * ((i + 31) / 32)) = 0 ∧ st.g = 0 ∧ st.q.base = n ∧ st.q.len = 0 ∧ st.r.len = n) ∨
    ∃ k, (i + 31) / 32 ≤ k ∧ st.g.toNat = A / B / 2 ^ (32 * k) ∧ st.g ≠ 0 ∧ st.q.len = k - (i + 31) / 32 ∧ st.r.len = n - (k - (i + 31) / 32) ∧
      st.q.base = st.r.len ∧ B * 2 ^ (32 * k) < 2 ^ (32 * n) ∧
      ∀ j < k - (i + 31) / 32, (vget st.s st.q j).toNat = A / B / 2 ^ (32 * ((i + 31) / 32 + j)) % 2 ^ 32

theorem h_step (N s h : Nat) (hs : s < 32) (hh : h = if (s + 1) % 32 = 0 then 0 else N / 2 * 2 ^ (s + 1) % 2 ^ 32) :
    h + N % 2 * 2 ^ s = N * 2 ^ s % 2 ^ 32 ∧ h % 2 ^ (s + 1) = 0 := by
  have e : h = N / 2 * 2 ^ (s + 1) % 2 ^ 32 := by
    by_cases h31 : s = 31
    · subst h31; rw [hh]; simp
    · rw [hh, if_neg (by omega)]
  subst e
  have p : (2 : Nat) ^ 32 = 2 ^ (s + 1) * 2 ^ (31 - s) := by rw [← pow_add]; congr 1; omega
  have p2 : (2 : Nat) ^ 32 = 2 ^ s * 2 ^ (32 - s) := by rw [← pow_add]; congr 1; omega
  have p3 : (2 : Nat) ^ (32 - s) = 2 * 2 ^ (31 - s) := by rw [show 32 - s = (31 - s) + 1 by omega, pow_succ]; ring
  refine ⟨?_, ?_⟩
  · have e1 : N / 2 * 2 ^ (s + 1) % 2 ^ 32 = 2 ^ (s + 1) * (N / 2 % 2 ^ (31 - s)) := by rw [p, Nat.mul_comm (N / 2), Nat.mul_mod_mul_left]
    have e2 : N * 2 ^ s % 2 ^ 32 = 2 ^ s * (N % (2 * 2 ^ (31 - s))) := by rw [p2, p3, Nat.mul_comm N, Nat.mul_mod_mul_left]
    rw [e1, e2, Nat.mod_mul, pow_succ]; ring
  · rw [p, Nat.mul_comm (N / 2), Nat.mul_mod_mul_left, Nat.mul_mod_right]

theorem h_or (h : W) (s b : Nat) (hs : s < 32) (hb : h.toNat % 2 ^ (s + 1) = 0) : (h ||| (1 : W) <<< s).toNat = h.toNat + 2 ^ s := by
  have h1 : (1 : Nat) <<< s % 2 ^ 32 = 2 ^ s := by
    rw [Nat.shiftLeft_eq, one_mul, Nat.mod_eq_of_lt (Nat.pow_lt_pow_right (by decide) hs)]
  rw [BitVec.toNat_or, BitVec.toNat_shiftLeft]
  change h.toNat ||| (1 : Nat) <<< s % 2 ^ 32 = _
  rw [h1]
  have := Nat.div_add_mod h.toNat (2 ^ (s + 1))
  rw [hb, Nat.add_zero] at this
  rw [← this]
  exact (Nat.two_pow_add_eq_or_of_lt (Nat.pow_lt_pow_right (by decide) (by omega)) _).symm

/-- The comparison and subtraction of one bit. -/
theorem bit_step (wv : Desc) (d : View) (s0 : Store) (n A B i : Nat) (st : DivSt) (hap : Apart wv d.intd) (hdl : d.len = n) (hn : n ≤ wv.len) (hn2 : n < 2 ^ 24)
    (hi : i < n * 32) (hB : vval s0 d = B) (hB0 : 0 < B) (h : DInv wv d s0 n A B (i + 1) st) :
    let st' := if shiftedGe st.s st.r d i then { st with s := shiftedSub st.s st.r st.r d i, h := st.h ||| (1 : W) <<< (i % 32) } else st
    (∀ j, vget st'.s d j = vget s0 d j) ∧ (∀ k, k < wv.p.getD 0 ∨ wv.p.getD 0 + wv.len ≤ k → st'.s k = s0 k) ∧ (∀ j, n ≤ j → get st'.s wv j = get s0 wv j) ∧
    st'.r = st.r ∧ st'.q = st.q ∧ st'.g = st.g ∧ vval st'.s st.r = A % (B * 2 ^ i) ∧ st'.h.toNat = A / (B * 2 ^ i) * 2 ^ (i % 32) % 2 ^ 32 ∧
    ∀ j, vget st'.s st.q j = vget st.s st.q j := by
  have hrl : st.r.len ≤ n := by rcases h.part with h | ⟨k, h⟩ <;> omega
  have hdv : vval st.s d = B := by rw [← hB]; exact vval_congr h.hd
  have hge := ge_spec st.s st.r d i (by omega) (by omega) (by omega)
  rw [hdv, h.rv] at hge
  have hmm : A % (B * 2 ^ (i + 1)) = A % (B * 2 ^ i) + B * 2 ^ i * (A / (B * 2 ^ i) % 2) := by rw [pow_succ, ← Nat.mul_assoc, Nat.mod_mul]
  have hN2 : A / (B * 2 ^ (i + 1)) = A / (B * 2 ^ i) / 2 := by rw [pow_succ, ← Nat.mul_assoc, Nat.div_div_eq_div_mul]
  have hpos : 0 < B * 2 ^ i := Nat.mul_pos hB0 (Nat.two_pow_pos i)
  have hlt := Nat.mod_lt A hpos
  have hh := h.hv
  rw [hN2] at hh
  have hq : st.r.base + st.r.len ≤ st.q.base := by
    rw [h.rb]
    rcases h.part with h | ⟨k, h⟩ <;> omega
  obtain ⟨h1, h2⟩ := h_step (A / (B * 2 ^ i)) (i % 32) st.h.toNat (by omega) (by
    rw [hh]
    by_cases e : (i + 1) % 32 = 0
    · rw [if_pos e, if_pos (by omega)]
    · rw [if_neg e, if_neg (by omega), show (i + 1) % 32 = i % 32 + 1 by omega])
  rcases Nat.mod_two_eq_zero_or_one (A / (B * 2 ^ i)) with hb | hb
  · rw [hb] at hmm h1
    rw [hge, decide_eq_false (by rw [hmm]; omega), if_neg (by simp)]
    exact ⟨h.hd, h.out, h.high, rfl, rfl, rfl, by rw [h.rv, hmm]; simp, by rw [← h1]; simp, fun _ => rfl⟩
  · rw [hb] at hmm h1
    rw [hge, decide_eq_true (by rw [hmm]; omega), if_pos rfl]
    have hf : ∀ (st' : Store × BitVec 64) (j : Nat), ∃ x, (ssubStep st.r st.r d i st' j).1 = vset st'.1 st.r j x := fun _ _ => ⟨_, rfl⟩
    refine ⟨fun j => ?_, fun k hk => ?_, fun j hj => ?_, rfl, rfl, rfl, ?_, ?_, fun j => ?_⟩
    · rw [← h.hd j]
      exact fold_apart _ st.r d (by rw [h.ri]; exact hap) hf _ (st.s, 0) j
    · rw [← h.out k hk]
      exact ssub_frame st.s st.r d i k (by rw [h.ri]; exact hk)
    · rw [← h.high j hj]
      have := fold_view (ssubStep st.r st.r d i) st.r ⟨n, wv.len - n, wv⟩ h.ri (by rw [h.rb]; show 0 + st.r.len ≤ n; omega) hf
        (List.range (max st.r.len (max st.r.len d.len))) (st.s, 0) (j - n)
      unfold vget at this
      dsimp only at this
      by_cases hj2 : j - n ≥ wv.len - n
      · unfold get; rw [if_pos (by omega), if_pos (by omega)]
      · rw [if_neg hj2, if_neg hj2, show j - n + n = j by omega] at this
        exact this
    · dsimp only
      rw [ssub_spec st.s st.r d i (by rw [h.rb, h.ri]; omega) (by rw [h.ri]; exact hap) (by omega) (by omega) (by omega) (by rw [hdv, h.rv, hmm]; omega),
        hdv, h.rv, hmm]
      omega
    · dsimp only
      rw [h_or _ _ 0 (by omega) h2]; omega
    · exact fold_view _ st.r st.q (by rw [h.ri, h.qi]) hq hf _ (st.s, 0) j

theorem div_step (wv : Desc) (d : View) (s0 : Store) (n A B i : Nat) (st : DivSt) (hap : Apart wv d.intd) (hdl : d.len = n) (hn : n ≤ wv.len) (hn2 : n < 2 ^ 24)
    (hi : i < n * 32) (hB : vval s0 d = B) (hB0 : 0 < B) (hA : A < 2 ^ (32 * n)) (h : DInv wv d s0 n A B (i + 1) st) : DInv wv d s0 n A B i (divStep d st i) := by
  have hb := bit_step wv d s0 n A B i st hap hdl hn hn2 hi hB hB0 h
  unfold divStep
  dsimp only at hb ⊢
  generalize (if shiftedGe st.s st.r d i then { st with s := shiftedSub st.s st.r st.r d i, h := st.h ||| (1 : W) <<< (i % 32) } else st) = st' at hb ⊢
  obtain ⟨h1, h2, h3, h4, h5, h6, h7, h8, h9⟩ := hb
  have hpos : 0 < B * 2 ^ i := Nat.mul_pos hB0 (Nat.two_pow_pos i)
  by_cases hs : i % 32 = 0
  · rw [if_neg (by omega)]
    obtain ⟨l, rfl⟩ : ∃ l, i = 32 * l := ⟨i / 32, by omega⟩
    have hL : (32 * l + 1 + 31) / 32 = l + 1 := by omega
    have hL' : (32 * l + 31) / 32 = l := by omega
    have hp := h.part
    rw [hL] at hp
    have hN : A / (B * 2 ^ (32 * l)) = A / B / 2 ^ (32 * l) := (Nat.div_div_eq_div_mul _ _ _).symm
    rw [hN, hs] at h8
    simp only [pow_zero, Nat.mul_one] at h8
    have hup : A / B / 2 ^ (32 * (l + 1)) = A / B / 2 ^ (32 * l) / 2 ^ 32 := by
      rw [show 32 * (l + 1) = 32 * l + 32 from by ring, pow_add, Nat.div_div_eq_div_mul (A / B)]
    rw [h6]
    rcases hp with ⟨p1, p2, p3, p4, p5⟩ | ⟨k, p1, p2, p3, p4, p5, p6, p7, p8⟩
    · rw [if_pos p2]
      have hlt : A / B / 2 ^ (32 * l) < 2 ^ 32 := by
        rw [hup] at p1
        exact (Nat.div_eq_zero_iff.mp p1).resolve_left (by decide)
      rw [Nat.mod_eq_of_lt hlt] at h8
      refine ⟨h1, h2, h3, by rw [h4]; exact h.ri, by rw [h4]; exact h.rb, by rw [h5]; exact h.qi, by rw [h4]; exact h7, by rw [if_pos hs]; rfl, ?_⟩
      dsimp only
      rw [hL', h4, h5]
      by_cases h0 : A / B / 2 ^ (32 * l) = 0
      · exact .inl ⟨h0, BitVec.eq_of_toNat_eq (h8.trans h0), p3, p4, p5⟩
      · refine .inr ⟨l, le_refl _, h8, fun e => h0 (by rw [← h8, e]; rfl), by omega, by omega, by omega, ?_, fun j hj => by omega⟩
        by_contra hc
        apply h0
        rw [← hN]
        exact Nat.div_eq_of_lt (by omega)
    · rw [if_neg p3]
      have hk : k < n := by
        by_contra hc
        have : 2 ^ (32 * n) ≤ B * 2 ^ (32 * k) :=
          le_trans (Nat.pow_le_pow_right (by decide) (by omega)) (Nat.le_mul_of_pos_left _ hB0)
        omega
      have hV : A % (B * 2 ^ (32 * l)) < 2 ^ (32 * (n - (k - l))) := by
        refine lt_trans (Nat.mod_lt _ hpos) ?_
        have e1 : 2 ^ (32 * k) = 2 ^ (32 * l) * 2 ^ (32 * (k - l)) := by rw [← pow_add]; congr 1; omega
        have e2 : 2 ^ (32 * n) = 2 ^ (32 * (n - (k - l))) * 2 ^ (32 * (k - l)) := by rw [← pow_add]; congr 1; omega
        rw [e1, e2, ← Nat.mul_assoc] at p7
        exact Nat.lt_of_mul_lt_mul_right p7
      have hr1 : st.r.len - 1 = n - (k - l) := by omega
      have hz : vget st'.s st.r (st.r.len - 1) = 0 := by
        rw [← BitVec.toNat_inj, vget_digit, h7, hr1, Nat.div_eq_of_lt hV]; rfl
      rw [h4, if_pos hz]
      have hlw : wv.len ≥ n := hn
      let q' : View := ⟨st.q.base - 1, st.q.len + 1, st.q.intd⟩
      let r' : View := ⟨st.r.base, st.r.len - 1, st.r.intd⟩
      have hqok : q'.base + q'.len ≤ q'.intd.len := by
        show st.q.base - 1 + (st.q.len + 1) ≤ st.q.intd.len
        rw [h.qi]; omega
      rw [h5]
      refine ⟨fun j => ?_, fun a ha => ?_, fun j hj => ?_, h.ri, h.rb, h.qi, ?_, by rw [if_pos hs]; rfl, ?_⟩
      · rw [← h1 j]
        exact vset_apart st'.s q' d (by show Apart st.q.intd d.intd; rw [h.qi]; exact hap) 0 j _
      · rw [← h2 a ha]
        exact vset_out st'.s q' 0 _ a (by rw [show q'.intd = wv from h.qi]; exact ha)
      · rw [← h3 j hj, get_full, get_full]
        exact vset_ne st'.s q' (full wv) h.qi 0 j _ (by show 0 + (st.q.base - 1) ≠ j + 0; omega)
      · rw [← h7]
        have ev : ∀ j, vget (vset st'.s q' 0 st'.h) r' j = vget st'.s r' j := fun j => by
          by_cases hj : j < r'.len
          · exact vset_ne st'.s q' r' (by show st.q.intd = st.r.intd; rw [h.qi, h.ri]) 0 j _ (by
              show 0 + (st.q.base - 1) ≠ j + st.r.base
              have : j < st.r.len - 1 := hj
              rw [h.rb]; omega)
          · rw [vget_ge _ _ _ (by omega), vget_ge _ _ _ (by omega)]
        show vval (vset st'.s q' 0 st'.h) r' = _
        rw [vval_congr ev]
        have : vval st'.s st.r = wsum (fun i => (vget st'.s st.r i).toNat) (st.r.len - 1) := by
          unfold vval
          exact wsum_ge (fun j hj => by
            by_cases e : j = st.r.len - 1
            · rw [e, hz]; rfl
            · rw [vget_ge _ _ _ (by omega)]; rfl) (by omega)
        rw [this]
        show wsum _ (st.r.len - 1) = _
        exact wsum_congr fun j hj => by
          unfold vget
          rw [if_neg (show ¬ j ≥ r'.len from by show ¬ j ≥ st.r.len - 1; omega), if_neg (by omega)]
      · refine .inr ⟨k, by omega, p2, p3, ?_, ?_, ?_, p7, fun j hj => ?_⟩
        · show st.q.len + 1 = _; omega
        · show st.r.len - 1 = _; omega
        · show st.q.base - 1 = st.r.len - 1; omega
        · show (vget (vset st'.s q' 0 st'.h) q' j).toNat = _
          rw [hL'] at hj ⊢
          cases j with
          | zero => rw [vset_at st'.s q' hqok 0 _ (by show 0 < st.q.len + 1; omega), h8, Nat.add_zero]
          | succ j =>
            rw [vset_ne st'.s q' q' rfl 0 (j + 1) _ (by omega)]
            have ev : vget st'.s q' (j + 1) = vget st'.s st.q j := by
              unfold vget
              show (if j + 1 ≥ st.q.len + 1 then _ else get st'.s st.q.intd (j + 1 + (st.q.base - 1))) = _
              by_cases hj2 : j ≥ st.q.len
              · rw [if_pos (by omega), if_pos hj2]
              · rw [if_neg (by omega), if_neg hj2, show j + 1 + (st.q.base - 1) = j + st.q.base by omega]
            rw [ev, h9, p8 j (by omega), show l + 1 + j = l + (j + 1) by omega]
  · rw [if_pos hs]
    refine ⟨h1, h2, h3, by rw [h4]; exact h.ri, by rw [h4]; exact h.rb, by rw [h5]; exact h.qi, by rw [h4]; exact h7, by rw [if_neg hs]; exact h8, ?_⟩
    rw [h4, h5, h6, show (i + 31) / 32 = (i + 1 + 31) / 32 by omega]
    simp only [h9]
    exact h.part

theorem div_loop (wv : Desc) (d : View) (s0 : Store) (n A B : Nat) (st : DivSt) (hap : Apart wv d.intd) (hdl : d.len = n) (hn : n ≤ wv.len) (hn2 : n < 2 ^ 24)
    (hB : vval s0 d = B) (hB0 : 0 < B) (hA : A < 2 ^ (32 * n)) (m : Nat) (hm : m ≤ n * 32) (h : DInv wv d s0 n A B m st) :
    DInv wv d s0 n A B 0 ((List.range m).reverse.foldl (divStep d) st) := by
  induction m generalizing st with
  | zero => exact h
  | succ m ih =>
    rw [List.range_succ, List.reverse_append, List.reverse_singleton, List.singleton_append, List.foldl_cons]
    exact ih _ (by omega) (div_step wv d s0 n A B m st hap hdl hn hn2 (by omega) hB hB0 hA h)

end LargeInt
