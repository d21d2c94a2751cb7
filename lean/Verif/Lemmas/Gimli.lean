import Verif.Model.Gimli
import Verif.Spec.Gimli
import Verif.Lemmas.Sha
import Mathlib.Tactic.FinCases
import Mathlib.Tactic.IntervalCases

/-!
# The Gimli permutation: conformance and injectivity
-/
namespace Gimli
open Spec (leNat)

theorem rotate_eq (x : W) (n : Nat) (h0 : 0 < n) (h : n < 32) : rotate x n = x.rotateLeft n := by
  unfold rotate
  rw [if_neg (by omega), BitVec.rotateLeft_def, Nat.mod_eq_of_lt h]

/-- A list of words as a state. -/
def mat (s : List W) : Spec.Gimli.State := fun i j => s.getD (4 * i.val + j.val) 0

theorem list12 (s : List W) (h : s.length = 12) : ∃ a0 a1 a2 a3 a4 a5 a6 a7 a8 a9 a10 a11, s = [a0, a1, a2, a3, a4, a5, a6, a7, a8, a9, a10, a11] := by
  match s, h with
  | [a0, a1, a2, a3, a4, a5, a6, a7, a8, a9, a10, a11], _ => exact ⟨_, _, _, _, _, _, _, _, _, _, _, _, rfl⟩

theorem rc : ∀ r : Fin 25, ((r.val &&& 3 = 0) ↔ r.val % 4 = 0) ∧ ((r.val &&& 3 = 2) ↔ r.val % 4 = 2) ∧
    BitVec.ofNat 32 (0x9e377900 ||| r.val) = 0x9e377900#32 ^^^ BitVec.ofNat 32 r.val := by decide +kernel

theorem columns_mat (s : List W) (h : s.length = 12) :
    ((List.range 4).foldl column s).length = 12 ∧ mat ((List.range 4).foldl column s) = Spec.Gimli.sp (mat s) := by
  have e24 : ∀ x : W, rotate x 24 = x.rotateLeft 24 := fun x => rotate_eq x 24 (by omega) (by omega)
  have e9 : ∀ x : W, rotate x 9 = x.rotateLeft 9 := fun x => rotate_eq x 9 (by omega) (by omega)
  obtain ⟨a0, a1, a2, a3, a4, a5, a6, a7, a8, a9, a10, a11, rfl⟩ := list12 s h
  refine ⟨by simp [column, List.range_succ], ?_⟩
  unfold column Spec.Gimli.sp
  simp only [e24, e9]
  funext i j
  fin_cases i <;> fin_cases j <;> rfl

theorem swaps_mat (s : List W) (h : s.length = 12) (r : Nat) (hr : r ≤ 24) :
    let s1 := if r &&& 3 = 0 then swap (swap s 0 1) 2 3 else s
    let s2 := if r &&& 3 = 2 then swap (swap s1 0 2) 1 3 else s1
    s2.length = 12 ∧ mat s2 = Spec.Gimli.mix r (mat s) := by
  obtain ⟨c1, c2, -⟩ := rc ⟨r, by omega⟩
  simp only at c1 c2
  obtain ⟨a0, a1, a2, a3, a4, a5, a6, a7, a8, a9, a10, a11, rfl⟩ := list12 s h
  intro s1 s2
  by_cases h0 : r % 4 = 0
  · have e2 : s2 = swap (swap [a0, a1, a2, a3, a4, a5, a6, a7, a8, a9, a10, a11] 0 1) 2 3 := by
      simp only [s2, s1]; rw [if_neg (by rw [c2]; omega), if_pos (c1.mpr h0)]
    rw [e2]
    refine ⟨rfl, ?_⟩
    unfold Spec.Gimli.mix
    simp only [h0, if_true]
    funext i j
    fin_cases i <;> fin_cases j <;> rfl
  · by_cases h2 : r % 4 = 2
    · have e2 : s2 = swap (swap [a0, a1, a2, a3, a4, a5, a6, a7, a8, a9, a10, a11] 0 2) 1 3 := by
        simp only [s2, s1]; rw [if_pos (c2.mpr h2), if_neg (by rw [c1]; exact h0)]
      rw [e2]
      refine ⟨rfl, ?_⟩
      unfold Spec.Gimli.mix
      simp only [h0, h2, if_true, if_false]
      funext i j
      fin_cases i <;> fin_cases j <;> rfl
    · have e2 : s2 = [a0, a1, a2, a3, a4, a5, a6, a7, a8, a9, a10, a11] := by
        simp only [s2, s1]; rw [if_neg (by rw [c2]; exact h2), if_neg (by rw [c1]; exact h0)]
      rw [e2]
      refine ⟨rfl, ?_⟩
      unfold Spec.Gimli.mix
      simp only [h0, h2, if_false]
      funext i j
      fin_cases i <;> rfl

theorem round_mat (s : List W) (h : s.length = 12) (r : Nat) (hr : r ≤ 24) :
    (round s r).length = 12 ∧ mat (round s r) = Spec.Gimli.round r (mat s) := by
  obtain ⟨l1, m1⟩ := columns_mat s h
  obtain ⟨l2, m2⟩ := swaps_mat _ l1 r hr
  obtain ⟨c1, -, c3⟩ := rc ⟨r, by omega⟩
  simp only at c1 c3
  unfold round Spec.Gimli.round
  rw [← m1, ← m2]
  simp only [] at l2 ⊢
  generalize (if r &&& 3 = 2 then _ else _ : List W) = t at l2 ⊢
  obtain ⟨a0, a1, a2, a3, a4, a5, a6, a7, a8, a9, a10, a11, rfl⟩ := list12 t l2
  unfold Spec.Gimli.addConst
  by_cases h0 : r % 4 = 0
  · rw [if_pos (c1.mpr h0), c3]
    refine ⟨rfl, ?_⟩
    simp only [h0, and_true]
    funext i j
    fin_cases i <;> fin_cases j <;> rfl
  · rw [if_neg (by rw [c1]; exact h0)]
    refine ⟨rfl, ?_⟩
    simp only [h0, and_false, if_false]

theorem rounds_mat (n m : Nat) (h24 : n + m ≤ 24) (s : List W) (h : s.length = 12) :
    let t := (List.range n).foldl (fun s i => round s (n + m - i)) s
    t.length = 12 ∧ Spec.Gimli.rounds (n + m) (mat s) = Spec.Gimli.rounds m (mat t) := by
  induction n generalizing m with
  | zero => exact ⟨h, by simp⟩
  | succ n ih =>
    intro t
    have e : t = round ((List.range n).foldl (fun s i => round s (n + (m + 1) - i)) s) (m + 1) := by
      simp only [t]
      rw [List.range_succ, List.foldl_append, List.foldl_cons, List.foldl_nil, show n + 1 + m - n = m + 1 by omega]
      simp only [show n + 1 + m = n + (m + 1) by omega]
    obtain ⟨l, hm⟩ := ih (m + 1) (by omega)
    obtain ⟨l', hm'⟩ := round_mat _ l (m + 1) (by omega)
    rw [e]
    refine ⟨l', ?_⟩
    rw [show n + 1 + m = n + (m + 1) by omega, hm, hm']; rfl

theorem gimli_mat (s : List W) (h : s.length = 12) : (gimli s).length = 12 ∧ mat (gimli s) = Spec.Gimli.gimli (mat s) := by
  obtain ⟨l, m⟩ := rounds_mat 24 0 (by omega) s h
  exact ⟨l, m.symm⟩

theorem ld_eq (b : List Byte) (k : Nat) (h : 4 * k + 4 ≤ b.length) : ld b k = BitVec.ofNat 32 (leNat ((b.drop (4 * k)).take 4)) := by
  apply BitVec.eq_of_toNat_eq
  unfold ld
  rw [Fips180.toNat_app, Fips180.toNat_app, Fips180.toNat_app, BitVec.toNat_ofNat]
  have e : (b.drop (4 * k)).take 4 = [b.getD (4 * k) 0, b.getD (4 * k + 1) 0, b.getD (4 * k + 2) 0, b.getD (4 * k + 3) 0] := by
    apply List.ext_getElem
    · simp; omega
    · intro i h1 h2
      simp only [List.length_cons, List.length_nil] at h2
      have hi : i < 4 := by omega
      interval_cases i <;> simp [List.getD_eq_getElem?_getD, List.getElem?_eq_getElem, show 4 * k < b.length by omega,
        show 4 * k + 1 < b.length by omega, show 4 * k + 2 < b.length by omega, show 4 * k + 3 < b.length by omega]
  rw [e]
  simp only [leNat]
  have := (b.getD (4 * k) 0).isLt
  have := (b.getD (4 * k + 1) 0).isLt
  have := (b.getD (4 * k + 2) 0).isLt
  have := (b.getD (4 * k + 3) 0).isLt
  rw [Nat.mod_eq_of_lt (by omega)]
  omega

theorem mat_ld (b : List Byte) (h : b.length = 48) : mat ((List.range 12).map (ld b)) = Spec.Gimli.state b := by
  funext i j
  unfold mat Spec.Gimli.state
  have := i.isLt
  have := j.isLt
  rw [List.getD_eq_getElem?_getD, List.getElem?_map, List.getElem?_range (by omega)]
  simp only [Option.map_some, Option.getD_some]
  exact ld_eq b _ (by omega)

theorem st_len (w : W) : (st w).length = 4 := rfl

theorem flat_getD (L : List W) (i r : Nat) (hr : r < 4) (hi : i < L.length) : (L.flatMap st).getD (4 * i + r) 0 = (st (L.getD i 0)).getD r 0 := by
  induction L generalizing i with
  | nil => simp at hi
  | cons a L ih =>
    rw [List.flatMap_cons]
    cases i with
    | zero => rw [List.getD_append _ _ _ _ (by rw [st_len]; omega)]; simp
    | succ i =>
      rw [List.getD_append_right _ _ _ _ (by rw [st_len]; omega), st_len, show 4 * (i + 1) + r - 4 = 4 * i + r by omega,
        ih i (by simpa using hi)]
      simp

theorem ld_st (w : W) : ((st w).getD 3 0 ++ (st w).getD 2 0 ++ (st w).getD 1 0 ++ (st w).getD 0 0 : BitVec (8 + 8 + 8 + 8)) = w := by
  show (w.extractLsb' 24 8 ++ w.extractLsb' 16 8 ++ w.extractLsb' 8 8 ++ w.extractLsb' 0 8 : BitVec (8 + 8 + 8 + 8)) = w
  apply BitVec.eq_of_toNat_eq
  rw [Fips180.toNat_app, Fips180.toNat_app, Fips180.toNat_app]
  simp only [BitVec.extractLsb'_toNat, Nat.shiftRight_eq_div_pow]
  have := w.isLt
  omega

theorem ld_flat (L : List W) (i : Nat) (hi : i < L.length) : ld (L.flatMap st) i = L.getD i 0 := by
  unfold ld
  rw [flat_getD L i 3 (by omega) hi, flat_getD L i 2 (by omega) hi, flat_getD L i 1 (by omega) hi,
    show 4 * i = 4 * i + 0 by omega, flat_getD L i 0 (by omega) hi]
  exact ld_st _

theorem flat_len (L : List W) : (L.flatMap st).length = 4 * L.length := by
  induction L with
  | nil => rfl
  | cons a L ih => rw [List.flatMap_cons, List.length_append, ih, st_len, List.length_cons]; omega

theorem permute_spec (b : List Byte) (h : b.length = 48) :
    (permute b).length = 48 ∧ Spec.Gimli.state (permute b) = Spec.Gimli.gimli (Spec.Gimli.state b) := by
  obtain ⟨l, m⟩ := gimli_mat ((List.range 12).map (ld b)) (by simp)
  have hl : (permute b).length = 48 := by unfold permute; rw [flat_len, l]
  refine ⟨hl, ?_⟩
  rw [← mat_ld _ hl, ← mat_ld _ h, ← m]
  have e : (List.range 12).map (ld (permute b)) = gimli ((List.range 12).map (ld b)) := by
    unfold permute
    generalize gimli ((List.range 12).map (ld b)) = L at l
    apply List.ext_getElem
    · rw [l]; simp
    · intro i h1 h2
      rw [List.getElem_map, List.getElem_range]
      rw [ld_flat _ _ h2, List.getD_eq_getElem?_getD, List.getElem?_eq_getElem h2, Option.getD_some]
  rw [e]

/-! ### Injectivity -/

theorem sp_inj (x y z x' y' z' : W) (h2 : x ^^^ z <<< 1 ^^^ (y &&& z) <<< 2 = x' ^^^ z' <<< 1 ^^^ (y' &&& z') <<< 2)
    (h1 : y ^^^ x ^^^ (x ||| z) <<< 1 = y' ^^^ x' ^^^ (x' ||| z') <<< 1)
    (h0 : z ^^^ y ^^^ (x &&& y) <<< 3 = z' ^^^ y' ^^^ (x' &&& y') <<< 3) : x = x' ∧ y = y' ∧ z = z' := by
  have key : ∀ i, i < 32 → x.getLsbD i = x'.getLsbD i ∧ y.getLsbD i = y'.getLsbD i ∧ z.getLsbD i = z'.getLsbD i := by
    intro i
    induction i using Nat.strong_induction_on with
    | _ i ih =>
      intro hi
      have b2 := congrArg (fun v : W => v.getLsbD i) h2
      have b1 := congrArg (fun v : W => v.getLsbD i) h1
      have b0 := congrArg (fun v : W => v.getLsbD i) h0
      simp only [BitVec.getLsbD_xor, BitVec.getLsbD_shiftLeft, BitVec.getLsbD_and, BitVec.getLsbD_or, hi, decide_true, Bool.true_and] at b2 b1 b0
      have p1 : (!decide (i < 1) && z.getLsbD (i - 1)) = (!decide (i < 1) && z'.getLsbD (i - 1)) := by
        by_cases hc : i < 1
        · simp [hc]
        · rw [(ih (i - 1) (by omega) (by omega)).2.2]
      have p2 : (!decide (i < 2) && (y.getLsbD (i - 2) && z.getLsbD (i - 2))) = (!decide (i < 2) && (y'.getLsbD (i - 2) && z'.getLsbD (i - 2))) := by
        by_cases hc : i < 2
        · simp [hc]
        · obtain ⟨-, e1, e2⟩ := ih (i - 2) (by omega) (by omega)
          rw [e1, e2]
      rw [p1, p2] at b2
      have ex : x.getLsbD i = x'.getLsbD i := by
        have := b2
        generalize x.getLsbD i = a at this ⊢
        generalize x'.getLsbD i = a' at this ⊢
        generalize (!decide (i < 1) && z'.getLsbD (i - 1)) = c at this
        generalize (!decide (i < 2) && (y'.getLsbD (i - 2) && z'.getLsbD (i - 2))) = d at this
        revert this; revert a a' c d; decide
      have p3 : (!decide (i < 1) && (x.getLsbD (i - 1) || z.getLsbD (i - 1))) = (!decide (i < 1) && (x'.getLsbD (i - 1) || z'.getLsbD (i - 1))) := by
        by_cases hc : i < 1
        · simp [hc]
        · obtain ⟨e0, -, e2⟩ := ih (i - 1) (by omega) (by omega)
          rw [e0, e2]
      rw [p3, ex] at b1
      have ey : y.getLsbD i = y'.getLsbD i := by
        have := b1
        generalize y.getLsbD i = a at this ⊢
        generalize y'.getLsbD i = a' at this ⊢
        generalize (!decide (i < 1) && (x'.getLsbD (i - 1) || z'.getLsbD (i - 1))) = c at this
        generalize x'.getLsbD i = d at this
        revert this; revert a a' c d; decide
      have p4 : (!decide (i < 3) && (x.getLsbD (i - 3) && y.getLsbD (i - 3))) = (!decide (i < 3) && (x'.getLsbD (i - 3) && y'.getLsbD (i - 3))) := by
        by_cases hc : i < 3
        · simp [hc]
        · obtain ⟨e0, e1, -⟩ := ih (i - 3) (by omega) (by omega)
          rw [e0, e1]
      rw [p4, ey] at b0
      refine ⟨ex, ey, ?_⟩
      have := b0
      generalize z.getLsbD i = a at this ⊢
      generalize z'.getLsbD i = a' at this ⊢
      generalize (!decide (i < 3) && (x'.getLsbD (i - 3) && y'.getLsbD (i - 3))) = c at this
      generalize y'.getLsbD i = d at this
      revert this; revert a a' c d; decide
  exact ⟨BitVec.eq_of_getLsbD_eq fun i hi => (key i hi).1, BitVec.eq_of_getLsbD_eq fun i hi => (key i hi).2.1,
    BitVec.eq_of_getLsbD_eq fun i hi => (key i hi).2.2⟩

theorem rotl_inj (n : Nat) (h : n < 32) (x y : W) (e : x.rotateLeft n = y.rotateLeft n) : x = y := by
  apply BitVec.eq_of_getLsbD_eq
  intro i hi
  have b := congrArg (fun v : W => v.getLsbD ((i + n) % 32)) e
  simp only [BitVec.getLsbD_rotateLeft, Nat.mod_eq_of_lt h] at b
  by_cases hc : i + n < 32
  · simp only [Nat.mod_eq_of_lt hc, show ¬ i + n < n by omega, decide_false, cond_false, hc, decide_true, Bool.true_and,
      show i + n - n = i by omega] at b
    exact b
  · have e1 : (i + n) % 32 = i + n - 32 := by omega
    simp only [e1, show i + n - 32 < n by omega, decide_true, cond_true, show 32 - n + (i + n - 32) = i by omega] at b
    exact b

theorem sp_injective (s t : Spec.Gimli.State) (h : Spec.Gimli.sp s = Spec.Gimli.sp t) : s = t := by
  have key : ∀ j, s 0 j = t 0 j ∧ s 1 j = t 1 j ∧ s 2 j = t 2 j := by
    intro j
    have h0 := congrFun (congrFun h 0) j
    have h1 := congrFun (congrFun h 1) j
    have h2 := congrFun (congrFun h 2) j
    obtain ⟨e0, e1, e2⟩ := sp_inj _ _ _ _ _ _ h2 h1 h0
    exact ⟨rotl_inj 24 (by omega) _ _ e0, rotl_inj 9 (by omega) _ _ e1, e2⟩
  funext i j
  fin_cases i
  · exact (key j).1
  · exact (key j).2.1
  · exact (key j).2.2

theorem mix_injective (r : Nat) (s t : Spec.Gimli.State) (h : Spec.Gimli.mix r s = Spec.Gimli.mix r t) : s = t := by
  have a := fun i j => congrFun (congrFun h i) j
  unfold Spec.Gimli.mix at a
  funext i j
  by_cases h0 : r % 4 = 0
  · simp only [h0, if_true] at a
    fin_cases i
    · fin_cases j
      · exact a 0 1
      · exact a 0 0
      · exact a 0 3
      · exact a 0 2
    · exact a 1 j
    · exact a 2 j
  · by_cases h2 : r % 4 = 2
    · simp only [h0, h2, if_true, if_false] at a
      fin_cases i
      · fin_cases j
        · exact a 0 2
        · exact a 0 3
        · exact a 0 0
        · exact a 0 1
      · exact a 1 j
      · exact a 2 j
    · simp only [h0, h2, if_false] at a
      fin_cases i
      · exact a 0 j
      · exact a 1 j
      · exact a 2 j

theorem const_injective (r : Nat) (s t : Spec.Gimli.State) (h : Spec.Gimli.addConst r s = Spec.Gimli.addConst r t) : s = t := by
  funext i j
  have a := congrFun (congrFun h i) j
  unfold Spec.Gimli.addConst at a
  by_cases hc : i = 0 ∧ j = 0 ∧ r % 4 = 0
  · rw [if_pos hc, if_pos hc] at a
    rw [hc.1, hc.2.1]
    exact BitVec.xor_left_inj _ |>.mp a
  · rw [if_neg hc, if_neg hc] at a
    exact a

theorem gimli_injective (s t : Spec.Gimli.State) (h : Spec.Gimli.gimli s = Spec.Gimli.gimli t) : s = t := by
  have gen : ∀ n (s t : Spec.Gimli.State), Spec.Gimli.rounds n s = Spec.Gimli.rounds n t → s = t := by
    intro n
    induction n with
    | zero => intro s t h; exact h
    | succ n ih =>
      intro s t h
      exact sp_injective _ _ (mix_injective _ _ _ (const_injective _ _ _ (ih _ _ h)))
  exact gen 24 s t h

theorem state_injective (b c : List Byte) (hb : b.length = 48) (hc : c.length = 48) (h : Spec.Gimli.state b = Spec.Gimli.state c) : b = c := by
  have e : ∀ k, k < 12 → ld b k = ld c k := by
    intro k hk
    have a := congrFun (congrFun h ⟨k / 4, by omega⟩) ⟨k % 4, by omega⟩
    unfold Spec.Gimli.state at a
    simp only [show 4 * (k / 4) + k % 4 = k by omega] at a
    rw [ld_eq b k (by omega), ld_eq c k (by omega)]; exact a
  apply List.ext_getElem (by omega)
  intro i h1 h2
  have a := e (i / 4) (by omega)
  have p : ∀ d : List Byte, ∀ k r, r < 4 → d.getD (4 * k + r) 0 = (ld d k).extractLsb' (8 * r) 8 := by
    intro d k r hr
    apply BitVec.eq_of_toNat_eq
    unfold ld
    rw [BitVec.extractLsb'_toNat, Fips180.toNat_app, Fips180.toNat_app, Fips180.toNat_app, Nat.shiftRight_eq_div_pow]
    have := (d.getD (4 * k) 0).isLt
    have := (d.getD (4 * k + 1) 0).isLt
    have := (d.getD (4 * k + 2) 0).isLt
    have := (d.getD (4 * k + 3) 0).isLt
    interval_cases r <;> (try simp only [Nat.add_zero]) <;> omega
  have q1 := p b (i / 4) (i % 4) (by omega)
  have q2 := p c (i / 4) (i % 4) (by omega)
  rw [show 4 * (i / 4) + i % 4 = i by omega] at q1 q2
  rw [a, ← q2, List.getD_eq_getElem?_getD, List.getD_eq_getElem?_getD, List.getElem?_eq_getElem h1, List.getElem?_eq_getElem h2] at q1
  simpa using q1

end Gimli
