import Verif.Model.Sm4
import Verif.Spec.Sm4
import Verif.Lemmas.Sbox
import Verif.Lemmas.Endian

namespace Sm4
open Spec Sbox Endian


/-! ### The S-box. -/

theorem entry_all : ∀ i : Fin 256,
    lane 0 (entry i).1 = sm4Sbox (BitVec.ofNat 8 i) ∧ lane 1 (entry i).1 = sm4Sbox (BitVec.ofNat 8 i) ∧
    lane 2 (entry i).1 = sm4Sbox (BitVec.ofNat 8 i) ∧ lane 3 (entry i).1 = sm4Sbox (BitVec.ofNat 8 i) ∧
    lane 0 (entry i).2 = BitVec.ofNat 8 i ∧ lane 1 (entry i).2 = BitVec.ofNat 8 i ∧
    lane 2 (entry i).2 = BitVec.ofNat 8 i ∧ lane 3 (entry i).2 = BitVec.ofNat 8 i := by decide +kernel

theorem entry_lanes (k : Nat) (hk : k < 4) (i : Nat) (hi : i < 256) :
    lane k (entry i).1 = sm4Sbox (BitVec.ofNat 8 i) ∧ lane k (entry i).2 = BitVec.ofNat 8 i := by
  obtain ⟨h0, h1, h2, h3, g0, g1, g2, g3⟩ := entry_all ⟨i, hi⟩
  interval_cases k
  · exact ⟨h0, g0⟩
  · exact ⟨h1, g1⟩
  · exact ⟨h2, g2⟩
  · exact ⟨h3, g3⟩

theorem tau_lane (w : W) (k : Nat) (hk : k < 4) : lane k (tau w) = sm4Sbox (lane k w) := by
  unfold tau table
  rw [wsbox_widen, scan_lane (fun i => (entry i).1) (fun i => (entry i).2) w k hk _ (lane k w).toNat (List.mem_range.mpr (lane k w).isLt)]
  · rw [(entry_lanes k hk _ (lane k w).isLt).1]
    simp
  · intro i hi
    have hi := List.mem_range.mp hi
    rw [(entry_lanes k hk i hi).2]
    constructor
    · intro h; rw [← h, BitVec.toNat_ofNat]; omega
    · intro h; rw [h]; simp

theorem lane_join (a b c d : BitVec 8) :
    lane 3 (a ++ b ++ c ++ d : BitVec (8 + 8 + 8 + 8)) = a ∧ lane 2 (a ++ b ++ c ++ d : BitVec (8 + 8 + 8 + 8)) = b ∧
    lane 1 (a ++ b ++ c ++ d : BitVec (8 + 8 + 8 + 8)) = c ∧ lane 0 (a ++ b ++ c ++ d : BitVec (8 + 8 + 8 + 8)) = d := by
  have := join32 a b c d
  unfold st32 at this
  simp only [List.cons.injEq, and_true] at this
  exact this

theorem tau_spec (w : W) : tau w = sm4Tau w := by
  apply word_ext
  intro k hk
  rw [tau_lane w k hk]
  have h := lane_join (sm4Sbox (lane 3 w)) (sm4Sbox (lane 2 w)) (sm4Sbox (lane 1 w)) (sm4Sbox (lane 0 w))
  unfold sm4Tau
  interval_cases k
  · exact h.2.2.2.symm
  · exact h.2.2.1.symm
  · exact h.2.1.symm
  · exact h.1.symm

theorem rotl (w : W) (n : Nat) (h : 0 < n) (hn : n < 32) : w <<< n ||| w >>> (32 - n) = w.rotateLeft n := by
  rw [BitVec.rotateLeft_def, Nat.mod_eq_of_lt hn]

theorem t0_spec (w : W) : t0 w = sm4T w := by
  unfold t0 lin0 sm4T
  rw [tau_spec]
  simp only [← rotl _ 2 (by omega) (by omega), ← rotl _ 10 (by omega) (by omega), ← rotl _ 18 (by omega) (by omega), ← rotl _ 24 (by omega) (by omega)]

theorem t1_spec (w : W) : t1 w = sm4T' w := by
  unfold t1 lin1 sm4T'
  rw [tau_spec]
  simp only [← rotl _ 13 (by omega) (by omega), ← rotl _ 23 (by omega) (by omega)]

/-! ### The recurrence. -/

theorem seq_lt (T : W → W) (c x : Nat → W) (n : Nat) (h : n < 4) : sm4Seq T c x n = x n := by
  rw [sm4Seq, dif_pos h]

theorem seq_step (T : W → W) (c x : Nat → W) (n : Nat) :
    sm4Seq T c x (n + 4) = sm4Seq T c x n ^^^ T (sm4Seq T c x (n + 1) ^^^ sm4Seq T c x (n + 2) ^^^ sm4Seq T c x (n + 3) ^^^ c n) := by
  rw [sm4Seq.eq_def T c x (n + 4), dif_neg (by omega)]
  rfl

/-- A four-word window over a recurrence. -/
theorem window (upd : Nat → List W → W) (T : W → W) (c x : Nat → W)
    (hu : ∀ i X, upd i X = X.getD (i % 4) 0 ^^^ T (X.getD ((i + 1) % 4) 0 ^^^ X.getD ((i + 2) % 4) 0 ^^^ X.getD ((i + 3) % 4) 0 ^^^ c i))
    (X : List W) (hX : X = [x 0, x 1, x 2, x 3]) (n : Nat) :
    ((List.range n).foldl (fun X i => X.set (i % 4) (upd i X)) X).length = 4 ∧
    ∀ t, t < 4 → ((List.range n).foldl (fun X i => X.set (i % 4) (upd i X)) X).getD ((n + t) % 4) 0 = sm4Seq T c x (n + t) := by
  induction n with
  | zero =>
    subst hX
    refine ⟨rfl, ?_⟩
    intro t ht
    rw [seq_lt _ _ _ _ (by omega)]
    interval_cases t <;> rfl
  | succ n ih =>
    rw [List.range_succ, List.foldl_append, List.foldl_cons, List.foldl_nil]
    obtain ⟨Y, hY⟩ : ∃ Y, Y = (List.range n).foldl (fun X i => X.set (i % 4) (upd i X)) X := ⟨_, rfl⟩
    rw [← hY] at ih ⊢
    obtain ⟨hl, hv⟩ := ih
    refine ⟨by simpa using hl, ?_⟩
    intro t ht
    by_cases h3 : t = 3
    · subst h3
      rw [show n + 1 + 3 = n + 4 by omega, show (n + 4) % 4 = n % 4 by omega, seq_step]
      rw [List.getD_eq_getElem?_getD, List.getElem?_set_self (by omega), Option.getD_some, hu, ← (show _ = sm4Seq T c x n from hv 0 (by omega)), ← hv 1 (by omega), ← hv 2 (by omega), ← hv 3 (by omega)]
      rfl
    · rw [show n + 1 + t = n + (t + 1) by omega, ← hv (t + 1) (by omega), List.getD_eq_getElem?_getD, List.getElem?_set_ne (by omega), ← List.getD_eq_getElem?_getD]

theorem loop_spec (rk : List W) (rev : Bool) (x : Nat → W) (j : Nat) (hj : j < 4) :
    (loop rk rev [x 0, x 1, x 2, x 3] 32).getD j 0 = sm4Seq sm4T (fun i => rk.getD (if rev then 31 - i else i) 0) x (32 + j) := by
  have h := window (fun i X => rndF (X.getD ((i + 0) % 4) 0) (X.getD ((i + 1) % 4) 0) (X.getD ((i + 2) % 4) 0) (X.getD ((i + 3) % 4) 0)
      (rk.getD (if rev then 31 - i else i) 0)) sm4T (fun i => rk.getD (if rev then 31 - i else i) 0) x (by
    intro i X
    simp only [rndF, t0_spec, Nat.add_zero]) _ rfl 32
  have := h.2 j hj
  rw [show (32 + j) % 4 = j by omega] at this
  exact this

theorem feistel_spec (inp : List Byte) (rk : List W) (rev : Bool) (x : Nat → W) (h0 : x 0 = ld32 inp 0) (h1 : x 1 = ld32 inp 1) (h2 : x 2 = ld32 inp 2)
    (h3 : x 3 = ld32 inp 3) : feistel inp rk rev =
      let X := sm4Seq sm4T (fun i => rk.getD (if rev then 31 - i else i) 0) x
      st32 (X 35) ++ st32 (X 34) ++ st32 (X 33) ++ st32 (X 32) := by
  unfold feistel
  simp only []
  rw [← h0, ← h1, ← h2, ← h3, loop_spec _ _ _ 0 (by omega), loop_spec _ _ _ 1 (by omega), loop_spec _ _ _ 2 (by omega), loop_spec _ _ _ 3 (by omega)]

/-- Reading the sequence backwards satisfies the same recurrence with the constants reversed. -/
theorem seq_rev (T : W → W) (c d x y : Nat → W) (hc : ∀ i, i < 32 → d i = c (31 - i)) (hy : ∀ j, j < 4 → y j = sm4Seq T c x (35 - j)) :
    ∀ n, n < 36 → sm4Seq T d y n = sm4Seq T c x (35 - n) := by
  intro n
  induction n using Nat.strong_induction_on with
  | _ n ih =>
    intro hn
    by_cases h4 : n < 4
    · rw [seq_lt _ _ _ _ h4, hy n h4]
    · obtain ⟨m, rfl⟩ : ∃ m, n = m + 4 := ⟨n - 4, by omega⟩
      rw [seq_step, ih m (by omega) (by omega), ih (m + 1) (by omega) (by omega), ih (m + 2) (by omega) (by omega), ih (m + 3) (by omega) (by omega), hc m (by omega)]
      obtain ⟨q, hq⟩ : ∃ q, q = 31 - m := ⟨_, rfl⟩
      rw [show 35 - m = q + 4 by omega, show 35 - (m + 1) = q + 3 by omega, show 35 - (m + 2) = q + 2 by omega, show 35 - (m + 3) = q + 1 by omega,
        show 35 - (m + 4) = q by omega, ← hq, seq_step]
      have : sm4Seq T c x (q + 1) ^^^ sm4Seq T c x (q + 2) ^^^ sm4Seq T c x (q + 3) = sm4Seq T c x (q + 3) ^^^ sm4Seq T c x (q + 2) ^^^ sm4Seq T c x (q + 1) := by ac_rfl
      rw [this, BitVec.xor_assoc, BitVec.xor_self, BitVec.xor_zero]

theorem dec_enc (inp : List Byte) (rk : List W) (h : inp.length = 16) : decrypt (encrypt inp rk) rk = inp := by
  unfold decrypt encrypt
  rw [feistel_spec inp rk false (ld32 inp) rfl rfl rfl rfl]
  simp only []
  obtain ⟨X, hX⟩ : ∃ X, X = sm4Seq sm4T (fun i => rk.getD (if false = true then 31 - i else i) 0) (ld32 inp) := ⟨_, rfl⟩
  rw [← hX]
  have hl := ld32_st32 (X 35) (X 34) (X 33) (X 32)
  rw [feistel_spec _ rk true (fun j => X (35 - j)) hl.1.symm hl.2.1.symm hl.2.2.1.symm hl.2.2.2.symm]
  simp only []
  have hr := seq_rev sm4T (fun i => rk.getD (if false = true then 31 - i else i) 0) (fun i => rk.getD (if true = true then 31 - i else i) 0) (ld32 inp)
    (fun j => X (35 - j)) (by intro i hi; simp) (by intro j hj; simp only [hX])
  simp only [if_true] at hr ⊢
  rw [hr 35 (by omega), hr 34 (by omega), hr 33 (by omega), hr 32 (by omega), seq_lt _ _ _ _ (by omega), seq_lt _ _ _ _ (by omega), seq_lt _ _ _ _ (by omega), seq_lt _ _ _ _ (by omega)]
  exact st32_ld32 inp h

/-! ### The standard. -/

theorem append32 (a b c d : BitVec 8) : (a ++ b ++ c ++ d : BitVec (8 + 8 + 8 + 8)) = BitVec.ofNat 32 (beNat [a, b, c, d]) := by
  apply BitVec.eq_of_toNat_eq
  have ha := a.isLt
  have hb := b.isLt
  have hc := c.isLt
  have hd := d.isLt
  rw [BitVec.toNat_append, BitVec.toNat_append, BitVec.toNat_append, BitVec.toNat_ofNat]
  simp only [beNat, leNat, List.reverse_cons, List.reverse_nil, List.nil_append, List.cons_append]
  rw [← Nat.shiftLeft_add_eq_or_of_lt hd, ← Nat.shiftLeft_add_eq_or_of_lt hc, ← Nat.shiftLeft_add_eq_or_of_lt hb]
  simp only [Nat.shiftLeft_eq]
  omega

theorem ld32_spec (b : List Byte) (h : b.length = 16) (i : Nat) (hi : i < 4) : ld32 b i = beWord b i := by
  obtain ⟨a0, a1, a2, a3, a4, a5, a6, a7, a8, a9, a10, a11, a12, a13, a14, a15, rfl⟩ := list16 b h
  interval_cases i
  · exact append32 a0 a1 a2 a3
  · exact append32 a4 a5 a6 a7
  · exact append32 a8 a9 a10 a11
  · exact append32 a12 a13 a14 a15

theorem seq_congr (T : W → W) (c d x y : Nat → W) (m : Nat) (hc : ∀ i, i < m → c i = d i) (hx : ∀ j, j < 4 → x j = y j) :
    ∀ n, n < m + 4 → sm4Seq T c x n = sm4Seq T d y n := by
  intro n
  induction n using Nat.strong_induction_on with
  | _ n ih =>
    intro hn
    by_cases h4 : n < 4
    · rw [seq_lt _ _ _ _ h4, seq_lt _ _ _ _ h4, hx n h4]
    · obtain ⟨p, rfl⟩ : ∃ p, n = p + 4 := ⟨n - 4, by omega⟩
      rw [seq_step, seq_step, ih p (by omega) (by omega), ih (p + 1) (by omega) (by omega), ih (p + 2) (by omega) (by omega), ih (p + 3) (by omega) (by omega), hc p (by omega)]

theorem ck_spec : ∀ i : Fin 32, CK.getD i 0 = sm4CK i := by decide +kernel

theorem ks_window (x : Nat → W) (n : Nat) :
    (ksLoop [x 0, x 1, x 2, x 3] n).1 = (List.range n).foldl (fun X i => X.set (i % 4) (X.getD (i % 4) 0 ^^^ t1 (X.getD ((i + 1) % 4) 0 ^^^ X.getD ((i + 2) % 4) 0 ^^^ X.getD ((i + 3) % 4) 0 ^^^ CK.getD i 0))) [x 0, x 1, x 2, x 3] ∧
    (ksLoop [x 0, x 1, x 2, x 3] n).2 = (List.range n).map fun i => sm4Seq sm4T' (fun i => CK.getD i 0) x (i + 4) := by
  induction n with
  | zero => exact ⟨rfl, rfl⟩
  | succ n ih =>
    obtain ⟨ih1, ih2⟩ := ih
    have hs : ksLoop [x 0, x 1, x 2, x 3] (n + 1) =
        (let s := ksLoop [x 0, x 1, x 2, x 3] n
         let k := s.1.getD (n % 4) 0 ^^^ t1 (s.1.getD ((n + 1) % 4) 0 ^^^ s.1.getD ((n + 2) % 4) 0 ^^^ s.1.getD ((n + 3) % 4) 0 ^^^ CK.getD n 0)
         (s.1.set (n % 4) k, s.2 ++ [k])) := by
      unfold ksLoop
      rw [List.range_succ, List.foldl_append]
      rfl
    have w := (window (fun i X => X.getD (i % 4) 0 ^^^ t1 (X.getD ((i + 1) % 4) 0 ^^^ X.getD ((i + 2) % 4) 0 ^^^ X.getD ((i + 3) % 4) 0 ^^^ CK.getD i 0))
      sm4T' (fun i => CK.getD i 0) x (by intro i X; rw [t1_spec]) _ rfl n).2
    constructor
    · rw [hs, List.range_succ, List.foldl_append, ← ih1]
      rfl
    · rw [hs, List.range_succ, List.map_append, ← ih2]
      simp only [List.map_cons, List.map_nil]
      rw [seq_step, ← (show _ = sm4Seq sm4T' (fun i => CK.getD i 0) x n from w 0 (by omega)), ← w 1 (by omega), ← w 2 (by omega), ← w 3 (by omega), ← ih1, t1_spec]
      rfl

theorem keySched_spec (key : List Byte) (h : key.length = 16) (i : Nat) (hi : i < 32) : (keySched key).getD i 0 = sm4RoundKey key i := by
  unfold keySched
  have := (ks_window (fun j => ld32 key j ^^^ FK.getD j 0) 32).2
  rw [this, List.getD_eq_getElem?_getD, List.getElem?_map, List.getElem?_range hi]
  show sm4Seq _ _ _ _ = _
  unfold sm4RoundKey
  apply seq_congr _ _ _ _ _ 32 _ _ _ (by omega)
  · intro j hj
    exact ck_spec ⟨j, hj⟩
  · intro j hj
    rw [ld32_spec key h j hj]
    interval_cases j <;> rfl

theorem with_spec (inp : List Byte) (rk : List W) (rev : Bool) (c : Nat → W) (h : inp.length = 16) (hc : ∀ i, i < 32 → rk.getD (if rev then 31 - i else i) 0 = c i) :
    feistel inp rk rev = sm4With c inp := by
  rw [feistel_spec inp rk rev (ld32 inp) rfl rfl rfl rfl]
  unfold sm4With
  have e := seq_congr sm4T _ c (ld32 inp) (beWord inp) 32 hc (fun j hj => ld32_spec inp h j hj)
  simp only [e 35 (by omega), e 34 (by omega), e 33 (by omega), e 32 (by omega)]
  rfl

end Sm4
