import Verif.Lemmas.Seed
import Verif.Lemmas.CamelliaSpec

/-!
# `seed.c` computes the functions of RFC 4269
-/
namespace Seed
open Sbox (W widen wsbox wsbox_widen scan_lane word_ext lane_or lane_and lane_xor)
open Endian
open Spec (lane)

theorem entry_all : ∀ i : Fin 256,
    lane 3 (entry i).1 = s2Table.getD i 0 ∧ lane 2 (entry i).1 = s1Table.getD i 0 ∧
    lane 1 (entry i).1 = s2Table.getD i 0 ∧ lane 0 (entry i).1 = s1Table.getD i 0 ∧
    lane 3 (entry i).2 = BitVec.ofNat 8 i ∧ lane 2 (entry i).2 = BitVec.ofNat 8 i ∧ lane 1 (entry i).2 = BitVec.ofNat 8 i ∧
    lane 0 (entry i).2 = BitVec.ofNat 8 i := by
  decide +kernel

theorem s1_tab (x : BitVec 8) : s1Table.getD x.toNat 0 = Spec.Seed.s1 x := by
  have := NatSbox.seed_s1 ⟨x.toNat, x.isLt⟩
  simpa using this.symm
theorem s2_tab (x : BitVec 8) : s2Table.getD x.toNat 0 = Spec.Seed.s2 x := by
  have := NatSbox.seed_s2 ⟨x.toNat, x.isLt⟩
  simpa using this.symm

theorem lanes (w : W) : lane 3 (wsbox w table) = Spec.Seed.s2 (lane 3 w) ∧ lane 2 (wsbox w table) = Spec.Seed.s1 (lane 2 w) ∧
    lane 1 (wsbox w table) = Spec.Seed.s2 (lane 1 w) ∧ lane 0 (wsbox w table) = Spec.Seed.s1 (lane 0 w) := by
  have g : ∀ j, j < 4 → (∀ i : Fin 256, lane j (entry i).2 = BitVec.ofNat 8 i) →
      lane j (wsbox w table) = lane j (entry (lane j w).toNat).1 := by
    intro j hj h
    unfold table
    rw [wsbox_widen, scan_lane (fun i => (entry i).1) (fun i => (entry i).2) w j hj _ (lane j w).toNat (List.mem_range.mpr (lane j w).isLt)]
    intro i hi
    have hi := List.mem_range.mp hi
    rw [h ⟨i, hi⟩]
    exact Camellia.idx_iff _ i hi
  have e := entry_all
  refine ⟨?_, ?_, ?_, ?_⟩
  · rw [g 3 (by decide) fun i => (e i).2.2.2.2.1, (e ⟨_, (lane 3 w).isLt⟩).1, s2_tab]
  · rw [g 2 (by decide) fun i => (e i).2.2.2.2.2.1, (e ⟨_, (lane 2 w).isLt⟩).2.1, s1_tab]
  · rw [g 1 (by decide) fun i => (e i).2.2.2.2.2.2.1, (e ⟨_, (lane 1 w).isLt⟩).2.2.1, s2_tab]
  · rw [g 0 (by decide) fun i => (e i).2.2.2.2.2.2.2, (e ⟨_, (lane 0 w).isLt⟩).2.2.2.1, s1_tab]

theorem rot1 (w : W) : ∀ j, j < 4 → lane j (w >>> 8 ||| w <<< 24) = lane ((j + 1) % 4) w := by
  intro j hj; rw [BitVec.or_comm]; exact Camellia.lane_rotl24 w j hj
theorem rot3 (w : W) : ∀ j, j < 4 → lane j (w >>> 24 ||| w <<< 8) = lane ((j + 3) % 4) w := Camellia.lane_rotl8 w
theorem rot2 (w : W) : ∀ j, j < 4 → lane j (w >>> 16 ||| w <<< 16) = lane ((j + 2) % 4) w := by
  intro j hj
  apply BitVec.eq_of_getLsbD_eq; intro i hi; unfold lane
  interval_cases j <;> interval_cases i <;> simp [BitVec.getLsbD_extractLsb']

theorem G_spec : G = Spec.Seed.G := by
  funext x
  obtain ⟨l3, l2, l1, l0⟩ := lanes x
  unfold G Spec.Seed.G
  simp only []
  obtain ⟨r3, r2, r1, r0⟩ := Sm4.lane_join ((wsbox x table).extractLsb' 0 8) ((wsbox x table).extractLsb' 8 8)
    ((wsbox x table).extractLsb' 16 8) ((wsbox x table).extractLsb' 24 8)
  generalize hX : ((wsbox x table).extractLsb' 0 8 ++ (wsbox x table).extractLsb' 8 8 ++ (wsbox x table).extractLsb' 16 8 ++
    (wsbox x table).extractLsb' 24 8 : BitVec (8 + 8 + 8 + 8)) = X at r3 r2 r1 r0
  replace r3 : lane 3 X = Spec.Seed.s1 (lane 0 x) := r3.trans l0
  replace r2 : lane 2 X = Spec.Seed.s2 (lane 1 x) := r2.trans l1
  replace r1 : lane 1 X = Spec.Seed.s1 (lane 2 x) := r1.trans l2
  replace r0 : lane 0 X = Spec.Seed.s2 (lane 3 x) := r0.trans l3
  obtain ⟨q3, q2, q1, q0⟩ := Sm4.lane_join
    ((Spec.Seed.s1 (lane 0 x) &&& 0x3f#8) ^^^ (Spec.Seed.s2 (lane 1 x) &&& 0xfc#8) ^^^ (Spec.Seed.s1 (lane 2 x) &&& 0xf3#8) ^^^ (Spec.Seed.s2 (lane 3 x) &&& 0xcf#8))
    ((Spec.Seed.s1 (lane 0 x) &&& 0xcf#8) ^^^ (Spec.Seed.s2 (lane 1 x) &&& 0x3f#8) ^^^ (Spec.Seed.s1 (lane 2 x) &&& 0xfc#8) ^^^ (Spec.Seed.s2 (lane 3 x) &&& 0xf3#8))
    ((Spec.Seed.s1 (lane 0 x) &&& 0xf3#8) ^^^ (Spec.Seed.s2 (lane 1 x) &&& 0xcf#8) ^^^ (Spec.Seed.s1 (lane 2 x) &&& 0x3f#8) ^^^ (Spec.Seed.s2 (lane 3 x) &&& 0xfc#8))
    ((Spec.Seed.s1 (lane 0 x) &&& 0xfc#8) ^^^ (Spec.Seed.s2 (lane 1 x) &&& 0xf3#8) ^^^ (Spec.Seed.s1 (lane 2 x) &&& 0xcf#8) ^^^ (Spec.Seed.s2 (lane 3 x) &&& 0x3f#8))
  have c1 : ∀ j, j < 4 → lane j 0x3F3F3F3F#32 = 0x3f#8 := by intro j hj; interval_cases j <;> decide
  have c2 : ∀ j, j < 4 → lane j 0xCFCFCFCF#32 = 0xcf#8 := by intro j hj; interval_cases j <;> decide
  have c3 : ∀ j, j < 4 → lane j 0xF3F3F3F3#32 = 0xf3#8 := by intro j hj; interval_cases j <;> decide
  have c4 : ∀ j, j < 4 → lane j 0xFCFCFCFC#32 = 0xfc#8 := by intro j hj; interval_cases j <;> decide
  rw [BitVec.zero_xor]
  apply word_ext
  intro k hk
  rw [lane_xor, lane_xor, lane_xor, lane_and, lane_and, lane_and, lane_and, rot1 _ _ hk, rot2 _ _ hk, rot3 _ _ hk, c1 k hk, c2 k hk, c3 k hk, c4 k hk]
  interval_cases k
  · refine Eq.trans ?_ q0.symm
    simp only [Nat.reduceAdd, Nat.reduceMod, r0, r1, r2, r3]
    ac_rfl
  · refine Eq.trans ?_ q1.symm
    simp only [Nat.reduceAdd, Nat.reduceMod, r0, r1, r2, r3]
    ac_rfl
  · refine Eq.trans ?_ q2.symm
    simp only [Nat.reduceAdd, Nat.reduceMod, r0, r1, r2, r3]
    ac_rfl
  · refine Eq.trans ?_ q3.symm
    simp only [Nat.reduceAdd, Nat.reduceMod, r0, r1, r2, r3]
    ac_rfl

/-- The halves of a 64-bit word. -/
def sp (x : D) : W × W := (x.extractLsb' 32 32, x.extractLsb' 0 32)

theorem sp_xor (x y : D) : sp (x ^^^ y) = ((sp x).1 ^^^ (sp y).1, (sp x).2 ^^^ (sp y).2) := by
  unfold sp
  congr 1 <;> · apply BitVec.eq_of_getLsbD_eq; intro i hi; simp [hi]

theorem sp_mk (a b : W) : sp ((a.setWidth 64 <<< 32) ||| b.setWidth 64) = (a, b) := by
  rw [Camellia.mk_app]; unfold sp; rw [hi64, lo64]

theorem F_spec (k x : D) : sp (func_F k x) = Spec.Seed.F (sp k) (sp x) := by
  unfold func_F Spec.Seed.F
  simp only []
  rw [sp_mk]
  unfold sp
  simp only [Camellia.hi32]
  simp only [Camellia.lo32]
  rw [G_spec]

theorem loop_spec (K : List D) (n : Nat) (s : D × D) :
    Spec.Seed.feistel (fun i => sp (K.getD i 0)) n (sp s.1, sp s.2) = (sp (encLoop K n s).1, sp (encLoop K n s).2) := by
  induction n with
  | zero => rfl
  | succ n ih =>
    rw [encLoop_succ]
    unfold Spec.Seed.feistel at ih ⊢
    rw [List.range_succ, List.foldl_append, ih]
    simp only [List.foldl_cons, List.foldl_nil]
    rw [sp_xor, F_spec]

theorem feistel_succ (k : Nat → W × W) (n : Nat) (s : (W × W) × (W × W)) :
    Spec.Seed.feistel k (n + 1) s = Spec.Seed.feistel (fun i => k (i + 1)) n
      (s.2, (s.1.1 ^^^ (Spec.Seed.F (k 0) s.2).1, s.1.2 ^^^ (Spec.Seed.F (k 0) s.2).2)) := by
  unfold Spec.Seed.feistel
  rw [List.range_succ_eq_map, List.foldl_cons, List.foldl_map]

theorem dloop_spec (K : List D) (n : Nat) (A B : D) :
    Spec.Seed.feistel (fun i => sp (K.getD (n - 1 - i) 0)) n (sp B, sp A) = (sp (decLoop K n (A, B)).2, sp (decLoop K n (A, B)).1) := by
  induction n generalizing A B with
  | zero => rfl
  | succ n ih =>
    rw [feistel_succ]
    simp only []
    rw [show n + 1 - 1 - 0 = n by omega, ← F_spec]
    have e := sp_xor B (func_F (K.getD n 0) A)
    rw [← e]
    rw [show (fun i => sp (K.getD (n + 1 - 1 - (i + 1)) 0)) = (fun i => sp (K.getD (n - 1 - i) 0)) from
      funext fun i => by rw [show n + 1 - 1 - (i + 1) = n - 1 - i by omega], ih]
    rfl

/-! ### Key schedule -/

theorem KC_spec : ∀ i : Fin 16, KC.getD i 0 = Spec.Seed.KC i := by decide

theorem rotr_pair (a b : W) : (a ++ b : BitVec (32 + 32)).rotateRight 8 =
    ((a >>> 8 ||| b <<< 24) ++ (b >>> 8 ||| a <<< 24) : BitVec (32 + 32)) := by
  apply BitVec.eq_of_getLsbD_eq; intro i hi
  rw [BitVec.getLsbD_rotateRight, BitVec.getLsbD_append, BitVec.getLsbD_append, BitVec.getLsbD_append, BitVec.getLsbD_or, BitVec.getLsbD_or,
    BitVec.getLsbD_ushiftRight, BitVec.getLsbD_ushiftRight, BitVec.getLsbD_shiftLeft, BitVec.getLsbD_shiftLeft]
  rw [show 8 % (32 + 32) = 8 by decide, show 32 + 32 - 8 = 56 by decide]
  have z : ∀ (x : W) j, 32 ≤ j → x.getLsbD j = false := fun x j h => BitVec.getLsbD_of_ge x j h
  by_cases h1 : i < 24
  · simp [h1, show i < 56 by omega, show 8 + i < 32 by omega, show i < 32 by omega]
  · by_cases h2 : i < 32
    · simp [h1, h2, show i < 56 by omega, show ¬ 8 + i < 32 by omega, z b (8 + i) (by omega), show 8 + i - 32 = i - 24 by omega]
    · by_cases h3 : i < 56
      · simp [h2, h3, show i - 32 < 32 by omega, show i - 32 < 24 by omega, show ¬ 8 + i < 32 by omega, show 8 + i - 32 = 8 + (i - 32) by omega]
      · simp [h2, h3, show i < 64 from hi, show i - 32 < 32 by omega, show ¬ i - 32 < 24 by omega, z a (8 + (i - 32)) (by omega), show i - 56 < 32 by omega,
          show i - 32 - 24 = i - 56 by omega]

theorem rotl_pair (a b : W) : (a ++ b : BitVec (32 + 32)).rotateLeft 8 =
    ((a <<< 8 ||| b >>> 24) ++ (b <<< 8 ||| a >>> 24) : BitVec (32 + 32)) := by
  apply BitVec.eq_of_getLsbD_eq; intro i hi
  rw [BitVec.getLsbD_rotateLeft, BitVec.getLsbD_append, BitVec.getLsbD_append, BitVec.getLsbD_append, BitVec.getLsbD_or, BitVec.getLsbD_or,
    BitVec.getLsbD_ushiftRight, BitVec.getLsbD_ushiftRight, BitVec.getLsbD_shiftLeft, BitVec.getLsbD_shiftLeft]
  rw [show 8 % (32 + 32) = 8 by decide, show 32 + 32 - 8 = 56 by decide]
  have z : ∀ (x : W) j, 32 ≤ j → x.getLsbD j = false := fun x j h => BitVec.getLsbD_of_ge x j h
  by_cases h1 : i < 8
  · simp [h1, show i < 32 by omega, show ¬ 56 + i < 32 by omega, show 56 + i - 32 = 24 + i by omega]
  · by_cases h2 : i < 32
    · simp [h1, h2, show i < 64 by omega, show i - 8 < 32 by omega, z a (24 + i) (by omega)]
    · by_cases h3 : i < 40
      · simp [h1, h2, show i < 64 from hi, show i - 32 < 32 by omega, show i - 32 < 8 by omega, show i - 8 < 32 by omega, show 24 + (i - 32) = i - 8 by omega]
      · simp [h1, h2, show i < 64 from hi, show i - 32 < 32 by omega, show ¬ i - 32 < 8 by omega, show ¬ i - 8 < 32 by omega, z b (24 + (i - 32)) (by omega),
          show i - 32 - 8 = i - 8 - 32 by omega]

theorem sched_spec (k0 k1 k2 k3 : W) (n : Nat) (hn : n ≤ 16) :
    let s := (List.range n).foldl ksStep ((k0, k1, k2, k3), [])
    ((s.1.1 ++ s.1.2.1 : BitVec (32 + 32)), (s.1.2.2.1 ++ s.1.2.2.2 : BitVec (32 + 32))) =
      Spec.Seed.keys (k0 ++ k1 : BitVec (32 + 32)) (k2 ++ k3 : BitVec (32 + 32)) n ∧ s.2.length = n ∧
    ∀ i, i < n → sp (s.2.getD i 0) = Spec.Seed.roundKey (k0 ++ k1 : BitVec (32 + 32)) (k2 ++ k3 : BitVec (32 + 32)) i := by
  induction n with
  | zero => exact ⟨rfl, rfl, fun i hi => absurd hi (by omega)⟩
  | succ n ih =>
    obtain ⟨h1, h2, h3⟩ := ih (by omega)
    intro s
    have hs : s = ksStep ((List.range n).foldl ksStep ((k0, k1, k2, k3), [])) n := by
      show (List.range (n + 1)).foldl ksStep _ = _
      rw [List.range_succ, List.foldl_append]; rfl
    generalize (List.range n).foldl ksStep ((k0, k1, k2, k3), []) = t at h1 h2 h3 hs
    obtain ⟨⟨a, b, c, d⟩, K⟩ := t
    simp only at h1 h2 h3
    have hK : Spec.Seed.roundKey (k0 ++ k1 : BitVec (32 + 32)) (k2 ++ k3 : BitVec (32 + 32)) n =
        (G (a + c - KC.getD n 0), G (b - d + KC.getD n 0)) := by
      unfold Spec.Seed.roundKey
      rw [← h1]
      simp only []
      rw [hi64, lo64, hi64, lo64, ← KC_spec ⟨n, by omega⟩, G_spec]
    have hl : ∀ x, (K ++ [x]).length = n + 1 := fun x => by rw [List.length_append, h2]; rfl
    have hg : ∀ i, i < n + 1 → sp ((K ++ [((G (a + c - KC.getD n 0)).setWidth 64 <<< 32) ||| (G (b - d + KC.getD n 0)).setWidth 64]).getD i 0) =
        Spec.Seed.roundKey (k0 ++ k1 : BitVec (32 + 32)) (k2 ++ k3 : BitVec (32 + 32)) i := by
      intro i hi
      by_cases hin : i < n
      · rw [List.getD_eq_getElem?_getD, List.getElem?_append_left (by omega), ← List.getD_eq_getElem?_getD, h3 i hin]
      · have : i = n := by omega
        subst this
        rw [List.getD_eq_getElem?_getD, List.getElem?_append_right (by omega), h2, Nat.sub_self, hK, ← sp_mk]
        rfl
    unfold ksStep at hs
    simp only at hs
    unfold Spec.Seed.keys
    rw [← h1]
    simp only []
    by_cases hp : n % 2 = 1
    · rw [if_pos hp] at hs
      rw [if_neg (by omega), hs]
      exact ⟨by rw [rotl_pair], hl _, hg⟩
    · rw [if_neg hp] at hs
      rw [if_pos (by omega), hs]
      exact ⟨by rw [rotr_pair], hl _, hg⟩

/-! ### Octets -/

theorem word_spec (b : List Byte) (h : b.length = 16) :
    ld32 b 0 = Spec.Seed.word b 0 ∧ ld32 b 1 = Spec.Seed.word b 1 ∧ ld32 b 2 = Spec.Seed.word b 2 ∧ ld32 b 3 = Spec.Seed.word b 3 := by
  obtain ⟨a0, a1, a2, a3, a4, a5, a6, a7, a8, a9, a10, a11, a12, a13, a14, a15, rfl⟩ := list16 b h
  have e : ∀ a b c d : Byte, (a ++ b ++ c ++ d : BitVec (8 + 8 + 8 + 8)) = BitVec.ofNat 32 (Spec.beNat [a, b, c, d]) := by
    intro a b c d
    apply BitVec.eq_of_toNat_eq
    rw [Fips180.toNat_app, Fips180.toNat_app, Fips180.toNat_app, BitVec.toNat_ofNat]
    simp only [Spec.beNat, List.reverse_cons, List.reverse_nil, List.nil_append, List.cons_append, Spec.leNat]
    have := a.isLt; have := b.isLt; have := c.isLt; have := d.isLt
    omega
  exact ⟨e _ _ _ _, e _ _ _ _, e _ _ _ _, e _ _ _ _⟩

theorem octets_spec (w : W) : Spec.Seed.octets w = st32 w := rfl

theorem st_sp (x : D) : st64 x = Spec.Seed.octets (sp x).1 ++ Spec.Seed.octets (sp x).2 := rfl

theorem keys_spec (key : List Byte) (h : key.length = 16) (i : Nat) (hi : i < 16) :
    sp ((keySched key).getD i 0) = Spec.Seed.keyOf key i := by
  obtain ⟨e0, e1, e2, e3⟩ := word_spec key h
  unfold Spec.Seed.keyOf keySched
  rw [← e0, ← e1, ← e2, ← e3]
  exact (sched_spec _ _ _ _ 16 (by decide)).2.2 i hi

theorem feistel_congr (k k' : Nat → W × W) (n : Nat) (h : ∀ i, i < n → k i = k' i) (s : (W × W) × (W × W)) :
    Spec.Seed.feistel k n s = Spec.Seed.feistel k' n s := by
  unfold Spec.Seed.feistel
  apply List.foldl_ext
  intro a b hb
  rw [h b (List.mem_range.mp hb)]

theorem sp_ld (b : List Byte) (h : b.length = 16) : sp (ld64 b 0) = (Spec.Seed.word b 0, Spec.Seed.word b 1) ∧
    sp (ld64 b 1) = (Spec.Seed.word b 2, Spec.Seed.word b 3) := by
  obtain ⟨e0, e1, e2, e3⟩ := word_spec b h
  unfold sp ld64
  rw [hi64, lo64, hi64, lo64, ← e0, ← e1, ← e2, ← e3]
  exact ⟨rfl, rfl⟩

theorem enc_spec (key inp : List Byte) (hk : key.length = 16) (hi : inp.length = 16) :
    encrypt inp (keySched key) = Spec.Seed.encrypt key inp := by
  unfold Spec.Seed.encrypt Spec.Seed.crypt
  rw [feistel_congr _ (fun i => sp ((keySched key).getD i 0)) 16 fun i hi => (keys_spec key hk i hi).symm, ← (sp_ld inp hi).1, ← (sp_ld inp hi).2]
  have := loop_spec (keySched key) 16 (ld64 inp 0, ld64 inp 1)
  simp only at this
  rw [this, encLoop_succ]
  unfold encrypt
  simp only []
  rw [st_sp, st_sp]
  simp only [List.append_assoc]

theorem dec_spec (key inp : List Byte) (hk : key.length = 16) (hi : inp.length = 16) :
    decrypt inp (keySched key) = Spec.Seed.decrypt key inp := by
  unfold Spec.Seed.decrypt Spec.Seed.crypt
  rw [feistel_congr _ (fun i => sp ((keySched key).getD (15 - i) 0)) 16 fun i hi => (keys_spec key hk (15 - i) (by omega)).symm,
    ← (sp_ld inp hi).1, ← (sp_ld inp hi).2, feistel_succ]
  simp only [Nat.sub_zero]
  rw [← F_spec]
  rw [← sp_xor]
  have := dloop_spec (keySched key) 15 (ld64 inp 0 ^^^ func_F ((keySched key).getD 15 0) (ld64 inp 1)) (ld64 inp 1)
  rw [show (fun i => sp ((keySched key).getD (15 - (i + 1)) 0)) = (fun i => sp ((keySched key).getD (15 - 1 - i) 0)) from
      funext fun i => by rw [show 15 - (i + 1) = 15 - 1 - i by omega], this]
  unfold decrypt
  simp only []
  rw [st_sp, st_sp]
  simp only [List.append_assoc]

end Seed
