import Verif.Model.RsaKeygen
import Verif.Lemmas.Rsa
import Verif.Lemmas.MillerRabin
import Verif.Props.Vlong
import Verif.Props.NumTheory

/-! RSA key generation: the candidates and the primality test. -/

namespace RsaKeygen
open Vlong Spec NumTheory

theorem testBit_val (l : List W) (n : Nat) : (val l).testBit n = (rd l (n / 32)).getLsbD (n % 32) := by
  rw [rd_eq_ofNat, BitVec.getLsbD_ofNat, Nat.testBit_shiftRight]
  have : n % 32 < 32 := Nat.mod_lt _ (by decide)
  simp only [this, decide_true, Bool.true_and]
  congr 1; omega

theorem rd_set' (l : List W) (i j : Nat) (x : W) : rd (l.set i x) j = if i = j ∧ i < l.length then x else rd l j := by
  unfold rd
  simp only [List.getD_eq_getElem?_getD, List.getElem?_set]
  by_cases h : i = j
  · subst h
    by_cases h2 : i < l.length
    · simp [h2]
    · simp [h2]
  · simp [h]

theorem rd_mapIdx (l : List W) (g : Nat → W → W) (j : Nat) : rd (l.mapIdx g) j = if j < l.length then g j (rd l j) else 0 := by
  unfold rd
  simp only [List.getD_eq_getElem?_getD, List.getElem?_mapIdx]
  by_cases h : j < l.length
  · simp [h]
  · simp [h]

theorem five_bits : ∀ i : Fin 64, (0x1f0000000#64).getLsbD i.val = decide (28 ≤ i.val ∧ i.val ≤ 32) := by decide

theorem five_shift (s k : Nat) (hs : s < 32) (hk : k < 64) :
    (0x1f0000000#64 <<< s).getLsbD k = decide (28 + s ≤ k ∧ k ≤ 32 + s) := by
  rw [BitVec.getLsbD_shiftLeft]
  by_cases h : k < s
  · simp only [hk, h, decide_true, Bool.not_true, Bool.and_false, Bool.false_and]
    symm; rw [decide_eq_false_iff_not]; omega
  · rw [five_bits ⟨k - s, by omega⟩]
    simp only [hk, h, decide_true, decide_false, Bool.not_false, Bool.and_true, Bool.true_and]
    congr 1; apply propext; omega

theorem mask_bits (n : Nat) (hn : n < 32) (j : Nat) (hj : j < 32) : ((1#32 <<< n) - 1#32).getLsbD j = decide (j < n) := by
  have := (by decide : ∀ n : Fin 32, ∀ j : Fin 32, ((1#32 <<< n.val) - 1#32).getLsbD j.val = decide (j.val < n.val))
  exact this ⟨n, hn⟩ ⟨j, hj⟩

theorem maskWord_bit (bits t : Nat) (x : W) (j : Nat) (hj : j < 32) :
    (maskWord bits t x).getLsbD j = (x.getLsbD j && decide (32 * t + j < bits)) := by
  unfold maskWord
  split
  · rename_i h
    rw [BitVec.getLsbD_and]
    split
    · rename_i h2
      rw [mask_bits 0 (by decide) j hj]
      congr 2; apply propext; omega
    · rename_i h2
      rw [mask_bits _ (by omega) j hj]
      congr 2; apply propext; omega
  · rename_i h
    have : 32 * t + j < bits := by omega
    simp [this]

/-- The candidate: the low bits of the draw, with the lowest and the five highest bits set. -/
theorem genOdd_bits {bits : Nat} {d w : List W} (hl : bits ≤ 32 * d.length) (h : genOdd bits d = some w) (n : Nat) :
    (val w).testBit n = (decide (n < bits) && ((val d).testBit n || decide (n = 0) || decide (bits ≤ n + 5))) := by
  unfold genOdd at h
  simp only [Nat.sub_zero] at h
  split at h
  · simp at h
  · rename_i h0
    have hb : 33 ≤ bits := by omega
    simp only [Option.some.injEq] at h
    subst h
    have hj : n % 32 < 32 := Nat.mod_lt _ (by decide)
    have hs : (bits - 1) % 32 < 32 := Nat.mod_lt _ (by decide)
    rw [testBit_val, testBit_val]
    simp only [rd_set', List.length_set, List.length_mapIdx, rd_mapIdx]
    have hn := Nat.div_add_mod n 32
    have hbb := Nat.div_add_mod (bits - 1) 32
    generalize n / 32 = t at *
    generalize n % 32 = j at *
    generalize (bits - 1) / 32 = B at *
    generalize (bits - 1) % 32 = s at *
    have hB : B < d.length := by omega
    have hB1 : B - 1 < d.length := by omega
    have h0l : 0 < d.length := by omega
    have hne : ¬ B = B - 1 := by omega
    have hx1 : ((0x1f0000000#64 <<< s).setWidth 32).getLsbD j = decide (28 + s ≤ j ∧ j ≤ 32 + s) := by
      rw [BitVec.getLsbD_setWidth, five_shift _ _ hs (by omega)]; simp [hj]
    have hx2 : (((0x1f0000000#64 <<< s) >>> 32).setWidth 32).getLsbD j = decide (28 + s ≤ 32 + j ∧ 32 + j ≤ 32 + s) := by
      rw [BitVec.getLsbD_setWidth, BitVec.getLsbD_ushiftRight, five_shift _ _ hs (by omega)]; simp [hj]
    have hone : (1#32).getLsbD j = decide (j = 0) := by
      have := (by decide : ∀ j : Fin 32, (1#32).getLsbD j.val = decide (j.val = 0))
      exact this ⟨j, hj⟩
    have hmw : ∀ t', (maskWord bits t' (rd d t')).getLsbD j = ((rd d t').getLsbD j && decide (32 * t' + j < bits)) :=
      fun t' => maskWord_bit _ _ _ _ hj
    have hout : ¬ t < d.length → ∀ j, (rd d t).getLsbD j = false := by
      intro ht j
      unfold rd
      rw [List.getD_eq_getElem?_getD, List.getElem?_eq_none (by omega)]; simp
    by_cases c1 : B - 1 = t
    · subst c1
      simp only [hB1, and_true, if_true, hne, false_and, if_false, BitVec.getLsbD_or, hx1]
      by_cases c0 : 0 = B - 1
      · simp only [← c0, h0l, and_self, if_true, BitVec.getLsbD_or, hmw, hone]
        rw [Bool.eq_iff_iff]
        simp only [Bool.or_eq_true, Bool.and_eq_true, decide_eq_true_eq]
        constructor
        · rintro ((⟨a1, a2⟩ | a) | ⟨a1, a2⟩)
          · exact ⟨by omega, by left; left; exact a1⟩
          · exact ⟨by omega, by left; right; omega⟩
          · exact ⟨by omega, by right; omega⟩
        · rintro ⟨a, ((b | b) | b)⟩
          · left; left; exact ⟨b, by omega⟩
          · left; right; omega
          · right; omega
      · simp only [c0, hB1, false_and, if_false, if_true, hmw]
        rw [Bool.eq_iff_iff]
        simp only [Bool.or_eq_true, Bool.and_eq_true, decide_eq_true_eq]
        constructor
        · rintro (⟨a1, a2⟩ | ⟨a1, a2⟩)
          · exact ⟨by omega, by left; left; exact a1⟩
          · exact ⟨by omega, by right; omega⟩
        · rintro ⟨a, ((b | b) | b)⟩
          · left; exact ⟨b, by omega⟩
          · omega
          · right; omega
    · simp only [c1, false_and, if_false]
      by_cases c2 : B = t
      · subst c2
        have c0 : ¬ 0 = B := by omega
        simp only [hB, and_true, if_true, c0, false_and, if_false, BitVec.getLsbD_or, hx2, hmw]
        rw [Bool.eq_iff_iff]
        simp only [Bool.or_eq_true, Bool.and_eq_true, decide_eq_true_eq]
        constructor
        · rintro (⟨a1, a2⟩ | ⟨a1, a2⟩)
          · exact ⟨by omega, by left; left; exact a1⟩
          · exact ⟨by omega, by right; omega⟩
        · rintro ⟨a, ((b | b) | b)⟩
          · left; exact ⟨b, by omega⟩
          · omega
          · right; omega
      · simp only [c2, false_and, if_false]
        by_cases c0 : 0 = t
        · subst c0
          simp only [h0l, and_self, if_true, BitVec.getLsbD_or, hmw, hone]
          rw [Bool.eq_iff_iff]
          simp only [Bool.or_eq_true, Bool.and_eq_true, decide_eq_true_eq]
          constructor
          · rintro (⟨a1, a2⟩ | a)
            · exact ⟨by omega, by left; left; exact a1⟩
            · exact ⟨by omega, by left; right; omega⟩
          · rintro ⟨a, ((b | b) | b)⟩
            · left; exact ⟨b, by omega⟩
            · right; omega
            · omega
        · simp only [c0, false_and, if_false]
          split
          · rename_i ht
            rw [hmw, Bool.eq_iff_iff]
            simp only [Bool.or_eq_true, Bool.and_eq_true, decide_eq_true_eq]
            constructor
            · rintro ⟨a1, a2⟩
              exact ⟨by omega, by left; left; exact a1⟩
            · rintro ⟨a, ((b | b) | b)⟩
              · exact ⟨b, by omega⟩
              · omega
              · omega
          · rename_i ht
            rw [hout ht]
            symm
            rw [Bool.eq_iff_iff]
            simp only [Bool.or_eq_true, Bool.and_eq_true, decide_eq_true_eq, BitVec.getLsbD_zero]
            constructor
            · rintro ⟨a, ((b | b) | b)⟩
              · simp at b
              · omega
              · omega
            · intro h
              simp at h

theorem genOdd_length {bits : Nat} {d w : List W} (h : genOdd bits d = some w) : w.length = d.length ∧ 33 ≤ bits := by
  unfold genOdd at h
  simp only [Nat.sub_zero] at h
  split at h
  · simp at h
  · simp only [Option.some.injEq] at h
    subst h
    simp; omega

/-- The number a draw becomes. -/
theorem genOdd_val {bits : Nat} {d w : List W} (hl : bits ≤ 32 * d.length) (h : genOdd bits d = some w) :
    val w = 31 * 2 ^ (bits - 5) + (val d % 2 ^ (bits - 5) ||| 1) := by
  have hb := (genOdd_length h).2
  have hlt : val d % 2 ^ (bits - 5) ||| 1 < 2 ^ (bits - 5) :=
    Nat.or_lt_two_pow (Nat.mod_lt _ (Nat.pow_pos (by decide))) (Nat.one_lt_two_pow (by omega))
  apply Nat.eq_of_testBit_eq
  intro n
  rw [genOdd_bits hl h, Nat.mul_comm, Nat.testBit_two_pow_mul_add 31 hlt, Nat.testBit_or, Nat.testBit_mod_two_pow]
  by_cases hn : n < bits - 5
  · rw [if_pos hn]
    have h1 : n < bits := by omega
    have h2 : ¬ bits ≤ n + 5 := by omega
    simp only [h1, h2, hn, decide_true, decide_false, Bool.true_and, Bool.or_false]
    congr 1
    rw [Bool.eq_iff_iff, Nat.testBit_one_eq_true_iff_self_eq_zero, decide_eq_true_eq]
  · rw [if_neg hn]
    have h2 : bits ≤ n + 5 := by omega
    simp only [h2, decide_true, Bool.or_true, Bool.and_true]
    have : (31 : Nat).testBit (n - (bits - 5)) = decide (n - (bits - 5) < 5) := by
      rw [show (31 : Nat) = 2 ^ 5 - 1 from rfl, Nat.testBit_two_pow_sub_one]
    rw [this]
    congr 1; apply propext; omega

theorem genOdd_odd {bits : Nat} {d w : List W} (hl : bits ≤ 32 * d.length) (h : genOdd bits d = some w) :
    val w % 2 = 1 ∧ 31 * 2 ^ (bits - 5) ≤ val w ∧ val w < 2 ^ bits := by
  have hb := (genOdd_length h).2
  have hv := genOdd_val hl h
  have hlt : val d % 2 ^ (bits - 5) ||| 1 < 2 ^ (bits - 5) :=
    Nat.or_lt_two_pow (Nat.mod_lt _ (Nat.pow_pos (by decide))) (Nat.one_lt_two_pow (by omega))
  have h2 : 2 ^ bits = 32 * 2 ^ (bits - 5) := by
    rw [show (32 : Nat) = 2 ^ 5 from rfl, ← Nat.pow_add]; congr 1; omega
  refine ⟨?_, by omega, by omega⟩
  have := genOdd_bits hl h 0
  rw [show decide (0 < bits) = true by simp; omega] at this
  simp only [decide_true, Bool.or_true, Bool.true_or, Bool.and_true] at this
  rw [Nat.testBit_zero] at this
  simpa using this

/-! ## The primality test -/

theorem mrRun_rounds (w : List W) (rng : Rng) : ∀ (fuel k it : Nat), (mrRun w rng fuel k it).map (·.1) = rounds w rng fuel k it := by
  intro fuel
  induction fuel with
  | zero => intro k it; cases it <;> simp [mrRun, rounds]
  | succ fuel ih =>
    intro k it
    cases it with
    | zero => simp [mrRun, rounds]
    | succ it =>
      rw [mrRun, rounds]
      cases condBase w (rng k) with
      | none => exact ih _ _
      | some b =>
        simp only
        cases round w b with
        | none => rfl
        | some r =>
          cases r with
          | false => rfl
          | true => exact ih _ _

theorem rounds_shift (w : List W) (rng : Rng) : ∀ (fuel k it : Nat), rounds w rng fuel k it = rounds w (fun i => rng (k + i)) fuel 0 it := by
  have key : ∀ (fuel k j it : Nat), rounds w rng fuel (k + j) it = rounds w (fun i => rng (k + i)) fuel j it := by
    intro fuel
    induction fuel with
    | zero => intro k j it; cases it <;> simp [rounds]
    | succ fuel ih =>
      intro k j it
      cases it with
      | zero => simp [rounds]
      | succ it =>
        rw [rounds, rounds]
        cases condBase w (rng (k + j)) with
        | none => exact ih k (j + 1) _
        | some b =>
          simp only
          cases round w b with
          | none => rfl
          | some r =>
            cases r with
            | false => rfl
            | true => exact ih k (j + 1) _
  intro fuel k it
  have := key fuel k 0 it
  simpa using this

theorem mrRun_mr {w : List W} {rng : Rng} {fuel k it : Nat} {r : Bool} {k' : Nat} (h : mrRun w rng fuel k it = some (r, k')) :
    millerRabin w it (fun i => rng (k + i)) fuel = some r := by
  unfold millerRabin
  rw [← rounds_shift, ← mrRun_rounds, h]; rfl

end RsaKeygen
