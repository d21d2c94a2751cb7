import Verif.Lemmas.EcScale
import Verif.Lemmas.MontGroup
import Verif.Model.EcMt

/-! `ecMt.c` against the group of the Montgomery curve. -/

namespace Ec
open Vlong Spec

theorem cswap_zero {a b : List W} : cswap 0#32 a b = (a, b) := by
  unfold cswap
  have h : ∀ l : List W, (List.range l.length).map (fun t => rd l t) = l := by
    intro l; apply List.ext_getElem <;> simp [rd, List.getD_eq_getElem?_getD]
    intro i h1; rw [List.getElem?_eq_getElem h1]; rfl
  simp only [show (0 - 0#32 : BitVec 32) = 0#32 by decide, BitVec.zero_and, BitVec.xor_zero, h]

theorem cswap_one {a b : List W} (h : a.length = b.length) : cswap 1#32 a b = (b, a) := by
  unfold cswap
  have hl : ∀ l : List W, (List.range l.length).map (fun t => rd l t) = l := by
    intro l; apply List.ext_getElem <;> simp [rd, List.getD_eq_getElem?_getD]
    intro i h1; rw [List.getElem?_eq_getElem h1]; rfl
  have e : (0 - 1#32 : BitVec 32) = BitVec.allOnes 32 := by decide
  simp only [e, BitVec.allOnes_and]
  have x1 : ∀ t, rd a t ^^^ (rd a t ^^^ rd b t) = rd b t := by
    intro t; rw [← BitVec.xor_assoc, BitVec.xor_self, BitVec.zero_xor]
  have x2 : ∀ t, rd b t ^^^ (rd a t ^^^ rd b t) = rd a t := by
    intro t; rw [BitVec.xor_comm (rd a t), ← BitVec.xor_assoc, BitVec.xor_self, BitVec.zero_xor]
  simp only [x1, x2, h, hl]
  rw [← h, hl]

/-- The four coordinates are sound words. -/
structure LRep (c p : Nat) (L : Ladder) (x2 z2 x3 z3 : ZMod p) : Prop where
  x2 : Rep c p 1 L.x2 x2
  z2 : Rep c p 1 L.z2 z2
  x3 : Rep c p 1 L.x3 x3
  z3 : Rep c p 1 L.z3 z3

theorem ladderSwap_zero (L : Ladder) : ladderSwap 0#32 L = L := by
  unfold ladderSwap; simp only [cswap_zero]

theorem ladderSwap_eq {L : Ladder} (hx : L.x2.length = L.x3.length) (hz : L.z2.length = L.z3.length) :
    ladderSwap 1#32 L = ⟨L.x3, L.z3, L.x2, L.z2⟩ := by
  unfold ladderSwap
  rw [cswap_one hx, cswap_one hz]

theorem ladderSwap_one {c p : Nat} {L : Ladder} {x2 z2 x3 z3 : ZMod p} (h : LRep c p L x2 z2 x3 z3) :
    LRep c p (ladderSwap 1#32 L) x3 z3 x2 z2 := by
  unfold ladderSwap
  rw [cswap_one (by rw [h.x2.len, h.x3.len]), cswap_one (by rw [h.z2.len, h.z3.len])]
  exact ⟨h.x3, h.z3, h.x2, h.z2⟩

section
variable {aux : Aux} {c p : Nat} (hF : FieldOk aux c p)
include hF

/-- One round of arithmetic. -/
theorem ladderStep_rep {a24 : W} {A u : ZMod p} (ha : a24.toNat < 2 ^ 31) (hA : 4 * (a24.toNat : ZMod p) = A - 2)
    {x1 : List W} (h1 : Rep c p 1 x1 u) {L : Ladder} {X2 Z2 X3 Z3 : ZMod p} (h : LRep c p L X2 Z2 X3 Z3) :
    LRep c p (ladderStep aux a24 c x1 L) ((X2 ^ 2 - Z2 ^ 2) ^ 2) (4 * X2 * Z2 * (X2 ^ 2 + A * X2 * Z2 + Z2 ^ 2))
      (4 * (X3 * X2 - Z3 * Z2) ^ 2) (u * (4 * (X3 * Z2 - Z3 * X2) ^ 2)) := by
  unfold ladderStep
  extract_lets -merge f a b a' b' cc d x2 e e' cc2 cc3 z2 c3 d3 c4 d4 da cb t1 t2 x3 t3 t4 e5 z3
  have h_a : Rep c p 1 a' _ := modadd hF h.x2 h.z2
  have h_b : Rep c p 1 b' _ := modsub hF h.x2 h.z2
  have h_cc : Rep c p 1 cc _ := mul_rr hF h_a h_a (by norm_num)
  have h_d : Rep c p 1 d _ := mul_rr hF h_b h_b (by norm_num)
  have h_x2 : Rep c p 1 x2 _ := mul_rr hF h_cc h_d (by norm_num)
  have h_e : Rep c p 1 e' _ := modsub hF h_cc h_d
  have h_cc2 : Rep c p _ cc2 _ := muls_acc_rep hF a24 h_e h_cc (by omega)
  have h_cc3 : Rep c p 1 cc3 _ := mod_rep hF h_cc2 (by omega)
  have h_z2 : Rep c p 1 z2 _ := mul_rr hF h_e h_cc3 (by norm_num)
  have h_c4 : Rep c p 1 c4 _ := modadd hF h.x3 h.z3
  have h_d4 : Rep c p 1 d4 _ := modsub hF h.x3 h.z3
  have h_da : Rep c p 1 da _ := mul_rr hF h_d4 h_a (by norm_num)
  have h_cb : Rep c p 1 cb _ := mul_rr hF h_c4 h_b (by norm_num)
  have h_t2 : Rep c p 1 t2 _ := modadd hF h_da h_cb
  have h_x3 : Rep c p 1 x3 _ := mul_rr hF h_t2 h_t2 (by norm_num)
  have h_t4 : Rep c p 1 t4 _ := modsub hF h_da h_cb
  have h_e5 : Rep c p 1 e5 _ := mul_rr hF h_t4 h_t4 (by norm_num)
  have h_z3 : Rep c p 1 z3 _ := mul_rr hF h1 h_e5 (by norm_num)
  refine ⟨h_x2.of_eq (by ring), h_z2.of_eq ?_, h_x3.of_eq (by ring), h_z3.of_eq (by ring)⟩
  linear_combination 4 * X2 * Z2 * (X2 * Z2) * hA

/-- A property of the field elements that every round keeps is kept by the loop: `n` counts the bits
consumed. -/
theorem ladderLoop_inv {a24 : W} {A u : ZMod p} (ha : a24.toNat < 2 ^ 31) (hA : 4 * (a24.toNat : ZMod p) = A - 2)
    {x1 : List W} (h1 : Rep c p 1 x1 u) (k : List W) (I : Nat → ZMod p → ZMod p → ZMod p → ZMod p → Prop)
    (step0 : ∀ n X2 Z2 X3 Z3, I n X2 Z2 X3 Z3 → I (2 * n) ((X2 ^ 2 - Z2 ^ 2) ^ 2)
      (4 * X2 * Z2 * (X2 ^ 2 + A * X2 * Z2 + Z2 ^ 2)) (4 * (X3 * X2 - Z3 * Z2) ^ 2) (u * (4 * (X3 * Z2 - Z3 * X2) ^ 2)))
    (step1 : ∀ n X2 Z2 X3 Z3, I n X2 Z2 X3 Z3 → I (2 * n + 1) (4 * (X2 * X3 - Z2 * Z3) ^ 2)
      (u * (4 * (X2 * Z3 - Z2 * X3) ^ 2)) ((X3 ^ 2 - Z3 ^ 2) ^ 2) (4 * X3 * Z3 * (X3 ^ 2 + A * X3 * Z3 + Z3 ^ 2)))
    (t : Nat) : ∀ (n : Nat) (s : Nat) (_ : s = 0 ∨ s = 1) (L : Ladder) (X2 Z2 X3 Z3 : ZMod p),
      LRep c p (ladderSwap (BitVec.ofNat 32 s) L) X2 Z2 X3 Z3 → L.x2.length = c → L.z2.length = c →
      L.x3.length = c → L.z3.length = c → I n X2 Z2 X3 Z3 →
      ∃ Y2 V2 Y3 V3, LRep c p (ladderSwap (ladderLoop aux a24 c k x1 t (BitVec.ofNat 32 s) L).1
        (ladderLoop aux a24 c k x1 t (BitVec.ofNat 32 s) L).2) Y2 V2 Y3 V3 ∧
        I (n * 2 ^ t + val k % 2 ^ t) Y2 V2 Y3 V3 := by
  induction t with
  | zero =>
    intro n s hs L X2 Z2 X3 Z3 hL _ _ _ _ hI
    refine ⟨X2, Z2, X3, Z3, by simpa only [ladderLoop] using hL, ?_⟩
    simpa [Nat.mod_one] using hI
  | succ t ih =>
    intro n s hs L X2 Z2 X3 Z3 hL l1 l2 l3 l4 hI
    simp only [ladderLoop]
    have hb := scalar_bit k t
    rw [hb]
    have hbit : val k / 2 ^ t % 2 = 0 ∨ val k / 2 ^ t % 2 = 1 := by omega
    have hsum : ∀ q, (2 * n + q) * 2 ^ t + val k % 2 ^ t = n * 2 ^ (t + 1) + (q * 2 ^ t + val k % 2 ^ t) := by
      intro q; rw [Nat.pow_succ]; ring
    have hmod : val k % 2 ^ (t + 1) = val k / 2 ^ t % 2 * 2 ^ t + val k % 2 ^ t := by
      rw [Nat.pow_succ, Nat.mod_mul]; ring
    have dbl : ∀ {L' : Ladder} {a b c' d : ZMod p}, LRep c p L' a b c' d → LRep c p (ladderSwap 1#32 L') c' d a b :=
      fun h => ladderSwap_one h
    have h0 : BitVec.ofNat 32 0 = 0#32 := rfl
    have h1' : BitVec.ofNat 32 1 = 1#32 := rfl
    rw [hmod]
    rcases hbit with e | e <;> rw [e]
    · -- next bit 0: the current order is the unswapped one
      have hL' : LRep c p (ladderSwap (BitVec.ofNat 32 s ^^^ BitVec.ofNat 32 0) L) X2 Z2 X3 Z3 := by
        rw [h0, BitVec.xor_zero]; exact hL
      have st := ladderStep_rep hF ha hA h1 hL'
      rw [← hsum]
      exact ih (2 * n + 0) 0 (Or.inl rfl) _ _ _ _ _ (by rw [h0, ladderSwap_zero]; exact st) st.x2.len st.z2.len st.x3.len st.z3.len
        (step0 _ _ _ _ _ hI)
    · have hL' : LRep c p (ladderSwap (BitVec.ofNat 32 s ^^^ BitVec.ofNat 32 1) L) X3 Z3 X2 Z2 := by
        rcases hs with rfl | rfl
        · rw [h0, BitVec.zero_xor]
          rw [h0, ladderSwap_zero] at hL
          exact dbl hL
        · rw [BitVec.xor_self, ladderSwap_zero]
          have h2 := dbl hL
          rw [h1', ladderSwap_eq (L := L) (by rw [l1, l3]) (by rw [l2, l4]), ladderSwap_eq (by rw [l1, l3]) (by rw [l2, l4])] at h2
          exact h2
      have st := ladderStep_rep hF ha hA h1 hL'
      rw [← hsum]
      exact ih (2 * n + 1) 1 (Or.inr rfl) _ _ _ _ _ (by rw [h1']; exact dbl st) st.x2.len st.z2.len st.x3.len st.z3.len
        (step1 _ _ _ _ _ hI)

end

section
variable {aux : Aux} {c p : Nat} [Fact p.Prime]

theorem fermat_inv (h2 : 2 < p) (z : ZMod p) : z ^ (p - 2) = z⁻¹ := by
  by_cases hz : z = 0
  · subst hz; rw [zero_pow (by omega), inv_zero]
  · have h := ZMod.pow_card_sub_one_eq_one hz
    have e : p - 1 = p - 2 + 1 := by omega
    rw [e, pow_succ] at h
    exact eq_inv_of_mul_eq_one_left h

/-- `ecMt_point_scale` computes the `u`-coordinate of the multiple of any point with the given
`u`-coordinate. -/
theorem mtPointScale_rep (hF : FieldOk aux c p) (h2 : 2 < p) (hlo : 2 ≤ (rd aux.modCtx 0).toNat) {a24 : W} {A B : ZMod p} (hB : B ≠ 0)
    (hA2 : A ^ 2 ≠ 4) (ha : a24.toNat < 2 ^ 31) (hA : 4 * (a24.toNat : ZMod p) = A - 2) (k x1 : List W) (bits j : Nat)
    (P : (montW A B).Point) (h1 : Rep c p j x1 (uCoord P)) (hj : j < 2 ^ 40) :
    Rep c p 1 (mtPointScale aux a24 c k x1 bits) (uCoord ((val k % 2 ^ bits) • P)) := by
  have two : (2 : ZMod p) ≠ 0 := by
    intro e
    have h := (ZMod.natCast_eq_zero_iff 2 p).mp (by exact_mod_cast e)
    have := Nat.le_of_dvd (by norm_num) h; omega
  have hlen : aux.modCtx ≠ [] := by
    intro e; rw [e] at hlo; simp [rd] at hlo
  unfold mtPointScale
  extract_lets -merge y1 r L tmp
  have hy : Rep c p 1 y1 (uCoord P) := mod_rep hF h1 hj
  have hc := hF.cpos
  have hv1 : val (cpy c [1]) = 1 := by
    unfold cpy
    obtain ⟨m, rfl⟩ : ∃ m, c = m + 1 := ⟨c - 1, by omega⟩
    have := val_one_words (m + 1) (by omega)
    convert this using 2
    apply List.map_congr_left
    intro i _
    rcases i with _ | i <;> simp [rd]
  have hone : Rep c p 1 (cpy c [1]) 1 := by
    refine ⟨by simp [cpy], ?_, by rw [hv1]; simp⟩
    rw [hv1]; have := hF.two; omega
  have hzero : Rep c p 1 (List.replicate c (0:W)) 0 := by
    have : val (List.replicate c (0:W)) = 0 := val_replicate_zero c
    exact ⟨by simp, by rw [this]; omega, by rw [this]; simp⟩
  have hx : Rep c p 1 (cpy c y1) (uCoord P) := cpy_rep hF hy
  have init : LRep c p (ladderSwap (BitVec.ofNat 32 0) ⟨cpy c [1], List.replicate c 0, cpy c y1, cpy c [1]⟩) 1 0 (uCoord P) 1 := by
    rw [show BitVec.ofNat 32 0 = 0#32 from rfl, ladderSwap_zero]
    exact ⟨hone, hzero, hx, hone⟩
  have fin : ∀ {X2 Z2 X3 Z3 : ZMod p}, LRep c p L X2 Z2 X3 Z3 → Rep c p 1 (mulM aux c L.x2 tmp 1) (X2 / Z2) := by
    intro X2 Z2 X3 Z3 h
    have ht : Rep c p 1 tmp (Z2 ^ ((p - 2) / 2 ^ 0)) := by
      refine modexp_rep hF (-2) 0 (p - 2) ?_ ?_ ?_ (by norm_num) hlen h.z2
      · have : ((-2 : BitVec 32)).toInt = -2 := by decide
        rw [this]; omega
      · have : ((-2 : BitVec 32)).toInt = -2 := by decide
        rw [this]; omega
      · have := val_lt aux.modCtx
        rw [hF.ctx] at this; omega
    rw [pow_zero, Nat.div_one, fermat_inv h2] at ht
    exact (mul_rr hF h.x2 ht (by norm_num)).of_eq (by rw [div_eq_mul_inv])
  by_cases hu : uCoord P = 0
  · -- both pairs always have a zero coordinate
    obtain ⟨Y2, V2, Y3, V3, hL, h3, -⟩ := ladderLoop_inv hF ha hA hy k
      (fun _ X2 Z2 X3 Z3 => (X2 = 0 ∨ Z2 = 0) ∧ (X3 = 0 ∨ Z3 = 0))
      (by
        rintro n X2 Z2 X3 Z3 ⟨h | h, -⟩ <;> rw [hu, h] <;> simp)
      (by
        rintro n X2 Z2 X3 Z3 ⟨-, h | h⟩ <;> rw [hu, h] <;> simp)
      bits 0 0 (Or.inl rfl) _ _ _ _ _ init (by simp [cpy]) (by simp) (by simp [cpy]) (by simp [cpy])
      ⟨Or.inr rfl, Or.inl hu⟩
    have hz : uCoord ((val k % 2 ^ bits) • P) = 0 := by
      have hPP : P + P = 0 := by
        rcases P with _ | ⟨x, y, hq⟩
        · rfl
        · simp only [uCoord] at hu
          have hx0 : x = 0 := by
            rcases div_eq_zero_iff.mp hu with h | h
            · exact h
            · exact absurd h hB
          have q := (mont_eqn x y).mp hq.1
          rw [hx0] at q
          have hy0 : y = 0 := by
            have : y ^ 2 = 0 := by rw [q]; ring
            exact pow_eq_zero_iff two_ne_zero |>.mp this
          apply WeierstrassCurve.Affine.Point.add_self_of_Y_eq
          simp [WeierstrassCurve.Affine.negY, montW, hy0]
      have hm : ∀ m : Nat, m • P = (m % 2) • P := by
        intro m
        conv_lhs => rw [← Nat.div_add_mod m 2, add_nsmul, mul_comm 2, mul_nsmul', two_nsmul, hPP, nsmul_zero, zero_add]
      rw [hm]
      rcases Nat.mod_two_eq_zero_or_one (val k % 2 ^ bits) with h | h <;> rw [h]
      · rw [zero_nsmul]; rfl
      · rw [one_nsmul]; exact hu
    rw [hz]
    refine (fin hL).of_eq ?_
    rcases h3 with h | h <;> rw [h] <;> simp
  · obtain ⟨x, y, hq, rfl⟩ : ∃ x y hq, P = .some x y hq := by
      rcases P with _ | ⟨x, y, hq⟩
      · exact absurd rfl hu
      · exact ⟨x, y, hq, rfl⟩
    have hxu : B * uCoord (A := A) (B := B) (.some x y hq) = x := by
      simp only [uCoord]; field_simp
    have hP : (montW A B).Nonsingular (B * uCoord (A := A) (B := B) (.some x y hq)) y := by rw [hxu]; exact hq
    have hPe : (WeierstrassCurve.Affine.Point.some x y hq : (montW A B).Point) = .some _ _ hP := by
      simp only [hxu]
    generalize hPg : (WeierstrassCurve.Affine.Point.some x y hq : (montW A B).Point) = P at *
    obtain ⟨Y2, V2, Y3, V3, hL, h3, -⟩ := ladderLoop_inv hF ha hA hy k
      (fun n X2 Z2 X3 Z3 => UCoords X2 Z2 (n • P) ∧ UCoords X3 Z3 ((n + 1) • P))
      (by
        rintro n X2 Z2 X3 Z3 ⟨hQ, hR⟩
        have h := mont_dbl two hB hA2 hQ
        have h' := mont_dadd two hB hA2 hu hP (Q := n • P) (R := (n + 1) • P) (by rw [← hPe, succ_nsmul]; abel) hQ hR
        rw [← two_nsmul, ← mul_nsmul'] at h
        rw [← add_nsmul] at h'
        exact ⟨h, by rw [show 2 * n + 1 = n + (n + 1) by ring]; exact h'⟩)
      (by
        rintro n X2 Z2 X3 Z3 ⟨hQ, hR⟩
        have h := mont_dbl two hB hA2 hR
        have h' := mont_dadd two hB hA2 hu hP (Q := n • P) (R := (n + 1) • P) (by rw [← hPe, succ_nsmul]; abel) hQ hR
        rw [← two_nsmul, ← mul_nsmul'] at h
        rw [← add_nsmul] at h'
        refine ⟨?_, by rw [show 2 * n + 1 + 1 = 2 * (n + 1) by ring]; exact h⟩
        rw [show 2 * n + 1 = n + (n + 1) by ring]
        convert h' using 1 <;> ring)
      bits 0 0 (Or.inl rfl) _ _ _ _ _ init (by simp [cpy]) (by simp) (by simp [cpy]) (by simp [cpy])
      (by
        refine ⟨by rw [zero_nsmul]; exact ⟨one_ne_zero, rfl⟩, ?_⟩
        rw [zero_add, one_nsmul, ← hPg]
        refine ⟨one_ne_zero, ?_⟩
        rw [hPg, hxu, mul_one])
    rw [Nat.zero_mul, Nat.zero_add] at h3
    rw [uCoord_of hB h3]
    exact fin hL

end
end Ec
