import Verif.Lemmas.ShaNi2

/-!
# The accelerated SHA functions, continued: x86
-/

namespace Fips180
open Spec.Sha Spec.Isa

theorem quadR_add (F : Nat → BitVec 32) (i k : Nat) : quadR F (i + k) = ⟨F (4 * i + (4 * k + 3)), F (4 * i + (4 * k + 2)),
    F (4 * i + (4 * k + 1)), F (4 * i + 4 * k)⟩ := by
  unfold quadR
  rw [show 4 * (i + k) = 4 * i + 4 * k by omega]
  rfl

/-! ## SHA-1 -/

theorem x86_msg1 (M : Nat → BitVec 32) (i : Nat) :
    sha1msg2 ((sha1msg1 (quadR (sched1 M) i) (quadR (sched1 M) (i + 1))).xor (quadR (sched1 M) (i + 2))) (quadR (sched1 M) (i + 3)) =
      quadR (sched1 M) (i + 4) := by
  rw [quadR_add _ i 1, quadR_add _ i 2, quadR_add _ i 3, quadR_add _ i 4]
  unfold quadR sha1msg2 sha1msg1 Q.xor
  simp only [Nat.reduceMul, Nat.reduceAdd]
  have r0 := sched1_rec M (4 * i)
  have r1 := sched1_rec M (4 * i + 1)
  have r2 := sched1_rec M (4 * i + 2)
  have r3 := sched1_rec M (4 * i + 3)
  simp only [Nat.add_assoc, Nat.reduceAdd] at r0 r1 r2 r3
  rw [r3, r0, r1, r2]
  simp only [rol_xor _ _ 1 (by decide), rol_rol, Q.mk.injEq]
  refine ⟨?_, ?_, ?_, ?_⟩ <;> ac_rfl

theorem vars1_step (W : Nat → BitVec 32) (v : V5) (t : Nat) : vars1 W v (t + 1) =
    ⟨f1 t (vars1 W v t).b (vars1 W v t).c (vars1 W v t).d + (vars1 W v t).a.rotateLeft 5 + W t + (vars1 W v t).e + K1 t,
     (vars1 W v t).a, (vars1 W v t).b.rotateLeft 30, (vars1 W v t).c, (vars1 W v t).d⟩ := by
  rw [vars1]
  generalize vars1 W v t = u
  obtain ⟨a, b, c, d, e⟩ := u
  simp only [V5.mk.injEq, and_true, true_and]
  ac_rfl

/-- The variables `a .. d`, `a` in lane 3. -/
def abcdR (v : V5) : Q := ⟨v.d, v.c, v.b, v.a⟩

theorem x86_rounds1 (W : Nat → BitVec 32) (v : V5) (i : Nat) (imm : Nat)
    (hf : ∀ k < 4, f1 (4 * i + k) = if imm = 0 then choose else if imm = 1 then par else if imm = 2 then majority else par)
    (hK : ∀ k < 4, K1 (4 * i + k) =
      if imm = 0 then 0x5a827999 else if imm = 1 then 0x6ed9eba1 else if imm = 2 then 0x8f1bbcdc else 0xca62c1d6) :
    sha1rnds4 (abcdR (vars1 W v (4 * i))) ⟨W (4 * i + 3), W (4 * i + 2), W (4 * i + 1), W (4 * i) + (vars1 W v (4 * i)).e⟩ imm =
      abcdR (vars1 W v (4 * (i + 1))) := by
  have f0 := hf 0 (by decide)
  have K0 := hK 0 (by decide)
  rw [Nat.add_zero] at f0 K0
  have f1' := hf 1 (by decide)
  have f2' := hf 2 (by decide)
  have f3' := hf 3 (by decide)
  have K1' := hK 1 (by decide)
  have K2' := hK 2 (by decide)
  have K3' := hK 3 (by decide)
  rw [show 4 * (i + 1) = 4 * i + 3 + 1 by omega]
  rw [vars1_step W v (4 * i + 3), vars1_step W v (4 * i + 2), vars1_step W v (4 * i + 1), vars1_step W v (4 * i), f0, f1', f2', f3', K0, K1', K2',
    K3']
  unfold sha1rnds4
  simp only
  generalize (if imm = 0 then choose else if imm = 1 then par else if imm = 2 then majority else par) = f
  generalize (if imm = 0 then 0x5a827999 else if imm = 1 then 0x6ed9eba1 else if imm = 2 then 0x8f1bbcdc else 0xca62c1d6 : BitVec 32) = K
  generalize vars1 W v (4 * i) = u
  obtain ⟨a, b, c, d, e⟩ := u
  simp only [abcdR]
  rw [show f b c d + a.rotateLeft 5 + (W (4 * i) + e) + K = f b c d + a.rotateLeft 5 + W (4 * i) + e + K by ac_rfl]

/-- The array before iteration `i`: the last two quads, and the two before them half way to the next quads. -/
structure Sch1 (G : Nat → Q) (w : List Q) (i : Nat) : Prop where
  len : w.length = 4
  h0 : atq w (i % 4) = G i
  h1 : 1 ≤ i → atq w ((i - 1) % 4) = G (i - 1)
  h2 : 2 ≤ i → atq w ((i - 2) % 4) = sha1msg1 (G (i - 2)) (G (i - 1))
  h3 : 3 ≤ i → atq w ((i - 3) % 4) = (sha1msg1 (G (i - 3)) (G (i - 2))).xor (G (i - 1))
  hj : ∀ j, i < j → j < 4 → atq w j = G j

/-- The three conditional updates of the array. -/
def upd1 (w : List Q) (i : Nat) : List Q :=
  let w := if i ≥ 1 then w.set ((i - 1) % 4) (sha1msg1 (atq w ((i - 1) % 4)) (atq w (i % 4))) else w
  let w := if i ≥ 2 then w.set ((i - 2) % 4) ((atq w ((i - 2) % 4)).xor (atq w (i % 4))) else w
  if i ≥ 3 then w.set ((i - 3) % 4) (sha1msg2 (atq w ((i - 3) % 4)) (atq w (i % 4))) else w

theorem Sch1.step {G : Nat → Q} {w : List Q} {i : Nat} (h : Sch1 G w i)
    (hG : ∀ k, sha1msg2 ((sha1msg1 (G k) (G (k + 1))).xor (G (k + 2))) (G (k + 3)) = G (k + 4)) : Sch1 G (upd1 w i) (i + 1) := by
  have hl := h.len
  match i, h with
  | 0, h =>
    simp only [upd1, ge_iff_le, Nat.not_succ_le_zero, if_false]
    exact ⟨hl, h.hj 1 (by omega) (by omega), fun _ => h.h0, fun c => by omega, fun c => by omega, fun j a b => h.hj j (by omega) b⟩
  | 1, h =>
    have a0 := h.h0
    have a1 := h.h1 (by omega)
    simp only [Nat.reduceMod, Nat.reduceSub] at a0 a1
    simp only [upd1, ge_iff_le, le_refl, if_true, show ¬ 2 ≤ 1 by omega, show ¬ 3 ≤ 1 by omega, if_false, Nat.reduceMod, Nat.reduceSub, a0, a1]
    refine ⟨by simpa using hl, ?_, fun _ => ?_, fun _ => ?_, fun c => by omega, fun j a b => ?_⟩
    · rw [atq_set_ne _ (by decide)]; exact h.hj 2 (by omega) (by omega)
    · rw [atq_set_ne _ (by decide)]; exact a0
    · rw [show (1 + 1 - 2) % 4 = 0 from rfl, atq_set_eq _ (by omega)]
    · rw [atq_set_ne _ (by omega)]; exact h.hj j (by omega) b
  | 2, h =>
    have a0 := h.h0
    have a1 := h.h1 (by omega)
    have a2 := h.h2 (by omega)
    simp only [Nat.reduceMod, Nat.reduceSub] at a0 a1 a2
    simp only [upd1, ge_iff_le, le_refl, if_true, show 1 ≤ 2 by omega, show ¬ 3 ≤ 2 by omega, if_false, Nat.reduceMod, Nat.reduceSub]
    rw [atq_set_ne (a := 1) (b := 0) _ (by decide), atq_set_ne (a := 1) (b := 2) _ (by decide), a0, a1, a2]
    refine ⟨by simpa using hl, ?_, fun _ => ?_, fun _ => ?_, fun _ => ?_, fun j a b => by omega⟩
    · rw [atq_set_ne _ (by decide), atq_set_ne _ (by decide)]; exact h.hj 3 (by omega) (by omega)
    · rw [atq_set_ne _ (by decide), atq_set_ne _ (by decide)]; exact a0
    · rw [atq_set_ne _ (by decide), show (2 + 1 - 2) % 4 = 1 from rfl, atq_set_eq _ (by omega)]
    · rw [show (2 + 1 - 3) % 4 = 0 from rfl, atq_set_eq _ (by rw [List.length_set]; omega)]
  | k + 3, h =>
    have a0 := h.h0
    have a1 := h.h1 (by omega)
    have a2 := h.h2 (by omega)
    have a3 := h.h3 (by omega)
    have g := hG k
    simp only [show k + 3 - 1 = k + 2 by omega, show k + 3 - 2 = k + 1 by omega, show k + 3 - 3 = k by omega] at a1 a2 a3
    simp only [upd1, ge_iff_le, if_true, show 1 ≤ k + 3 by omega, show 2 ≤ k + 3 by omega, show 3 ≤ k + 3 by omega,
      show k + 3 - 1 = k + 2 by omega, show k + 3 - 2 = k + 1 by omega, show k + 3 - 3 = k by omega]
    rw [a0, a1, atq_set_ne (a := (k + 2) % 4) (b := (k + 1) % 4) _ (by omega), atq_set_ne (a := (k + 2) % 4) (b := (k + 3) % 4) _ (by omega),
      atq_set_ne (a := (k + 1) % 4) (b := k % 4) _ (by omega), atq_set_ne (a := (k + 2) % 4) (b := k % 4) _ (by omega),
      atq_set_ne (a := (k + 1) % 4) (b := (k + 3) % 4) _ (by omega), atq_set_ne (a := (k + 2) % 4) (b := (k + 3) % 4) _ (by omega), a0, a2, a3, g]
    refine ⟨by simpa using hl, ?_, fun _ => ?_, fun _ => ?_, fun _ => ?_, fun j a b => by omega⟩
    · rw [show (k + 3 + 1) % 4 = k % 4 by omega, atq_set_eq _ (by rw [List.length_set, List.length_set]; omega)]
    · rw [show k + 3 + 1 - 1 = k + 3 by omega, atq_set_ne _ (by omega), atq_set_ne _ (by omega), atq_set_ne _ (by omega), a0]
    · rw [show k + 3 + 1 - 2 = k + 2 by omega, atq_set_ne _ (by omega), atq_set_ne _ (by omega), atq_set_eq _ (by omega)]
      rfl
    · rw [show k + 3 + 1 - 3 = k + 1 by omega, atq_set_ne _ (by omega), atq_set_eq _ (by rw [List.length_set]; omega)]
      rfl

theorem x1_loop (v : V5) (M : Nat → BitVec 32) (s0 : X1) (hw : Sch1 (quadR (sched1 M)) s0.w 0) (ha : s0.abcd = abcdR v)
    (hs : s0.save = ⟨sched1 M 3, sched1 M 2, sched1 M 1, sched1 M 0 + v.e⟩) (n : Nat) (hn : n ≤ 20) :
    let s := (List.range n).foldl x86Sha1Step s0
    Sch1 (quadR (sched1 M)) s.w n ∧ s.abcd = abcdR (vars1 (sched1 M) v (4 * n)) ∧
      s.save = ⟨sched1 M (4 * n + 3), sched1 M (4 * n + 2), sched1 M (4 * n + 1), sched1 M (4 * n) + (vars1 (sched1 M) v (4 * n)).e⟩ ∧
      (0 < n → s.e.l3.rotateLeft 30 = (vars1 (sched1 M) v (4 * n)).e) := by
  induction n with
  | zero => exact ⟨hw, ha, hs, fun h => by omega⟩
  | succ i ih =>
    obtain ⟨iw, ia, is, -⟩ := ih (by omega)
    simp only [List.range_succ, List.foldl_append, List.foldl_cons, List.foldl_nil]
    generalize (List.range i).foldl x86Sha1Step s0 = s at iw ia is ⊢
    have hstep : (x86Sha1Step s i).w = upd1 s.w i := rfl
    have hwn : Sch1 (quadR (sched1 M)) (x86Sha1Step s i).w (i + 1) := by
      rw [hstep]
      exact iw.step (x86_msg1 M)
    have hE : (x86Sha1Step s i).e = s.abcd := rfl
    have hrol : (vars1 (sched1 M) v (4 * i)).a.rotateLeft 30 = (vars1 (sched1 M) v (4 * (i + 1))).e := (e_four _ _ _).symm
    refine ⟨hwn, ?_, ?_, fun _ => ?_⟩
    · have hr := fun imm hf hK => x86_rounds1 (sched1 M) v i imm hf hK
      simp only [x86Sha1Step]
      rw [ia, is]
      by_cases h5 : i < 5
      · rw [if_neg (by omega), if_neg (by omega), if_neg (by omega), if_pos ⟨by omega, h5⟩]
        exact hr 0 (fun k hk => by rw [f1_quad i k hk, if_pos h5]; rfl) (fun k hk => by rw [K1_quad i k hk, if_pos h5]; rfl)
      · by_cases h10 : i < 10
        · rw [if_neg (by omega), if_neg (by omega), if_pos ⟨by omega, h10⟩, if_neg (by omega)]
          exact hr 1 (fun k hk => by rw [f1_quad i k hk, if_neg h5, if_pos h10]; rfl)
            (fun k hk => by rw [K1_quad i k hk, if_neg h5, if_pos h10]; rfl)
        · by_cases h15 : i < 15
          · rw [if_neg (by omega), if_pos ⟨by omega, h15⟩, if_neg (by omega), if_neg (by omega)]
            exact hr 2 (fun k hk => by rw [f1_quad i k hk, if_neg h5, if_neg h10, if_pos h15]; rfl)
              (fun k hk => by rw [K1_quad i k hk, if_neg h5, if_neg h10, if_pos h15]; rfl)
          · rw [if_pos ⟨by omega, by omega⟩, if_neg (by omega), if_neg (by omega), if_neg (by omega)]
            exact hr 3 (fun k hk => by rw [f1_quad i k hk, if_neg h5, if_neg h10, if_neg h15]; rfl)
              (fun k hk => by rw [K1_quad i k hk, if_neg h5, if_neg h10, if_neg h15]; rfl)
    · show sha1nexte s.abcd (atq (x86Sha1Step s i).w ((i + 1) % 4)) = _
      rw [hwn.h0, ia, ← hrol]
      rfl
    · rw [hE, ia]
      exact hrol

theorem x86_load (M : List (BitVec 8)) (i : Nat) :
    q32 (shuffleEpi8 (oct16 M (16 * i)) [15, 14, 13, 12, 11, 10, 9, 8, 7, 6, 5, 4, 3, 2, 1, 0]) = quadR (word 4 M) i := by
  have h := armLoad_eq M i
  unfold armLoad q32 rev32 quad at h
  unfold q32 shuffleEpi8 quadR
  simp only [List.map_cons, List.map_nil, List.getD_cons_zero, List.getD_cons_succ, Nat.reduceMul, Nat.reduceAdd, Q.mk.injEq] at h ⊢
  exact ⟨h.2.2.2, h.2.2.1, h.2.1, h.1⟩

theorem x86Sha1_eq (H : List (BitVec 32)) (M : List (BitVec 8)) : x86Sha1 H M = comp1 H M := by
  have hq : ∀ t < 16, sched1 (word 4 M) t = word 4 M t := fun t ht => by rw [sched1, if_pos ht]
  have hR : ∀ i < 4, quadR (word 4 M) i = quadR (sched1 (word 4 M)) i := fun i hi => by
    unfold quadR
    rw [hq _ (by omega), hq _ (by omega), hq _ (by omega), hq _ (by omega)]
  have hg : ∀ i < 4, atq ((List.range 4).map fun i => q32 (shuffleEpi8 (oct16 M (16 * i)) [15, 14, 13, 12, 11, 10, 9, 8, 7, 6, 5, 4, 3, 2, 1, 0])) i =
      quadR (sched1 (word 4 M)) i := fun i hi => by
    rw [← hR i hi, ← x86_load, atq, List.getD_eq_getElem _ _ (by simp; omega)]
    simp
  unfold x86Sha1
  simp only
  rw [hg 0 (by decide)]
  have hlen : ((List.range 4).map fun i => q32 (shuffleEpi8 (oct16 M (16 * i)) [15, 14, 13, 12, 11, 10, 9, 8, 7, 6, 5, 4, 3, 2, 1, 0])).length = 4 := by
    simp
  generalize ((List.range 4).map fun i => q32 (shuffleEpi8 (oct16 M (16 * i)) [15, 14, 13, 12, 11, 10, 9, 8, 7, 6, 5, 4, 3, 2, 1, 0])) = w at hg hlen ⊢
  have h := x1_loop ⟨at_ H 0, at_ H 1, at_ H 2, at_ H 3, at_ H 4⟩ (word 4 M)
    ⟨w, setEpi32 (at_ H 0) (at_ H 1) (at_ H 2) (at_ H 3), setEpi32 (at_ H 4) 0 0 0,
      (setEpi32 (at_ H 4) 0 0 0).add (quadR (sched1 (word 4 M)) 0)⟩
    ⟨hlen, hg 0 (by decide), fun c => by omega, fun c => by omega, fun c => by omega, fun j _ hj => hg j hj⟩ rfl
    (by simp only [setEpi32, Q.add, quadR, Nat.mul_zero, Nat.zero_add, BitVec.add_comm]; simp) 20 le_rfl
  obtain ⟨-, h1, -, h2⟩ := h
  have h2 := h2 (by decide)
  generalize (List.range 20).foldl x86Sha1Step _ = s at h1 h2 ⊢
  unfold comp1
  simp only
  change _ = abcdR (vars1 (sched1 (word 4 M)) ⟨H.getD 0 0, H.getD 1 0, H.getD 2 0, H.getD 3 0, H.getD 4 0⟩ 80) at h1
  change _ = (vars1 (sched1 (word 4 M)) ⟨H.getD 0 0, H.getD 1 0, H.getD 2 0, H.getD 3 0, H.getD 4 0⟩ 80).e at h2
  have h3 := rotl_eq s.e.l3 30 (by decide)
  unfold rotl at h3
  simp only [Nat.reduceSub] at h3
  rw [h3, h2, h1]
  simp only [abcdR, at_, BitVec.add_comm]

/-! ## SHA-256 -/

theorem x86_msg2 (M : Nat → BitVec 32) (i : Nat) :
    sha256msg2 ((sha256msg1 (quad (sched2 fn256 M) i) (quad (sched2 fn256 M) (i + 1))).add
      (alignr4 (quad (sched2 fn256 M) (i + 3)) (quad (sched2 fn256 M) (i + 2)))) (quad (sched2 fn256 M) (i + 3)) =
      quad (sched2 fn256 M) (i + 4) := by
  rw [quad_add _ i 1, quad_add _ i 2, quad_add _ i 3, quad_add _ i 4]
  unfold quad sha256msg2 sha256msg1 alignr4 Q.add
  simp only [Nat.reduceMul, Nat.reduceAdd, s0_eq, s1_eq]
  have r0 := sched2_rec fn256 M (4 * i)
  have r1 := sched2_rec fn256 M (4 * i + 1)
  have r2 := sched2_rec fn256 M (4 * i + 2)
  have r3 := sched2_rec fn256 M (4 * i + 3)
  simp only [Nat.add_assoc, Nat.reduceAdd] at r0 r1 r2 r3
  generalize sched2 fn256 M = F at *
  have e0 : F (4 * i) + fn256.s0 (F (4 * i + 1)) + F (4 * i + 9) + fn256.s1 (F (4 * i + 14)) = F (4 * i + 16) := by rw [r0]; ac_rfl
  have e1 : F (4 * i + 1) + fn256.s0 (F (4 * i + 2)) + F (4 * i + 10) + fn256.s1 (F (4 * i + 15)) = F (4 * i + 17) := by rw [r1]; ac_rfl
  rw [e0, e1, r2, r3]
  refine Q.ext rfl rfl ?_ ?_ <;> simp only <;> ac_rfl

/-- The registers `abef` and `cdgh`. -/
def abefR (v : V8 32) : Q := ⟨v.f, v.e, v.b, v.a⟩
def cdghR (v : V8 32) : Q := ⟨v.h, v.g, v.d, v.c⟩

theorem x86_one (a b c d e f g h K w : BitVec 32) :
    (choose e f g + Spec.Isa.S1 e + (w + K) + h + majority a b c + S0 a, choose e f g + Spec.Isa.S1 e + (w + K) + h + d) =
      (h + fn256.S1 e + Ch e f g + K + w + (fn256.S0 a + Maj a b c), d + (h + fn256.S1 e + Ch e f g + K + w)) := by
  refine Prod.ext ?_ ?_
  · show Ch e f g + fn256.S1 e + (w + K) + h + Maj a b c + fn256.S0 a = h + fn256.S1 e + Ch e f g + K + w + (fn256.S0 a + Maj a b c)
    ac_rfl
  · show Ch e f g + fn256.S1 e + (w + K) + h + d = d + (h + fn256.S1 e + Ch e f g + K + w)
    ac_rfl

theorem x86_rounds2 (W : Nat → BitVec 32) (v : V8 32) (t : Nat) (ht : t + 1 < 64) (x y : BitVec 32) :
    sha256rnds2 (cdghR (vars2 fn256 W v t)) (abefR (vars2 fn256 W v t)) ⟨W t + at_ kSha256 t, W (t + 1) + at_ kSha256 (t + 1), x, y⟩ =
      abefR (vars2 fn256 W v (t + 2)) := by
  rw [vars2_step fn256 W v (t + 1), vars2_step fn256 W v t, k256 t (by omega), k256 (t + 1) ht]
  generalize vars2 fn256 W v t = u
  generalize cbrtFrac 32 (prime t) = K0
  generalize cbrtFrac 32 (prime (t + 1)) = K1
  obtain ⟨a, b, c, d, e, f, g, h⟩ := u
  unfold sha256rnds2
  simp only [abefR, cdghR]
  have h1 := x86_one a b c d e f g h K0 (W t)
  injection h1 with h1 h2
  rw [h1, h2]
  have h3 := x86_one (h + fn256.S1 e + Ch e f g + K0 + W t + (fn256.S0 a + Maj a b c)) a b c (d + (h + fn256.S1 e + Ch e f g + K0 + W t)) e f g K1
    (W (t + 1))
  injection h3 with h3 h4
  rw [h3, h4]

theorem cdgh_two (W : Nat → BitVec 32) (v : V8 32) (t : Nat) : cdghR (vars2 fn256 W v (t + 2)) = abefR (vars2 fn256 W v t) := rfl

/-- The array before iteration `i`. -/
structure Sch2 (G : Nat → Q) (w : List Q) (i : Nat) : Prop where
  len : w.length = 4
  h0 : atq w (i % 4) = G i
  h1 : 1 ≤ i → atq w ((i - 1) % 4) = G (i - 1)
  h2 : 2 ≤ i → atq w ((i - 2) % 4) = sha256msg1 (G (i - 2)) (G (i - 1))
  h3 : 3 ≤ i → atq w ((i - 3) % 4) = sha256msg1 (G (i - 3)) (G (i - 2))
  hj : ∀ j, i < j → j < 4 → atq w j = G j

/-- The conditional updates of the array. -/
def upd2 (w : List Q) (i : Nat) : List Q :=
  let w := if i ≥ 3 then
      let save := atq w (i % 4)
      let save := alignr4 save (atq w ((i - 1) % 4))
      let w := w.set ((i - 3) % 4) ((atq w ((i - 3) % 4)).add save)
      w.set ((i - 3) % 4) (sha256msg2 (atq w ((i - 3) % 4)) (atq w (i % 4)))
    else w
  if i ≥ 1 then w.set ((i - 1) % 4) (sha256msg1 (atq w ((i - 1) % 4)) (atq w (i % 4))) else w

theorem Sch2.step {G : Nat → Q} {w : List Q} {i : Nat} (h : Sch2 G w i)
    (hG : ∀ k, sha256msg2 ((sha256msg1 (G k) (G (k + 1))).add (alignr4 (G (k + 3)) (G (k + 2)))) (G (k + 3)) = G (k + 4)) :
    Sch2 G (upd2 w i) (i + 1) := by
  have hl := h.len
  match i, h with
  | 0, h =>
    simp only [upd2, ge_iff_le, Nat.not_succ_le_zero, if_false]
    exact ⟨hl, h.hj 1 (by omega) (by omega), fun _ => h.h0, fun c => by omega, fun c => by omega, fun j a b => h.hj j (by omega) b⟩
  | 1, h =>
    have a0 := h.h0
    have a1 := h.h1 (by omega)
    simp only [Nat.reduceMod, Nat.reduceSub] at a0 a1
    simp only [upd2, ge_iff_le, le_refl, if_true, show ¬ 3 ≤ 1 by omega, if_false, Nat.reduceMod, Nat.reduceSub, a0, a1]
    refine ⟨by simpa using hl, ?_, fun _ => ?_, fun _ => ?_, fun c => by omega, fun j a b => ?_⟩
    · rw [atq_set_ne _ (by decide)]; exact h.hj 2 (by omega) (by omega)
    · rw [atq_set_ne _ (by decide)]; exact a0
    · rw [show (1 + 1 - 2) % 4 = 0 from rfl, atq_set_eq _ (by omega)]
    · rw [atq_set_ne _ (by omega)]; exact h.hj j (by omega) b
  | 2, h =>
    have a0 := h.h0
    have a1 := h.h1 (by omega)
    have a2 := h.h2 (by omega)
    simp only [Nat.reduceMod, Nat.reduceSub] at a0 a1 a2
    simp only [upd2, ge_iff_le, if_true, show 1 ≤ 2 by omega, show ¬ 3 ≤ 2 by omega, if_false, Nat.reduceMod, Nat.reduceSub]
    rw [a0, a1]
    refine ⟨by simpa using hl, ?_, fun _ => ?_, fun _ => ?_, fun _ => ?_, fun j a b => by omega⟩
    · rw [atq_set_ne _ (by decide)]; exact h.hj 3 (by omega) (by omega)
    · rw [atq_set_ne _ (by decide)]; exact a0
    · rw [show (2 + 1 - 2) % 4 = 1 from rfl, atq_set_eq _ (by omega)]
    · rw [atq_set_ne _ (by decide)]; exact a2
  | k + 3, h =>
    have a0 := h.h0
    have a1 := h.h1 (by omega)
    have a2 := h.h2 (by omega)
    have a3 := h.h3 (by omega)
    have g := hG k
    simp only [show k + 3 - 1 = k + 2 by omega, show k + 3 - 2 = k + 1 by omega, show k + 3 - 3 = k by omega] at a1 a2 a3
    simp only [upd2, ge_iff_le, if_true, show 1 ≤ k + 3 by omega, show 3 ≤ k + 3 by omega, le_add_iff_nonneg_left, zero_le,
      show k + 3 - 1 = k + 2 by omega, show k + 3 - 3 = k by omega, List.set_set]
    rw [atq_set_eq (a := k % 4) _ (by omega), atq_set_ne (a := k % 4) (b := (k + 3) % 4) _ (by omega),
      atq_set_ne (a := k % 4) (b := (k + 2) % 4) _ (by omega), a0, a1, a3, g]
    rw [atq_set_ne (a := k % 4) (b := (k + 3) % 4) _ (by omega), a0]
    refine ⟨by simpa using hl, ?_, fun _ => ?_, fun _ => ?_, fun _ => ?_, fun j a b => by omega⟩
    · rw [atq_set_ne _ (by omega), show (k + 3 + 1) % 4 = k % 4 by omega, atq_set_eq _ (by omega)]
    · rw [show k + 3 + 1 - 1 = k + 3 by omega, atq_set_ne _ (by omega), atq_set_ne _ (by omega), a0]
    · rw [show k + 3 + 1 - 2 = k + 2 by omega, atq_set_eq _ (by rw [List.length_set]; omega)]
      rfl
    · rw [show k + 3 + 1 - 3 = k + 1 by omega, atq_set_ne _ (by omega), atq_set_ne _ (by omega), a2]
      rfl

theorem x2_loop (v : V8 32) (M : Nat → BitVec 32) (w0 : List Q) (hw : Sch2 (quad (sched2 fn256 M)) w0 0) (n : Nat) (hn : n ≤ 16) :
    let s := (List.range n).foldl x86Sha256Step ⟨w0, abefR v, cdghR v⟩
    Sch2 (quad (sched2 fn256 M)) s.w n ∧ s.abef = abefR (vars2 fn256 (sched2 fn256 M) v (4 * n)) ∧
      s.cdgh = cdghR (vars2 fn256 (sched2 fn256 M) v (4 * n)) := by
  induction n with
  | zero => exact ⟨hw, rfl, rfl⟩
  | succ i ih =>
    obtain ⟨iw, ia, ic⟩ := ih (by omega)
    simp only [List.range_succ, List.foldl_append, List.foldl_cons, List.foldl_nil]
    generalize (List.range i).foldl x86Sha256Step ⟨w0, abefR v, cdghR v⟩ = s at iw ia ic ⊢
    have hc : (x86Sha256Step s i).cdgh = abefR (vars2 fn256 (sched2 fn256 M) v (4 * i + 2)) := by
      show sha256rnds2 s.cdgh s.abef ((atq s.w (i % 4)).add (k4 i)) = _
      rw [iw.h0, ia, ic]
      exact x86_rounds2 (sched2 fn256 M) v (4 * i) (by omega) _ _
    refine ⟨?_, ?_, ?_⟩
    · show Sch2 _ (upd2 s.w i) (i + 1)
      exact iw.step (x86_msg2 M)
    · show sha256rnds2 s.abef (x86Sha256Step s i).cdgh (shuffleEpi32 ((atq s.w (i % 4)).add (k4 i)) 0x0e) = _
      rw [hc, ia, iw.h0, ← cdgh_two]
      exact x86_rounds2 (sched2 fn256 M) v (4 * i + 2) (by omega) _ _
    · rw [hc]
      rfl

theorem x86_load2 (M : List (BitVec 8)) (i : Nat) :
    q32 (shuffleEpi8 (oct16 M (16 * i)) [3, 2, 1, 0, 7, 6, 5, 4, 11, 10, 9, 8, 15, 14, 13, 12]) = quad (word 4 M) i := armLoad_eq M i

theorem x86Sha256_eq (H : List (BitVec 32)) (M : List (BitVec 8)) : x86Sha256 H M = comp256 H M := by
  have hg : ∀ i < 4, atq ((List.range 4).map fun i => q32 (shuffleEpi8 (oct16 M (16 * i)) [3, 2, 1, 0, 7, 6, 5, 4, 11, 10, 9, 8, 15, 14, 13, 12])) i =
      quad (sched2 fn256 (word 4 M)) i := fun i hi => by
    rw [← quad_word2 M i hi, ← x86_load2, atq, List.getD_eq_getElem _ _ (by simp; omega)]
    simp
  have hlen : ((List.range 4).map fun i => q32 (shuffleEpi8 (oct16 M (16 * i)) [3, 2, 1, 0, 7, 6, 5, 4, 11, 10, 9, 8, 15, 14, 13, 12])).length = 4 := by
    simp
  unfold x86Sha256
  simp only
  generalize ((List.range 4).map fun i => q32 (shuffleEpi8 (oct16 M (16 * i)) [3, 2, 1, 0, 7, 6, 5, 4, 11, 10, 9, 8, 15, 14, 13, 12])) = w at hg hlen ⊢
  have h := x2_loop (V8.of H) (word 4 M) w
    ⟨hlen, hg 0 (by decide), fun c => by omega, fun c => by omega, fun c => by omega, fun j _ hj => hg j hj⟩ 16 le_rfl
  change _ ∧ (List.foldl x86Sha256Step ⟨w, setEpi32 (at_ H 0) (at_ H 1) (at_ H 4) (at_ H 5), setEpi32 (at_ H 2) (at_ H 3) (at_ H 6) (at_ H 7)⟩
    (List.range 16)).abef = abefR (vars2 fn256 (sched2 fn256 (word 4 M)) (V8.of H) fn256.rounds) ∧
    (List.foldl x86Sha256Step ⟨w, setEpi32 (at_ H 0) (at_ H 1) (at_ H 4) (at_ H 5), setEpi32 (at_ H 2) (at_ H 3) (at_ H 6) (at_ H 7)⟩
    (List.range 16)).cdgh = cdghR (vars2 fn256 (sched2 fn256 (word 4 M)) (V8.of H) fn256.rounds) at h
  obtain ⟨-, h1, h2⟩ := h
  unfold comp256
  generalize (List.range 16).foldl x86Sha256Step _ = s at h1 h2 ⊢
  generalize vars2 fn256 (sched2 fn256 (word 4 M)) (V8.of H) fn256.rounds = u at h1 h2 ⊢
  rw [h1, h2]
  simp only [abefR, cdghR, at_, V8.with, BitVec.add_comm]

end Fips180
