import Verif.Model.ShaNi
import Verif.Lemmas.ShaConst

/-!
# The accelerated SHA functions against FIPS 180-4
-/

namespace Fips180
open Spec.Sha Spec.Isa

theorem atq_set_eq {w : List Q} {a : Nat} (x : Q) (h : a < w.length) : atq (w.set a x) a = x := by
  unfold atq
  rw [List.getD_eq_getElem _ _ (by rw [List.length_set]; exact h), List.getElem_set_self]

theorem atq_set_ne {w : List Q} {a b : Nat} (x : Q) (h : b ≠ a) : atq (w.set a x) b = atq w b := by
  unfold atq
  rw [List.getD_eq_getElem?_getD, List.getD_eq_getElem?_getD, List.getElem?_set_ne (by omega)]

theorem atd_set_eq {w : List D} {a : Nat} (x : D) (h : a < w.length) : atd (w.set a x) a = x := by
  unfold atd
  rw [List.getD_eq_getElem _ _ (by rw [List.length_set]; exact h), List.getElem_set_self]

theorem atd_set_ne {w : List D} {a b : Nat} (x : D) (h : b ≠ a) : atd (w.set a x) b = atd w b := by
  unfold atd
  rw [List.getD_eq_getElem?_getD, List.getD_eq_getElem?_getD, List.getElem?_set_ne (by omega)]

theorem rol_xor (x y : BitVec 32) (k : Nat) (hk : k < 32) : (x ^^^ y).rotateLeft k = x.rotateLeft k ^^^ y.rotateLeft k := by
  apply BitVec.eq_of_getLsbD_eq
  intro i hi
  simp only [BitVec.getLsbD_rotateLeft, BitVec.getLsbD_xor, Nat.mod_eq_of_lt hk]
  cases decide (i < k) <;> simp [hi]

theorem rol_rol (x : BitVec 32) : (x.rotateLeft 1).rotateLeft 1 = x.rotateLeft 2 := by
  apply BitVec.eq_of_getLsbD_eq
  intro i hi
  simp only [BitVec.getLsbD_rotateLeft]
  by_cases h0 : i < 1
  · have : i = 0 := by omega
    subst this
    simp
  · by_cases h1 : i < 2
    · have : i = 1 := by omega
      subst this
      simp
    · simp only [Nat.reduceMod, h0, h1, hi, show ¬ i - 1 < 1 by omega, decide_true, decide_false, cond_false, Bool.true_and,
        show i - 1 < 32 by omega]
      congr 1

/-- Quad `i` of the schedule, first word in lane 0, and the same with the first word in lane 3. -/
def quad (F : Nat → BitVec 32) (i : Nat) : Q := ⟨F (4 * i), F (4 * i + 1), F (4 * i + 2), F (4 * i + 3)⟩
def quadR (F : Nat → BitVec 32) (i : Nat) : Q := ⟨F (4 * i + 3), F (4 * i + 2), F (4 * i + 1), F (4 * i)⟩
def pair (F : Nat → BitVec 64) (i : Nat) : D := ⟨F (2 * i), F (2 * i + 1)⟩

theorem oct16_get (M : List (BitVec 8)) (o k : Nat) (h : k < 16) : (oct16 M o).getD k 0 = M.getD (o + k) 0 := by
  unfold oct16
  rw [List.getD_eq_getElem _ _ (by simpa using h)]
  simp

theorem armLoad_eq (M : List (BitVec 8)) (i : Nat) : armLoad M i = quad (word 4 M) i := by
  unfold armLoad q32 rev32 quad
  simp only [List.map_cons, List.map_nil, oct16_get M (16 * i) _ (by decide : (0:Nat) < 16), ← ld32_eq, Endian.ld32]
  simp only [List.getD_cons_zero, List.getD_cons_succ, Nat.reduceMul, Nat.reduceAdd, List.getD_cons_succ, oct16_get M (16 * i) _ (by decide : 1 < 16),
    oct16_get M (16 * i) _ (by decide : 2 < 16), oct16_get M (16 * i) _ (by decide : 3 < 16), oct16_get M (16 * i) _ (by decide : 4 < 16),
    oct16_get M (16 * i) _ (by decide : 5 < 16), oct16_get M (16 * i) _ (by decide : 6 < 16), oct16_get M (16 * i) _ (by decide : 7 < 16),
    oct16_get M (16 * i) _ (by decide : 8 < 16), oct16_get M (16 * i) _ (by decide : 9 < 16), oct16_get M (16 * i) _ (by decide : 10 < 16),
    oct16_get M (16 * i) _ (by decide : 11 < 16), oct16_get M (16 * i) _ (by decide : 12 < 16), oct16_get M (16 * i) _ (by decide : 13 < 16),
    oct16_get M (16 * i) _ (by decide : 14 < 16), oct16_get M (16 * i) _ (by decide : 15 < 16)]
  simp only [show 4 * (4 * i) = 16 * i by omega, show 4 * (4 * i + 1) = 16 * i + 4 by omega, show 4 * (4 * i + 2) = 16 * i + 8 by omega,
    show 4 * (4 * i + 3) = 16 * i + 12 by omega, Nat.add_assoc, Nat.reduceAdd, Nat.add_zero]

/-! ## SHA-1 on Arm -/

theorem sched1_rec (M : Nat → BitVec 32) (t : Nat) :
    sched1 M (t + 16) = (sched1 M (t + 13) ^^^ sched1 M (t + 8) ^^^ sched1 M (t + 2) ^^^ sched1 M t).rotateLeft 1 := by
  rw [sched1, if_neg (by omega)]
  rfl

theorem arm_su1 (M : Nat → BitVec 32) (i : Nat) :
    vsha1su1 (vsha1su0 (quad (sched1 M) i) (quad (sched1 M) (i + 1)) (quad (sched1 M) (i + 2))) (quad (sched1 M) (i + 3)) =
      quad (sched1 M) (i + 4) := by
  have e : ∀ k, quad (sched1 M) (i + k) = ⟨sched1 M (4 * i + 4 * k), sched1 M (4 * i + (4 * k + 1)), sched1 M (4 * i + (4 * k + 2)),
      sched1 M (4 * i + (4 * k + 3))⟩ := by
    intro k
    unfold quad
    rw [show 4 * (i + k) = 4 * i + 4 * k by omega]
    rfl
  rw [e 1, e 2, e 3, e 4]
  unfold quad vsha1su1 vsha1su0 Q.xor
  simp only [Nat.reduceMul, Nat.reduceAdd]
  have r0 := sched1_rec M (4 * i)
  have r1 := sched1_rec M (4 * i + 1)
  have r2 := sched1_rec M (4 * i + 2)
  have r3 := sched1_rec M (4 * i + 3)
  simp only [Nat.add_assoc, Nat.reduceAdd] at r0 r1 r2 r3
  rw [r3, r0, r1, r2]
  simp only [rol_xor _ _ 1 (by decide), rol_xor _ _ 2 (by decide), rol_rol, BitVec.xor_zero, Q.mk.injEq]
  refine ⟨?_, ?_, ?_, ?_⟩ <;> ac_rfl

/-- The working variables as the two registers of SHA1C. -/
def toX (v : V5) : Q × BitVec 32 := (⟨v.a, v.b, v.c, v.d⟩, v.e)

theorem arm_iter1 (W : Nat → BitVec 32) (v : V5) (t : Nat) :
    sha1Iter (f1 t) (toX (vars1 W v t)) (W t + K1 t) = toX (vars1 W v (t + 1)) := by
  rw [vars1]
  generalize vars1 W v t = u
  obtain ⟨a, b, c, d, e⟩ := u
  simp only [toX, sha1Iter]
  refine Prod.ext (Q.ext ?_ rfl rfl rfl) rfl
  show e + a.rotateLeft 5 + f1 t b c d + (W t + K1 t) = a.rotateLeft 5 + f1 t b c d + e + K1 t + W t
  ac_rfl

theorem arm_rounds1 (W : Nat → BitVec 32) (v : V5) (i : Nat) (f : BitVec 32 → BitVec 32 → BitVec 32 → BitVec 32) (K : BitVec 32)
    (hf : ∀ k < 4, f1 (4 * i + k) = f) (hK : ∀ k < 4, K1 (4 * i + k) = K) :
    sha1Hash f (toX (vars1 W v (4 * i))).1 (toX (vars1 W v (4 * i))).2 ((quad W i).add (dup32 K)) = (toX (vars1 W v (4 * (i + 1)))).1 := by
  have h0 := arm_iter1 W v (4 * i)
  have h1 := arm_iter1 W v (4 * i + 1)
  have h2 := arm_iter1 W v (4 * i + 2)
  have h3 := arm_iter1 W v (4 * i + 3)
  have f0 := hf 0 (by decide)
  have K0 := hK 0 (by decide)
  rw [Nat.add_zero] at f0 K0
  rw [f0, K0] at h0
  rw [hf 1 (by decide), hK 1 (by decide)] at h1
  rw [hf 2 (by decide), hK 2 (by decide)] at h2
  rw [hf 3 (by decide), hK 3 (by decide)] at h3
  unfold sha1Hash
  show (sha1Iter f (sha1Iter f (sha1Iter f (sha1Iter f (toX (vars1 W v (4 * i))) (W (4 * i) + K)) (W (4 * i + 1) + K)) (W (4 * i + 2) + K))
    (W (4 * i + 3) + K)).1 = _
  rw [h0, h1, h2, h3]
  rfl

theorem e_four (W : Nat → BitVec 32) (v : V5) (t : Nat) : (vars1 W v (t + 4)).e = (vars1 W v t).a.rotateLeft 30 := rfl

/-- The functions and constants do not change within four steps. -/
theorem f1_quad (i k : Nat) (h : k < 4) : f1 (4 * i + k) = if i < 5 then Spec.Sha.Ch else if i < 10 then Parity else if i < 15 then Maj else Parity := by
  unfold f1
  by_cases h5 : i < 5
  · rw [if_pos h5, if_pos (by omega)]
  · rw [if_neg h5, if_neg (by omega)]
    by_cases h10 : i < 10
    · rw [if_pos h10, if_pos (by omega)]
    · rw [if_neg h10, if_neg (by omega)]
      by_cases h15 : i < 15
      · rw [if_pos h15, if_pos (by omega)]
      · rw [if_neg h15, if_neg (by omega)]

theorem K1_quad (i k : Nat) (h : k < 4) : K1 (4 * i + k) =
    if i < 5 then 0x5a827999 else if i < 10 then 0x6ed9eba1 else if i < 15 then 0x8f1bbcdc else 0xca62c1d6 := by
  unfold K1
  by_cases h5 : i < 5
  · rw [if_pos h5, if_pos (by omega)]
  · rw [if_neg h5, if_neg (by omega)]
    by_cases h10 : i < 10
    · rw [if_pos h10, if_pos (by omega)]
    · rw [if_neg h10, if_neg (by omega)]
      by_cases h15 : i < 15
      · rw [if_pos h15, if_pos (by omega)]
      · rw [if_neg h15, if_neg (by omega)]

/-- The array of `m` vectors holds `G lo .. G (lo + 3)`. -/
def RingQ (w : List Q) (G : Nat → Q) (lo : Nat) : Prop := w.length = 4 ∧ ∀ i, lo ≤ i → i < lo + 4 → atq w (i % 4) = G i

theorem ringQ_init (G : Nat → Q) (f : Nat → Q) (h : ∀ i < 4, f i = G i) : RingQ ((List.range 4).map f) G 0 := by
  refine ⟨by simp, fun i _ hi => ?_⟩
  rw [← h i (by omega), Nat.mod_eq_of_lt (by omega), atq, List.getD_eq_getElem _ _ (by simp; omega)]
  simp

theorem RingQ.step {w : List Q} {G : Nat → Q} {lo : Nat} (h : RingQ w G lo) (x : Q) (hx : x = G (lo + 4)) :
    RingQ (w.set (lo % 4) x) G (lo + 1) := by
  obtain ⟨hl, h⟩ := h
  refine ⟨by simpa using hl, fun i h1 h2 => ?_⟩
  by_cases he : i = lo + 4
  · subst he
    rw [Nat.add_mod_right, atq_set_eq _ (by omega), hx]
  · rw [atq_set_ne _ (by omega), h i (by omega) (by omega)]

theorem arm1_loop (v : V5) (M : Nat → BitVec 32) (w0 : List Q) (h0 : RingQ w0 (quad (sched1 M)) 0) (n : Nat) (hn : n ≤ 20) :
    let s := (List.range n).foldl armSha1Step ⟨w0, ⟨v.a, v.b, v.c, v.d⟩, v.e⟩
    (s.abcd, s.e) = toX (vars1 (sched1 M) v (4 * n)) ∧ RingQ s.w (quad (sched1 M)) n := by
  induction n with
  | zero => exact ⟨rfl, h0⟩
  | succ i ih =>
    obtain ⟨iv, ir⟩ := ih (by omega)
    simp only [List.range_succ, List.foldl_append, List.foldl_cons, List.foldl_nil]
    generalize (List.range i).foldl armSha1Step ⟨w0, ⟨v.a, v.b, v.c, v.d⟩, v.e⟩ = s at iv ir ⊢
    have ha : s.abcd = (toX (vars1 (sched1 M) v (4 * i))).1 := by rw [← iv]
    have he : s.e = (toX (vars1 (sched1 M) v (4 * i))).2 := by rw [← iv]
    have w0 := ir.2 i (by omega) (by omega)
    have w1 := ir.2 (i + 1) (by omega) (by omega)
    have w2 := ir.2 (i + 2) (by omega) (by omega)
    have w3 := ir.2 (i + 3) (by omega) (by omega)
    have hl := ir.1
    constructor
    · refine Prod.ext ?_ ?_
      · simp only [armSha1Step]
        rw [w0, ha, he]
        have hr := fun f K hf hK => arm_rounds1 (sched1 M) v i f K hf hK
        by_cases h5 : i < 5
        · rw [if_pos ⟨by omega, h5⟩]
          exact hr _ _ (fun k hk => by rw [f1_quad i k hk, if_pos h5]; rfl) (fun k hk => by rw [K1_quad i k hk, if_pos h5])
        · rw [if_neg (by omega)]
          by_cases h10 : i < 10
          · rw [if_pos ⟨by omega, h10⟩]
            exact hr _ _ (fun k hk => by rw [f1_quad i k hk, if_neg h5, if_pos h10]; rfl)
              (fun k hk => by rw [K1_quad i k hk, if_neg h5, if_pos h10])
          · rw [if_neg (by omega)]
            by_cases h15 : i < 15
            · rw [if_pos ⟨by omega, h15⟩]
              exact hr _ _ (fun k hk => by rw [f1_quad i k hk, if_neg h5, if_neg h10, if_pos h15]; rfl)
                (fun k hk => by rw [K1_quad i k hk, if_neg h5, if_neg h10, if_pos h15])
            · rw [if_neg (by omega), if_pos ⟨by omega, by omega⟩]
              exact hr _ _ (fun k hk => by rw [f1_quad i k hk, if_neg h5, if_neg h10, if_neg h15]; rfl)
                (fun k hk => by rw [K1_quad i k hk, if_neg h5, if_neg h10, if_neg h15])
      · simp only [armSha1Step]
        rw [ha]
        exact (e_four _ _ _).symm
    · simp only [armSha1Step]
      rw [List.set_set, atq_set_eq _ (by omega), atq_set_ne _ (by omega), w0, w1, w2, w3]
      exact ir.step _ (arm_su1 M i)

theorem quad_word1 (M : List (BitVec 8)) (i : Nat) (h : i < 4) : quad (word 4 M) i = quad (sched1 (word 4 M)) i := by
  unfold quad
  have e : ∀ t < 16, sched1 (word 4 M) t = word 4 M t := fun t ht => by rw [sched1, if_pos ht]
  rw [e _ (by omega), e _ (by omega), e _ (by omega), e _ (by omega)]

theorem armSha1_eq (H : List (BitVec 32)) (M : List (BitVec 8)) : armSha1 H M = comp1 H M := by
  have h0 : RingQ ((List.range 4).map (armLoad M)) (quad (sched1 (word 4 M))) 0 := ringQ_init _ _ fun i hi => by
    rw [armLoad_eq, quad_word1 _ _ hi]
  have h := (arm1_loop ⟨at_ H 0, at_ H 1, at_ H 2, at_ H 3, at_ H 4⟩ _ _ h0 20 le_rfl).1
  simp only [Nat.reduceMul] at h
  unfold armSha1 comp1
  simp only
  change (_, _) = toX (vars1 (sched1 (word 4 M)) ⟨H.getD 0 0, H.getD 1 0, H.getD 2 0, H.getD 3 0, H.getD 4 0⟩ 80) at h
  generalize vars1 (sched1 (word 4 M)) ⟨H.getD 0 0, H.getD 1 0, H.getD 2 0, H.getD 3 0, H.getD 4 0⟩ 80 = u at h ⊢
  generalize (List.range 20).foldl armSha1Step _ = s at h ⊢
  unfold toX at h
  injection h with h1 h2
  rw [h1, h2]
  simp only [at_, BitVec.add_comm]

end Fips180
