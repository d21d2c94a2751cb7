import Verif.Lemmas.ShaNi

/-!
# The accelerated SHA functions, continued: SHA-256 and SHA-512 on Arm, SHA-1 and SHA-256 on x86
-/

namespace Fips180
open Spec.Sha Spec.Isa

/-! ## SHA-256 on Arm -/

theorem sched2_rec {n : Nat} (F : Fn n) (M : Nat → BitVec n) (t : Nat) :
    sched2 F M (t + 16) = F.s1 (sched2 F M (t + 14)) + sched2 F M (t + 9) + F.s0 (sched2 F M (t + 1)) + sched2 F M t := by
  rw [sched2, if_neg (by omega)]
  rfl

theorem quad_add (F : Nat → BitVec 32) (i k : Nat) : quad F (i + k) = ⟨F (4 * i + 4 * k), F (4 * i + (4 * k + 1)), F (4 * i + (4 * k + 2)),
    F (4 * i + (4 * k + 3))⟩ := by
  unfold quad
  rw [show 4 * (i + k) = 4 * i + 4 * k by omega]
  rfl

theorem s0_eq (x : BitVec 32) : Spec.Isa.s0 x = fn256.s0 x := rfl
theorem s1_eq (x : BitVec 32) : Spec.Isa.s1 x = fn256.s1 x := rfl

theorem arm_su2 (M : Nat → BitVec 32) (i : Nat) :
    vsha256su1 (vsha256su0 (quad (sched2 fn256 M) i) (quad (sched2 fn256 M) (i + 1))) (quad (sched2 fn256 M) (i + 2))
      (quad (sched2 fn256 M) (i + 3)) = quad (sched2 fn256 M) (i + 4) := by
  rw [quad_add _ i 1, quad_add _ i 2, quad_add _ i 3, quad_add _ i 4]
  unfold quad vsha256su1 vsha256su0
  simp only [Nat.reduceMul, Nat.reduceAdd, s0_eq, s1_eq]
  have r0 := sched2_rec fn256 M (4 * i)
  have r1 := sched2_rec fn256 M (4 * i + 1)
  have r2 := sched2_rec fn256 M (4 * i + 2)
  have r3 := sched2_rec fn256 M (4 * i + 3)
  simp only [Nat.add_assoc, Nat.reduceAdd] at r0 r1 r2 r3
  generalize sched2 fn256 M = F at *
  have e0 : fn256.s1 (F (4 * i + 14)) + (fn256.s0 (F (4 * i + 1)) + F (4 * i)) + F (4 * i + 9) = F (4 * i + 16) := by rw [r0]; ac_rfl
  have e1 : fn256.s1 (F (4 * i + 15)) + (fn256.s0 (F (4 * i + 2)) + F (4 * i + 1)) + F (4 * i + 10) = F (4 * i + 17) := by rw [r1]; ac_rfl
  rw [e0, e1, r2, r3]
  refine Q.ext rfl rfl ?_ ?_ <;> simp only <;> ac_rfl

/-- The working variables as the two registers of SHA256H. -/
def toXY (v : V8 32) : Q × Q := (⟨v.a, v.b, v.c, v.d⟩, ⟨v.e, v.f, v.g, v.h⟩)

theorem arm_iter2 (W : Nat → BitVec 32) (v : V8 32) (t : Nat) (ht : t < 64) :
    sha256Iter (toXY (vars2 fn256 W v t)) (W t + at_ kSha256 t) = toXY (vars2 fn256 W v (t + 1)) := by
  rw [vars2, k256 t ht]
  generalize vars2 fn256 W v t = u
  generalize cbrtFrac 32 (prime t) = K
  obtain ⟨a, b, c, d, e, f, g, h⟩ := u
  simp only [toXY, sha256Iter]
  refine Prod.ext (Q.ext ?_ rfl rfl rfl) (Q.ext ?_ rfl rfl rfl)
  · show h + fn256.S1 e + Ch e f g + (W t + K) + fn256.S0 a + Maj a b c = h + fn256.S1 e + Ch e f g + K + W t + (fn256.S0 a + Maj a b c)
    ac_rfl
  · show h + fn256.S1 e + Ch e f g + (W t + K) + d = d + (h + fn256.S1 e + Ch e f g + K + W t)
    ac_rfl

theorem arm_rounds2 (W : Nat → BitVec 32) (v : V8 32) (i : Nat) (hi : i < 16) :
    sha256Hash (toXY (vars2 fn256 W v (4 * i))).1 (toXY (vars2 fn256 W v (4 * i))).2 ((quad W i).add (k4 i)) =
      toXY (vars2 fn256 W v (4 * (i + 1))) := by
  unfold sha256Hash
  show sha256Iter (sha256Iter (sha256Iter (sha256Iter (toXY (vars2 fn256 W v (4 * i))) (W (4 * i) + at_ kSha256 (4 * i)))
    (W (4 * i + 1) + at_ kSha256 (4 * i + 1))) (W (4 * i + 2) + at_ kSha256 (4 * i + 2))) (W (4 * i + 3) + at_ kSha256 (4 * i + 3)) = _
  rw [arm_iter2 _ _ _ (by omega), arm_iter2 _ _ _ (by omega), arm_iter2 _ _ _ (by omega), arm_iter2 _ _ _ (by omega)]
  rfl

theorem arm2_loop (v : V8 32) (M : Nat → BitVec 32) (w0 : List Q) (h0 : RingQ w0 (quad (sched2 fn256 M)) 0) (n : Nat) (hn : n ≤ 16) :
    let s := (List.range n).foldl armSha256Step ⟨w0, ⟨v.a, v.b, v.c, v.d⟩, ⟨v.e, v.f, v.g, v.h⟩⟩
    (s.abcd, s.efgh) = toXY (vars2 fn256 (sched2 fn256 M) v (4 * n)) ∧ RingQ s.w (quad (sched2 fn256 M)) n := by
  induction n with
  | zero => exact ⟨rfl, h0⟩
  | succ i ih =>
    obtain ⟨iv, ir⟩ := ih (by omega)
    simp only [List.range_succ, List.foldl_append, List.foldl_cons, List.foldl_nil]
    generalize (List.range i).foldl armSha256Step ⟨w0, ⟨v.a, v.b, v.c, v.d⟩, ⟨v.e, v.f, v.g, v.h⟩⟩ = s at iv ir ⊢
    have ha : s.abcd = (toXY (vars2 fn256 (sched2 fn256 M) v (4 * i))).1 := by rw [← iv]
    have he : s.efgh = (toXY (vars2 fn256 (sched2 fn256 M) v (4 * i))).2 := by rw [← iv]
    have w0 := ir.2 i (by omega) (by omega)
    have w1 := ir.2 (i + 1) (by omega) (by omega)
    have w2 := ir.2 (i + 2) (by omega) (by omega)
    have w3 := ir.2 (i + 3) (by omega) (by omega)
    have hl := ir.1
    constructor
    · simp only [armSha256Step, vsha256h, vsha256h2]
      rw [w0, ha, he, arm_rounds2 _ _ _ (by omega)]
    · simp only [armSha256Step]
      rw [List.set_set, atq_set_eq _ (by omega), atq_set_ne _ (by omega), atq_set_ne _ (by omega), w0, w1, w2, w3]
      exact ir.step _ (arm_su2 M i)

theorem quad_word2 (M : List (BitVec 8)) (i : Nat) (h : i < 4) : quad (word 4 M) i = quad (sched2 fn256 (word 4 M)) i := by
  unfold quad
  have e : ∀ t < 16, sched2 fn256 (word 4 M) t = word 4 M t := fun t ht => by rw [sched2, if_pos ht]
  rw [e _ (by omega), e _ (by omega), e _ (by omega), e _ (by omega)]

theorem armSha256_eq (H : List (BitVec 32)) (M : List (BitVec 8)) : armSha256 H M = comp256 H M := by
  have h0 : RingQ ((List.range 4).map (armLoad M)) (quad (sched2 fn256 (word 4 M))) 0 := ringQ_init _ _ fun i hi => by
    rw [armLoad_eq, quad_word2 _ _ hi]
  have h := (arm2_loop (V8.of H) _ _ h0 16 le_rfl).1
  simp only [Nat.reduceMul] at h
  unfold armSha256 comp256
  simp only
  change (_, _) = toXY (vars2 fn256 (sched2 fn256 (word 4 M)) (V8.of H) fn256.rounds) at h
  generalize vars2 fn256 (sched2 fn256 (word 4 M)) (V8.of H) fn256.rounds = u at h ⊢
  change ((List.foldl armSha256Step ⟨(List.range 4).map (armLoad M), ⟨at_ H 0, at_ H 1, at_ H 2, at_ H 3⟩, ⟨at_ H 4, at_ H 5, at_ H 6, at_ H 7⟩⟩
    (List.range 16)).abcd, (List.foldl armSha256Step ⟨(List.range 4).map (armLoad M), ⟨at_ H 0, at_ H 1, at_ H 2, at_ H 3⟩,
    ⟨at_ H 4, at_ H 5, at_ H 6, at_ H 7⟩⟩ (List.range 16)).efgh) = _ at h
  generalize (List.range 16).foldl armSha256Step _ = s at h ⊢
  unfold toXY at h
  injection h with h1 h2
  rw [h1, h2]
  simp only [at_, V8.with, BitVec.add_comm]

/-! ## SHA-512 on Arm -/

theorem pair_add (F : Nat → BitVec 64) (i k : Nat) : pair F (i + k) = ⟨F (2 * i + 2 * k), F (2 * i + (2 * k + 1))⟩ := by
  unfold pair
  rw [show 2 * (i + k) = 2 * i + 2 * k by omega]
  rfl

theorem s0w_eq (x : BitVec 64) : s0w x = fn512.s0 x := rfl
theorem s1w_eq (x : BitVec 64) : s1w x = fn512.s1 x := rfl

theorem arm_su5 (M : Nat → BitVec 64) (i : Nat) :
    vsha512su1 (vsha512su0 (pair (sched2 fn512 M) i) (pair (sched2 fn512 M) (i + 1))) (pair (sched2 fn512 M) (i + 7))
      (vext64 (pair (sched2 fn512 M) (i + 4)) (pair (sched2 fn512 M) (i + 5))) = pair (sched2 fn512 M) (i + 8) := by
  rw [pair_add _ i 1, pair_add _ i 4, pair_add _ i 5, pair_add _ i 7, pair_add _ i 8]
  unfold pair vsha512su1 vsha512su0 vext64
  simp only [Nat.reduceMul, Nat.reduceAdd, s0w_eq, s1w_eq]
  have r0 := sched2_rec fn512 M (2 * i)
  have r1 := sched2_rec fn512 M (2 * i + 1)
  simp only [Nat.add_assoc, Nat.reduceAdd] at r0 r1
  generalize sched2 fn512 M = F at *
  rw [r0, r1]
  refine D.ext ?_ ?_ <;> simp only <;> ac_rfl

/-- The array of eight vectors holds `G lo .. G (lo + 7)`. -/
def RingD (w : List D) (G : Nat → D) (lo : Nat) : Prop := w.length = 8 ∧ ∀ i, lo ≤ i → i < lo + 8 → atd w (i % 8) = G i

theorem ringD_init (G : Nat → D) (f : Nat → D) (h : ∀ i < 8, f i = G i) : RingD ((List.range 8).map f) G 0 := by
  refine ⟨by simp, fun i _ hi => ?_⟩
  rw [← h i (by omega), Nat.mod_eq_of_lt (by omega), atd, List.getD_eq_getElem _ _ (by simp; omega)]
  simp

theorem RingD.step {w : List D} {G : Nat → D} {lo : Nat} (h : RingD w G lo) (x : D) (hx : x = G (lo + 8)) :
    RingD (w.set (lo % 8) x) G (lo + 1) := by
  obtain ⟨hl, h⟩ := h
  refine ⟨by simpa using hl, fun i h1 h2 => ?_⟩
  by_cases he : i = lo + 8
  · subst he
    rw [Nat.add_mod_right, atd_set_eq _ (by omega), hx]
  · rw [atd_set_ne _ (by omega), h i (by omega) (by omega)]

theorem maj_rev {n : Nat} (a b c : BitVec n) : majority c b a = Maj a b c := by
  unfold majority Maj
  ac_rfl

theorem maj_swap {n : Nat} (a b c : BitVec n) : majority a b c = Maj a b c := rfl

theorem vars2_step {n : Nat} (F : Fn n) (W : Nat → BitVec n) (v : V8 n) (t : Nat) : vars2 F W v (t + 1) =
    ⟨(vars2 F W v t).h + F.S1 (vars2 F W v t).e + Ch (vars2 F W v t).e (vars2 F W v t).f (vars2 F W v t).g + cbrtFrac n (prime t) + W t +
      (F.S0 (vars2 F W v t).a + Maj (vars2 F W v t).a (vars2 F W v t).b (vars2 F W v t).c),
     (vars2 F W v t).a, (vars2 F W v t).b, (vars2 F W v t).c,
     (vars2 F W v t).d + ((vars2 F W v t).h + F.S1 (vars2 F W v t).e + Ch (vars2 F W v t).e (vars2 F W v t).f (vars2 F W v t).g +
      cbrtFrac n (prime t) + W t), (vars2 F W v t).e, (vars2 F W v t).f, (vars2 F W v t).g⟩ := rfl

/-- The vector code for two steps, on the eight variables. -/
theorem arm_rounds5 (a b c d e f g h K0 K1 w0 w1 : BitVec 64) :
    let gh : D := ⟨g, h⟩
    let ef : D := ⟨e, f⟩
    let cd : D := ⟨c, d⟩
    let ab : D := ⟨a, b⟩
    let save := vsha512h ((vext64 ((D.mk w0 w1).add ⟨K0, K1⟩) ((D.mk w0 w1).add ⟨K0, K1⟩)).add gh) (vext64 ef gh) (vext64 cd ef)
    let T0 := h + fn512.S1 e + Ch e f g + K0 + w0
    let e' := d + T0
    let a' := T0 + (fn512.S0 a + Maj a b c)
    let T1 := g + fn512.S1 e' + Ch e' e f + K1 + w1
    save = ⟨T1, T0⟩ ∧ vsha512h2 save cd ab = ⟨T1 + (fn512.S0 a' + Maj a' a b), a'⟩ ∧ cd.add save = ⟨c + T1, e'⟩ := by
  intro gh ef cd ab save T0 e' a' T1
  have hs : save = ⟨T1, T0⟩ := by
    have ht : choose e f g + S1w e + (w0 + K0 + h) = T0 := by
      show Ch e f g + fn512.S1 e + (w0 + K0 + h) = h + fn512.S1 e + Ch e f g + K0 + w0
      ac_rfl
    show (⟨choose (choose e f g + S1w e + (w0 + K0 + h) + d) e f + S1w (choose e f g + S1w e + (w0 + K0 + h) + d) + (w1 + K1 + g),
      choose e f g + S1w e + (w0 + K0 + h)⟩ : D) = _
    rw [ht, show T0 + d = e' from BitVec.add_comm _ _]
    refine D.ext ?_ rfl
    show Ch e' e f + fn512.S1 e' + (w1 + K1 + g) = g + fn512.S1 e' + Ch e' e f + K1 + w1
    ac_rfl
  refine ⟨hs, ?_, ?_⟩
  · rw [hs]
    have ht : majority c b a + S0w a + T0 = a' := by
      rw [maj_rev]
      show Maj a b c + fn512.S0 a + T0 = T0 + (fn512.S0 a + Maj a b c)
      ac_rfl
    show (⟨majority (majority c b a + S0w a + T0) a b + S0w (majority c b a + S0w a + T0) + T1, majority c b a + S0w a + T0⟩ : D) = _
    rw [ht]
    refine D.ext ?_ rfl
    show Maj a' a b + fn512.S0 a' + T1 = T1 + (fn512.S0 a' + Maj a' a b)
    ac_rfl
  · rw [hs]
    rfl

/-- The working variables as pairs. -/
def Is5 (s : A5) (v : V8 64) : Prop := s.ab = ⟨v.a, v.b⟩ ∧ s.cd = ⟨v.c, v.d⟩ ∧ s.ef = ⟨v.e, v.f⟩ ∧ s.gh = ⟨v.g, v.h⟩

theorem arm5_loop (v : V8 64) (M : Nat → BitVec 64) (w0 : List D) (h0 : RingD w0 (pair (sched2 fn512 M)) 0) (n : Nat) (hn : n ≤ 40) :
    let s := (List.range n).foldl armSha512Step ⟨w0, ⟨v.a, v.b⟩, ⟨v.c, v.d⟩, ⟨v.e, v.f⟩, ⟨v.g, v.h⟩⟩
    Is5 s (vars2 fn512 (sched2 fn512 M) v (2 * n)) ∧ RingD s.w (pair (sched2 fn512 M)) n := by
  induction n with
  | zero => exact ⟨⟨rfl, rfl, rfl, rfl⟩, h0⟩
  | succ i ih =>
    obtain ⟨⟨ia, ic, ie, ig⟩, ir⟩ := ih (by omega)
    simp only [List.range_succ, List.foldl_append, List.foldl_cons, List.foldl_nil]
    generalize (List.range i).foldl armSha512Step ⟨w0, ⟨v.a, v.b⟩, ⟨v.c, v.d⟩, ⟨v.e, v.f⟩, ⟨v.g, v.h⟩⟩ = s at ia ic ie ig ir ⊢
    have w0 := ir.2 i (by omega) (by omega)
    have w1 := ir.2 (i + 1) (by omega) (by omega)
    have w4 := ir.2 (i + 4) (by omega) (by omega)
    have w5 := ir.2 (i + 5) (by omega) (by omega)
    have w7 := ir.2 (i + 7) (by omega) (by omega)
    have hl := ir.1
    constructor
    · have k0 := k512 (2 * i) (by omega)
      have k1 := k512 (2 * i + 1) (by omega)
      rw [show 2 * (i + 1) = 2 * i + 1 + 1 by omega]
      unfold Is5
      simp only [armSha512Step]
      rw [w0, ia, ic, ie, ig, k0, k1]
      unfold pair
      have hr := arm_rounds5 (vars2 fn512 (sched2 fn512 M) v (2 * i)).a (vars2 fn512 (sched2 fn512 M) v (2 * i)).b
        (vars2 fn512 (sched2 fn512 M) v (2 * i)).c (vars2 fn512 (sched2 fn512 M) v (2 * i)).d (vars2 fn512 (sched2 fn512 M) v (2 * i)).e
        (vars2 fn512 (sched2 fn512 M) v (2 * i)).f (vars2 fn512 (sched2 fn512 M) v (2 * i)).g (vars2 fn512 (sched2 fn512 M) v (2 * i)).h
        (cbrtFrac 64 (prime (2 * i))) (cbrtFrac 64 (prime (2 * i + 1))) (sched2 fn512 M (2 * i)) (sched2 fn512 M (2 * i + 1))
      obtain ⟨_, h2, h3⟩ := hr
      exact ⟨h2, rfl, h3, rfl⟩
    · simp only [armSha512Step]
      rw [List.set_set, atd_set_eq _ (by omega), atd_set_ne _ (by omega), w0, w1, w4, w5, w7]
      exact ir.step _ (arm_su5 M i)

theorem arm_load5 (M : List (BitVec 8)) (i : Nat) (h : i < 8) :
    d64 (rev64 (oct16 M (16 * i))) = pair (sched2 fn512 (word 8 M)) i := by
  have e : ∀ t < 16, sched2 fn512 (word 8 M) t = word 8 M t := fun t ht => by rw [sched2, if_pos ht]
  unfold pair
  rw [e _ (by omega), e _ (by omega), ← ld64_eq, ← ld64_eq]
  unfold d64 rev64 Endian.ld64 Endian.ld32
  simp only [List.map_cons, List.map_nil, oct16_get M (16 * i) _ (by decide : (0:Nat) < 16)]
  simp only [List.getD_cons_zero, List.getD_cons_succ, Nat.reduceMul, Nat.reduceAdd, List.getD_cons_succ, oct16_get M (16 * i) _ (by decide : 1 < 16),
    oct16_get M (16 * i) _ (by decide : 2 < 16), oct16_get M (16 * i) _ (by decide : 3 < 16), oct16_get M (16 * i) _ (by decide : 4 < 16),
    oct16_get M (16 * i) _ (by decide : 5 < 16), oct16_get M (16 * i) _ (by decide : 6 < 16), oct16_get M (16 * i) _ (by decide : 7 < 16),
    oct16_get M (16 * i) _ (by decide : 8 < 16), oct16_get M (16 * i) _ (by decide : 9 < 16), oct16_get M (16 * i) _ (by decide : 10 < 16),
    oct16_get M (16 * i) _ (by decide : 11 < 16), oct16_get M (16 * i) _ (by decide : 12 < 16), oct16_get M (16 * i) _ (by decide : 13 < 16),
    oct16_get M (16 * i) _ (by decide : 14 < 16), oct16_get M (16 * i) _ (by decide : 15 < 16)]
  simp only [show 4 * (2 * (2 * i)) = 16 * i by omega, show 4 * (2 * (2 * i) + 1) = 16 * i + 4 by omega,
    show 4 * (2 * (2 * i + 1)) = 16 * i + 8 by omega, show 4 * (2 * (2 * i + 1) + 1) = 16 * i + 12 by omega, Nat.add_assoc, Nat.reduceAdd,
    Nat.add_zero]
  refine D.ext ?_ ?_ <;>
  · apply BitVec.eq_of_toNat_eq
    simp only
    iterate 14 rw [toNat_app]
    omega

theorem armSha512_eq (H : List (BitVec 64)) (M : List (BitVec 8)) : armSha512 H M = comp512 H M := by
  have h0 : RingD ((List.range 8).map fun i => d64 (rev64 (oct16 M (16 * i)))) (pair (sched2 fn512 (word 8 M))) 0 :=
    ringD_init _ _ fun i hi => arm_load5 M i hi
  have h := (arm5_loop (V8.of H) _ _ h0 40 le_rfl).1
  unfold armSha512 comp512
  simp only
  change Is5 (List.foldl armSha512Step ⟨(List.range 8).map fun i => d64 (rev64 (oct16 M (16 * i))), ⟨at_ H 0, at_ H 1⟩, ⟨at_ H 2, at_ H 3⟩,
    ⟨at_ H 4, at_ H 5⟩, ⟨at_ H 6, at_ H 7⟩⟩ (List.range 40)) (vars2 fn512 (sched2 fn512 (word 8 M)) (V8.of H) fn512.rounds) at h
  generalize vars2 fn512 (sched2 fn512 (word 8 M)) (V8.of H) fn512.rounds = u at h ⊢
  generalize (List.range 40).foldl armSha512Step _ = s at h ⊢
  obtain ⟨h1, h2, h3, h4⟩ := h
  rw [h1, h2, h3, h4]
  simp only [at_, V8.with, BitVec.add_comm]

end Fips180
