import Verif.Lemmas.Ecdsa
import Verif.Props.Ecc

/-!
# ECDSA: C52 (verification), C53 (signing)

`EcdsaValid` is the standard's condition on a signature; `ecdsaPoint` the point it computes.  The digest number is that
of the first `min plen hlen` octets of the hash.
-/

namespace Props
open Vlong Ec Ecc Spec EcParam

section
variable {C : Curve} {c p : Nat} [hp : Fact p.Prime] {a b : ZMod p} (hC : EccCurve C c p a b)
include hC

/-- C52: verification of a decoded signature (status 0): accepted exactly if both numbers are in `1..n-1` and the point of the
standard is affine with `x`-coordinate equal to `r`; the status records the outcome; key and signature stay. -/
theorem C52_verify (H : Pkcs1.Hash) (x : Ctx) (msg : List Byte) (hst : x.status ≠ 1 ∧ x.status ≠ -1) {G Q : (shortW a b).Point}
    (hG : Denotes c C.G G) (hQ : Denotes2 c x.Q Q) (h0 : Q ≠ 0) (hr : x.r.length = c) (hs : x.s.length = c) :
    ((ecdsaVerify C c H x msg).2 = true ↔ 1 ≤ val x.r ∧ val x.r < val C.n ∧ 1 ≤ val x.s ∧ val x.s < val C.n ∧
      ∃ X Y h, ecdsaPoint (val C.n) G Q (beNat (H.digest msg (min C.plen H.hlen))) (val x.r) (val x.s) = .some X Y h ∧
        X.val = val x.r) ∧
    (ecdsaVerify C c H x msg).1.status = (if (ecdsaVerify C c H x msg).2 then 1 else -1) ∧
    (ecdsaVerify C c H x msg).1.r = x.r ∧ (ecdsaVerify C c H x msg).1.s = x.s ∧ (ecdsaVerify C c H x msg).1.Q = x.Q := by
  have hsl : min C.plen H.hlen = slen C H := by
    unfold slen; split <;> omega
  rw [hsl]
  unfold ecdsaVerify
  rw [if_neg hst.1, if_neg hst.2]
  exact hmpVerify_iff hC H { x with hmsg := msg, status := 2 } hG hQ h0 hr hs

/-- C52: whatever is accepted is valid by the standard. -/
theorem C52_accepted_valid (H : Pkcs1.Hash) (x : Ctx) (msg : List Byte) (hst : x.status ≠ 1 ∧ x.status ≠ -1) {G Q : (shortW a b).Point}
    (hG : Denotes c C.G G) (hQ : Denotes2 c x.Q Q) (h0 : Q ≠ 0) (hr : x.r.length = c) (hs : x.s.length = c)
    (h : (ecdsaVerify C c H x msg).2 = true) :
    EcdsaValid (val C.n) G Q (beNat (H.digest msg (min C.plen H.hlen))) (val x.r) (val x.s) := by
  obtain ⟨g1, g2, g3, g4, X, Y, hn, g5, g6⟩ := (C52_verify hC H x msg hst hG hQ h0 hr hs).1.mp h
  exact ⟨g1, g2, g3, g4, X, Y, hn, g5, by rw [g6, Nat.mod_eq_of_lt g2]⟩

/-- C52: what is valid by the standard is accepted if the `x`-coordinate of the point is below `n`. -/
theorem C52_valid_accepted (H : Pkcs1.Hash) (x : Ctx) (msg : List Byte) (hst : x.status ≠ 1 ∧ x.status ≠ -1) {G Q : (shortW a b).Point}
    (hG : Denotes c C.G G) (hQ : Denotes2 c x.Q Q) (h0 : Q ≠ 0) (hr : x.r.length = c) (hs : x.s.length = c)
    (h : EcdsaValid (val C.n) G Q (beNat (H.digest msg (min C.plen H.hlen))) (val x.r) (val x.s))
    (hx : ∀ X Y hn, ecdsaPoint (val C.n) G Q (beNat (H.digest msg (min C.plen H.hlen))) (val x.r) (val x.s) = .some X Y hn →
      X.val < val C.n) : (ecdsaVerify C c H x msg).2 = true := by
  obtain ⟨g1, g2, g3, g4, X, Y, hn, g5, g6⟩ := h
  refine (C52_verify hC H x msg hst hG hQ h0 hr hs).1.mpr ⟨g1, g2, g3, g4, X, Y, hn, g5, ?_⟩
  rwa [Nat.mod_eq_of_lt (hx X Y hn g5)] at g6

omit hC hp in
/-- C52: a context remembers the outcome: until another signature is decoded, every message is accepted after one was, and
none after one was not. -/
theorem C52_outcome_cached (H : Pkcs1.Hash) (x : Ctx) (msg : List Byte) :
    (x.status = 1 → ecdsaVerify C c H x msg = (x, true)) ∧ (x.status = -1 → ecdsaVerify C c H x msg = (x, false)) := by
  unfold ecdsaVerify
  constructor <;> intro h <;> simp [h]

omit hC hp in
/-- C52: verifying in increments is verifying the concatenation, from every state. -/
theorem C52_incremental (H : Pkcs1.Hash) (x : Ctx) (chunks : List (List Byte)) :
    ecdsaIncVerifyFinal C c H (chunks.foldl ecdsaUpdate (ecdsaIncInit x)) =
      ecdsaVerify C c H { x with status := 0 } chunks.flatten := by
  have key : ∀ (l : List (List Byte)) (y : Ctx), l.foldl ecdsaUpdate y = { y with hmsg := y.hmsg ++ l.flatten } := by
    intro l
    induction l with
    | nil => intro y; simp
    | cons m l ih => intro y; rw [List.foldl_cons, ih]; simp [ecdsaUpdate]
  rw [key]
  simp [ecdsaIncVerifyFinal, ecdsaVerify, ecdsaIncInit]

/-- C52: verifying a signature with components in range overwrites the private scalar of the context with `e/s mod n`. -/
theorem C52_verify_overwrites_private_key (H : Pkcs1.Hash) (x : Ctx) (msg : List Byte) (hst : x.status ≠ 1 ∧ x.status ≠ -1)
    (hs : x.s.length = c) (h1 : 1 ≤ val x.r) (h2 : val x.r < val C.n) (h3 : 1 ≤ val x.s) (h4 : val x.s < val C.n) :
    val (ecdsaVerify C c H x msg).1.d =
      ((beNat (H.digest msg (min C.plen H.hlen)) : ZMod (val C.n)) * (val x.s : ZMod (val C.n))⁻¹).val := by
  have hsl : min C.plen H.hlen = slen C H := by
    unfold slen; split <;> omega
  rw [hsl]
  have hc := nz_c hC
  obtain ⟨ew1, ew2, ew3, -⟩ := dig_val hC (H.digest msg (slen C H)) (by rw [digest_len]; exact slen_le C H)
  have rt := invN_rep hC (l := x.s) (x := (val x.s : ZMod (val C.n))) ⟨hs, by omega, rfl⟩
  have ht0 : invModN C c x.s ≠ [] := by
    intro h; have := rt.len; rw [h] at this; simp at this; omega
  obtain ⟨d1, d2, d3⟩ := mulN_spec hC (x := os2ip c (H.digest msg (slen C H))) (y := invModN C c x.s) (by rw [ew2]; omega) ht0
  rw [rt.res, ew2] at d3
  rw [← n_of_cast hC d2 d3]
  unfold ecdsaVerify hmpVerify
  rw [if_neg hst.1, if_neg hst.2]
  simp only [cmp0, val_one]
  rw [if_neg (by rw [not_not]; exact cmpRes_two.mpr h2), if_neg (by rw [not_not]; exact cmpRes_two.mpr h4),
    if_neg (fun h => absurd (cmpRes_one.mp h) (by omega)), if_neg (fun h => absurd (cmpRes_one.mp h) (by omega))]
  split
  · rfl
  · split <;> rfl

/-- A draw that leads to a signature in the standard's sense: the scalar is in range, the `x`-coordinate of its point is
not zero, and neither is `e + x d` modulo `n`. -/
def Usable (C : Curve) {p : Nat} [Fact p.Prime] {a b : ZMod p} (G : (shortW a b).Point) (e d k : Nat) : Prop :=
  (1 ≤ k ∧ k < val C.n) ∧ ∃ X Y h, k • G = .some X Y h ∧ X ≠ 0 ∧
    (e : ZMod (val C.n)) + (X.val : ZMod (val C.n)) * (d : ZMod (val C.n)) ≠ 0

theorem signLoop_spec (H : Pkcs1.Hash) (msg : List Byte) {G : (shortW a b).Point} (hG : Denotes c C.G G) {d : List W}
    (hd : d.length = c) {rng : Nat → List Byte} (hr : ∀ i, (rng i).length = C.plen) : ∀ fuel i,
    (∀ k R r s, signLoop C c H msg d rng fuel i = some (k, R, r, s) → ∃ j, i ≤ j ∧ j < i + fuel ∧
      (∀ l, i ≤ l → l < j → ¬ Usable C G (beNat (H.digest msg (slen C H))) (val d) (beNat (rng l))) ∧
      val k = beNat (rng j) ∧ k.length = c ∧ 1 ≤ val k ∧ val k < val C.n ∧ signAttempt C c H msg d k = some (R, r, s)) ∧
    (signLoop C c H msg d rng fuel i = none →
      ∀ l, i ≤ l → l < i + fuel → ¬ Usable C G (beNat (H.digest msg (slen C H))) (val d) (beNat (rng l))) := by
  intro fuel
  induction fuel with
  | zero => intro i; exact ⟨fun k R r s h => by simp [signLoop] at h, fun _ l h1 h2 => by omega⟩
  | succ f ih =>
    intro i
    have hv := os_val hC (rng i) (hr i)
    have hlen : (os2ip c (rng i)).length = c := (C06_os2ip _ _).1
    -- a rejected draw
    have rej : ¬ Usable C G (beNat (H.digest msg (slen C H))) (val d) (beNat (rng i)) →
        signLoop C c H msg d rng (f + 1) i = signLoop C c H msg d rng f (i + 1) →
        (∀ k R r s, signLoop C c H msg d rng (f + 1) i = some (k, R, r, s) → ∃ j, i ≤ j ∧ j < i + (f + 1) ∧
          (∀ l, i ≤ l → l < j → ¬ Usable C G (beNat (H.digest msg (slen C H))) (val d) (beNat (rng l))) ∧
          val k = beNat (rng j) ∧ k.length = c ∧ 1 ≤ val k ∧ val k < val C.n ∧ signAttempt C c H msg d k = some (R, r, s)) ∧
        (signLoop C c H msg d rng (f + 1) i = none →
          ∀ l, i ≤ l → l < i + (f + 1) → ¬ Usable C G (beNat (H.digest msg (slen C H))) (val d) (beNat (rng l))) := by
      intro hbad heq
      rw [heq]
      obtain ⟨g1, g2⟩ := ih (i + 1)
      constructor
      · intro k R r s h
        obtain ⟨j, j1, j2, j3, j4⟩ := g1 k R r s h
        refine ⟨j, by omega, by omega, fun l l1 l2 => ?_, j4⟩
        rcases Nat.eq_or_lt_of_le l1 with rfl | l1
        · exact hbad
        · exact j3 l l1 l2
      · intro h l l1 l2
        rcases Nat.eq_or_lt_of_le l1 with rfl | l1
        · exact hbad
        · exact g2 h l l1 (by omega)
    by_cases hs : scalarOk C (os2ip c (rng i)) = true
    · obtain ⟨s1, s2⟩ := (scalarOk_iff C _).mp hs
      obtain ⟨X, Y, hns, e1, e2, e3⟩ := signAttempt_spec hC H msg hG hd hlen s1 s2
      cases ha : signAttempt C c H msg d (os2ip c (rng i)) with
      | none =>
        refine rej ?_ (by
          rw [signLoop, candidate_eq hC, if_pos hs, ha])
        rintro ⟨-, X', Y', h', f1, f2, f3⟩
        rw [← hv, e1] at f1
        obtain ⟨rfl, -⟩ := WeierstrassCurve.Affine.Point.some.inj f1
        rcases e3 ha with h | h
        · exact f2 h
        · exact f3 h
      | some t =>
        obtain ⟨R', r', s'⟩ := t
        have heq : signLoop C c H msg d rng (f + 1) i = some (os2ip c (rng i), R', r', s') := by
          rw [signLoop, candidate_eq hC, if_pos hs, ha]
        rw [heq]
        refine ⟨?_, fun h => by simp at h⟩
        intro k R r s h
        simp only [Option.some.injEq, Prod.mk.injEq] at h
        obtain ⟨rfl, rfl, rfl, rfl⟩ := h
        exact ⟨i, le_rfl, by omega, fun l l1 l2 => by omega, hv, hlen, s1, s2, ha⟩
    · refine rej ?_ (by
        rw [signLoop, candidate_eq hC, if_neg hs])
      rintro ⟨h, -⟩
      rw [← hv] at h
      exact hs ((scalarOk_iff C _).mpr h)

/-- C53: signing uses a draw `k` in `1..n-1`, none of the earlier draws being usable; `r` is the `x`-coordinate of
`k G` as an integer (not reduced modulo `n`; `0` or `p` if the coordinate is zero), and `s = (e + r d)/k mod n`, not zero. -/
theorem C53_sign (H : Pkcs1.Hash) (x y : Ctx) (msg : List Byte) (hst : x.status ≠ 2) {rng : Nat → List Byte}
    (hr : ∀ i, (rng i).length = C.plen) (hd : x.d.length = c) {G : (shortW a b).Point} (hG : Denotes c C.G G) (fuel : Nat)
    (h : ecdsaSign C c H x msg rng fuel = some y) :
    ∃ j < fuel, ∃ X Y hn, beNat (rng j) • G = .some X Y hn ∧ 1 ≤ beNat (rng j) ∧ beNat (rng j) < val C.n ∧
      (∀ i < j, ¬ Usable C G (beNat (H.digest msg (min C.plen H.hlen))) (val x.d) (beNat (rng i))) ∧
      y.status = 1 ∧ y.d = x.d ∧ y.Q = x.Q ∧ y.r.length = c ∧ y.s.length = c ∧
      val y.r ≤ p ∧ (val y.r : ZMod p) = X ∧ (X ≠ 0 → val y.r = X.val) ∧ 1 ≤ val y.s ∧ val y.s < val C.n ∧
      (val y.s : ZMod (val C.n)) = (beNat (rng j) : ZMod (val C.n))⁻¹ *
        ((beNat (H.digest msg (min C.plen H.hlen)) : ZMod (val C.n)) + (val y.r : ZMod (val C.n)) * (val x.d : ZMod (val C.n))) := by
  have hsl : min C.plen H.hlen = slen C H := by
    unfold slen; split <;> omega
  rw [hsl]
  unfold ecdsaSign at h
  rw [if_pos hst] at h
  unfold hmpSign at h
  obtain ⟨g1, -⟩ := signLoop_spec hC H msg hG hd hr fuel 0
  simp only at h
  split at h
  · simp at h
  · rename_i k R r s hl
    simp only [Option.some.injEq] at h
    subst h
    obtain ⟨j, -, j2, j3, j4, j5, j6, j7, j8⟩ := g1 k R r s hl
    obtain ⟨X, Y, hn, e1, e2, -⟩ := signAttempt_spec hC H msg hG hd j5 j6 j7
    obtain ⟨f1, f2, f3, f4, f5, f6, f7⟩ := e2 R r s j8
    refine ⟨j, by omega, X, Y, hn, by rw [← j4]; exact e1, by omega, by omega, fun i hi => j3 i (by omega) hi, rfl, rfl, rfl,
      f1, f2, f3, f4, fun hX => ?_, f5, f6, by rw [← j4]; exact f7⟩
    exact val_of_rep (c := c) (p := p) ⟨f1, by rw [one_mul]; exact f3, f4⟩ hX

/-- C53: signing goes on only as long as no draw is usable. -/
theorem C53_sign_none (H : Pkcs1.Hash) (x : Ctx) (msg : List Byte) (hst : x.status ≠ 2) {rng : Nat → List Byte}
    (hr : ∀ i, (rng i).length = C.plen) (hd : x.d.length = c) {G : (shortW a b).Point} (hG : Denotes c C.G G) (fuel : Nat)
    (h : ecdsaSign C c H x msg rng fuel = none) :
    ∀ i < fuel, ¬ Usable C G (beNat (H.digest msg (min C.plen H.hlen))) (val x.d) (beNat (rng i)) := by
  have hsl : min C.plen H.hlen = slen C H := by
    unfold slen; split <;> omega
  rw [hsl]
  unfold ecdsaSign at h
  rw [if_pos hst] at h
  unfold hmpSign at h
  obtain ⟨-, g2⟩ := signLoop_spec hC H msg hG hd hr fuel 0
  simp only at h
  split at h
  · rename_i hl
    exact fun i hi => g2 hl i (by omega) (by omega)
  · simp at h

/-- The point of the verification is that of the signing scalar. -/
theorem point_of_sign {G : (shortW a b).Point} (ho : addOrderOf G = val C.n) {e d k r s : Nat} (hk1 : 1 ≤ k) (hk2 : k < val C.n)
    (hs1 : 1 ≤ s) (hs2 : s < val C.n)
    (hs : (s : ZMod (val C.n)) = (k : ZMod (val C.n))⁻¹ * ((e : ZMod (val C.n)) + (r : ZMod (val C.n)) * (d : ZMod (val C.n)))) :
    ecdsaPoint (val C.n) G (d • G) e r s = k • G := by
  haveI : Fact (val C.n).Prime := ⟨hC.nprime⟩
  unfold ecdsaPoint
  rw [smul_smul, ← add_smul, ← ho, ← mod_addOrderOf_nsmul, ho]
  congr 1
  have hk0 : (k : ZMod (val C.n)) ≠ 0 := by
    rw [Ne, ZMod.natCast_eq_zero_iff]; intro h; exact absurd (Nat.le_of_dvd (by omega) h) (by omega)
  have hs0 : (s : ZMod (val C.n)) ≠ 0 := by
    rw [Ne, ZMod.natCast_eq_zero_iff]; intro h; exact absurd (Nat.le_of_dvd (by omega) h) (by omega)
  rw [← Nat.mod_eq_of_lt hk2, ← ZMod.natCast_eq_natCast_iff', Nat.cast_add, Nat.cast_mul, ZMod.natCast_zmod_val,
    ZMod.natCast_zmod_val]
  have : (e : ZMod (val C.n)) + r * d = k * s := by rw [hs]; field_simp
  field_simp
  linear_combination this

/-- C53: a signature is accepted by every party holding the public key `d G`, exactly if its `r` is from `1` to `n - 1`. -/
theorem C53_sign_verify (H : Pkcs1.Hash) (x y z : Ctx) (msg : List Byte) (hst : x.status ≠ 2) {rng : Nat → List Byte}
    (hr : ∀ i, (rng i).length = C.plen) (hd : x.d.length = c) (hd1 : 1 ≤ val x.d) (hd2 : val x.d < val C.n)
    {G : (shortW a b).Point} (hG : Denotes c C.G G) (fuel : Nat)
    (h : ecdsaSign C c H x msg rng fuel = some y) (hz : z.status ≠ 1 ∧ z.status ≠ -1)
    (hQ : Denotes2 c z.Q (val x.d • G)) (hzr : z.r = y.r) (hzs : z.s = y.s) :
    (ecdsaVerify C c H z msg).2 = true ↔ 1 ≤ val y.r ∧ val y.r < val C.n := by
  obtain ⟨j, -, X, Y, hn, e1, e2, e3, -, -, -, -, e4, e5, e6, e7, e8, e9, e10, e11⟩ := C53_sign hC H x y msg hst hr hd hG fuel h
  have ho := base_order hC hG
  have hv := (C52_verify hC H z msg hz hG hQ (smul_ne hC ho hd1 hd2) (by rw [hzr, e4]) (by rw [hzs, e5])).1
  rw [hzr, hzs, point_of_sign hC ho e2 e3 e9 e10 e11, e1] at hv
  rw [hv]
  constructor
  · rintro ⟨h1, h2, -⟩; exact ⟨h1, h2⟩
  · rintro ⟨h1, h2⟩
    refine ⟨h1, h2, e9, e10, X, Y, hn, rfl, (e8 ?_).symm⟩
    rintro rfl
    rw [ZMod.natCast_eq_zero_iff] at e7
    exact absurd (Nat.le_of_dvd (by omega) e7) (by have := hC.np; omega)

/-- C53: the signature is the standard's, but for the reduction of `r`: `(r mod n, s)` is valid if it has no zero
component and the coordinate is not zero. -/
theorem C53_sign_valid (H : Pkcs1.Hash) (x y : Ctx) (msg : List Byte) (hst : x.status ≠ 2) {rng : Nat → List Byte}
    (hr : ∀ i, (rng i).length = C.plen) (hd : x.d.length = c) {G : (shortW a b).Point} (hG : Denotes c C.G G) (fuel : Nat)
    (h : ecdsaSign C c H x msg rng fuel = some y) (h1 : 1 ≤ val y.r) (h2 : val y.r < p) (h3 : val y.r ≠ val C.n) :
    EcdsaValid (val C.n) G (val x.d • G) (beNat (H.digest msg (min C.plen H.hlen))) (val y.r % val C.n) (val y.s) := by
  obtain ⟨j, -, X, Y, hn, e1, e2, e3, -, -, -, -, e4, e5, e6, e7, e8, e9, e10, e11⟩ := C53_sign hC H x y msg hst hr hd hG fuel h
  have ho := base_order hC hG
  have hX : X ≠ 0 := by
    rintro rfl
    rw [ZMod.natCast_eq_zero_iff] at e7
    exact absurd (Nat.le_of_dvd (by omega) e7) (by omega)
  have hn2 : p ≤ 2 * val C.n := by have h1 := hC.plt; have h2 := hC.n2; omega
  refine ⟨?_, Nat.mod_lt _ hC.nprime.pos, e9, e10, X, Y, hn, ?_, by rw [← e8 hX]⟩
  · by_contra h0
    have hdvd : val C.n ∣ val y.r := Nat.dvd_of_mod_eq_zero (by omega)
    obtain ⟨t, ht⟩ := hdvd
    rcases t with _ | _ | t
    · omega
    · omega
    · have := Nat.mul_le_mul_left (val C.n) (show 2 ≤ t + 1 + 1 by omega)
      omega
  · rw [← e1]
    refine point_of_sign hC ho e2 e3 e9 e10 ?_
    rw [ZMod.natCast_mod]
    exact e11

omit hC hp in
/-- C53: signing in increments is signing the concatenation. -/
theorem C53_incremental (H : Pkcs1.Hash) (x : Ctx) (chunks : List (List Byte)) (rng : Nat → List Byte) (fuel : Nat) :
    ecdsaIncSignFinal C c H (chunks.foldl ecdsaUpdate (ecdsaIncInit x)) rng fuel =
      ecdsaSign C c H { x with status := 0 } chunks.flatten rng fuel := by
  have key : ∀ (l : List (List Byte)) (y : Ctx), l.foldl ecdsaUpdate y = { y with hmsg := y.hmsg ++ l.flatten } := by
    intro l
    induction l with
    | nil => intro y; simp
    | cons m l ih => intro y; rw [List.foldl_cons, ih]; simp [ecdsaUpdate]
  rw [key]
  simp [ecdsaIncSignFinal, ecdsaSign, ecdsaIncInit]

end

/-- A point of secp256r1 whose `x`-coordinate is `n + 3`. -/
theorem bigpoint : ∃ hns : (shortW (-3 : ZMod q256) ((b256 : Nat) : ZMod q256)).Nonsingular
      ((115792089210356248762697446949407573529996955224135760342422259061068512044372 : Nat) : ZMod q256)
      ((32706189264453802455814072046653030381229678745603722161528888200092968145471 : Nat) : ZMod q256),
      n256 • (WeierstrassCurve.Affine.Point.some _ _ hns) = 0 := by
  have := EcCheck.order_of_check (p := q256) (a := 115792089210356248762697446949407573530086143415290314195533631308867097853948) (b := b256) (n := n256) (x := 115792089210356248762697446949407573529996955224135760342422259061068512044372) (y := 32706189264453802455814072046653030381229678745603722161528888200092968145471)
    two256 noTwo256' (by decide +kernel)
  rw [a256] at this
  exact this

/-- C52: a signature that is valid by the standard may be rejected: there is a public key of secp256r1 that the library
accepts, and a valid signature `(3, 3)` of any message whose digest is the number zero that it rejects. -/
theorem C52_valid_rejected (H : Pkcs1.Hash) (msg : List Byte) (hH : beNat (H.digest msg (min 32 H.hlen)) = 0) (x : Ctx) :
    ∃ (G Q : (shortW (-3 : ZMod q256) ((b256 : Nat) : ZMod q256)).Point) (enc : List Byte) (y : Ctx), Denotes 11 secp256r1.G G ∧
      decodePublicKey secp256r1 11 x enc = some (y, true) ∧ Denotes2 11 y.Q Q ∧ Q ≠ 0 ∧
      EcdsaValid (val secp256r1.n) G Q (beNat (H.digest msg (min 32 H.hlen))) 3 3 ∧
      (ecdsaVerify secp256r1 11 H { y with r := cpy 11 [3], s := cpy 11 [3] } msg).2 = false := by
  obtain ⟨hns, hn⟩ := bigpoint
  obtain ⟨G, hG, -, -, -⟩ := C40_base_point.1
  have hnv : val secp256r1.n = n256 := by decide +kernel
  have h3 : val (cpy 11 [3]) = 3 := by decide
  haveI : Fact (val secp256r1.n).Prime := ⟨eccCurve256.nprime⟩
  have hX : (beN 32 115792089210356248762697446949407573529996955224135760342422259061068512044372).length = secp256r1.plen := length_beN _ _
  have hY : (beN 32 32706189264453802455814072046653030381229678745603722161528888200092968145471).length = secp256r1.plen := length_beN _ _
  generalize hx' : (115792089210356248762697446949407573529996955224135760342422259061068512044372 : Nat) = vx at *
  generalize hy' : (32706189264453802455814072046653030381229678745603722161528888200092968145471 : Nat) = vy at *
  have hvx : vx < q256 ∧ vx = n256 + 3 ∧ vx < 256 ^ 32 := by rw [← hx']; decide +kernel
  have hvy : vy < 256 ^ 32 := by rw [← hy']; decide +kernel
  clear hx' hy'
  have k1 : EncodesPoint secp256r1.plen (4#8 :: (beN 32 vx ++ beN 32 vy)) (WeierstrassCurve.Affine.Point.some _ _ hns) := by
    refine ⟨_, _, hns, rfl, Or.inl ⟨_, _, hX, hY, rfl, ?_, ?_⟩⟩
    · rw [beNat_beN, Nat.mod_eq_of_lt hvx.2.2]
    · rw [beNat_beN, Nat.mod_eq_of_lt hvy]
  obtain ⟨P, d1, e1⟩ := decode_complete eccCurve256 k1 (by rw [hnv]; exact hn)
  have hd := dec_of d1 x
  have h0 : (WeierstrassCurve.Affine.Point.some _ _ hns) ≠ (0 : (shortW (-3 : ZMod q256) ((b256 : Nat) : ZMod q256)).Point) :=
    WeierstrassCurve.Affine.Point.some_ne_zero _
  have hpt : ecdsaPoint (val secp256r1.n) G (WeierstrassCurve.Affine.Point.some _ _ hns) (beNat (H.digest msg (min 32 H.hlen))) 3 3 =
      WeierstrassCurve.Affine.Point.some _ _ hns := by
    unfold ecdsaPoint
    have h30 : ((3 : Nat) : ZMod (val secp256r1.n)) ≠ 0 := by
      rw [Ne, ZMod.natCast_eq_zero_iff]
      intro h
      exact absurd (Nat.le_of_dvd (by norm_num) h) (by decide +kernel)
    rw [hH, Nat.cast_zero, zero_mul, ZMod.val_zero, zero_nsmul, zero_add, mul_inv_cancel₀ h30,
      ZMod.val_one'' (by decide +kernel), one_nsmul]
  have hvalX : ((vx : Nat) : ZMod q256).val = vx := by rw [ZMod.val_natCast, Nat.mod_eq_of_lt hvx.1]
  have hlt : 3 < val secp256r1.n := by decide +kernel
  refine ⟨G, _, _, _, hG, hd, e1, h0, ⟨by norm_num, hlt, by norm_num, hlt, _, _, hns, hpt, ?_⟩, ?_⟩
  · rw [hvalX, hvx.2.1, ← hnv, Nat.add_mod_left, Nat.mod_eq_of_lt hlt]
  · have hv := (C52_verify eccCurve256 H { ({ x with status := 0, Q := P } : Ctx) with r := cpy 11 [3], s := cpy 11 [3] } msg
      ⟨by simp, by simp⟩ hG e1 h0 (show (cpy 11 [3]).length = 11 by decide) (show (cpy 11 [3]).length = 11 by decide)).1
    rw [Bool.eq_false_iff]
    intro h
    obtain ⟨-, -, -, -, X, Y, h', he, hX'⟩ := hv.mp h
    simp only [h3] at he hX'
    change ecdsaPoint (val secp256r1.n) G _ (beNat (H.digest msg (min 32 H.hlen))) 3 3 = _ at he
    rw [hpt] at he
    obtain ⟨rfl, -⟩ := WeierstrassCurve.Affine.Point.some.inj he
    rw [hvalX] at hX'
    have := hvx.2.1
    omega

/-- The premises of the theorems: a hash function with a constant output, the key `d = 1`, draws of the number one. -/
theorem ecdsa_instance : ∃ (H : Pkcs1.Hash) (x : Ctx) (G : (shortW (-3 : ZMod q256) ((b256 : Nat) : ZMod q256)).Point), Denotes 11 secp256r1.G G ∧
    x.d.length = 11 ∧ 1 ≤ val x.d ∧ val x.d < val secp256r1.n ∧ Denotes 11 x.Q (val x.d • G) ∧ val x.Q.z = 1 ∧ x.status = 0 ∧
    beNat (H.digest [] (min 32 H.hlen)) = 0 ∧ ecdsaSign secp256r1 11 H x [] (fun _ => beN 32 1) 1 ≠ none := by
  obtain ⟨G, h1, -⟩ := C40_base_point.1
  have hx := C51_decode_private eccCurve256 h1 ⟨0, [], [], xyzInf 11, xyzInf 11, [], [], [], []⟩ (beN 32 1)
  cases hd : decodePrivateKey secp256r1 11 ⟨0, [], [], xyzInf 11, xyzInf 11, [], [], [], []⟩ (beN 32 1) with
  | none => exact absurd hd (hx.1.mpr ⟨length_beN _ _, by decide +kernel, by decide +kernel⟩)
  | some y =>
    obtain ⟨g1, g2, g3, g4, g5⟩ := hx.2 y hd
    have h1v : beNat (beN 32 1) = 1 := by decide +kernel
    rw [h1v] at g3 g4
    refine ⟨⟨32, false, fun _ _ => 0⟩, y, G, h1, g2, by omega, by rw [g3]; decide +kernel, by rw [g3]; exact g4, g5, g1, by decide +kernel, ?_⟩
    intro hnone
    refine C53_sign_none eccCurve256 ⟨32, false, fun _ _ => 0⟩ y [] (by rw [g1]; decide) (rng := fun _ => beN 32 1)
      (fun _ => length_beN _ _) g2 h1 1 hnone 0 (by decide) ?_
    rw [h1v, g3]
    refine ⟨⟨le_rfl, by decide +kernel⟩, ?_⟩
    rw [one_nsmul]
    have hc := h1.2.2
    rcases G with _ | ⟨X, Y, hn⟩
    · exact absurd hc.2.2 (by rw [show val secp256r1.G.z = 1 by decide +kernel]; simp)
    · have hX : X = ((gx256 : Nat) : ZMod q256) := by
        have := hc.2.1
        rw [show val secp256r1.G.z = 1 by decide +kernel, show val secp256r1.G.x = gx256 by decide +kernel] at this
        rw [this]; simp
      refine ⟨X, Y, hn, rfl, ?_, ?_⟩
      · rw [hX, Ne, ZMod.natCast_eq_zero_iff]; decide +kernel
      · rw [show beNat (Pkcs1.Hash.digest ⟨32, false, fun _ _ => 0⟩ [] (min secp256r1.plen 32)) = 0 by decide +kernel, Nat.cast_zero,
          zero_add, Nat.cast_one, mul_one, hX, ZMod.val_natCast, Ne, ZMod.natCast_eq_zero_iff]
        decide +kernel

end Props
