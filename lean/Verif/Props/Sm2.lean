import Verif.Lemmas.Sm2
import Verif.Props.Ecdsa

/-!
# SM2 signatures: C57 (verification), C58 (signing), C59 (the identity digest)

`Sm2Valid` is the standard's condition on a signature, `sm2Z` the octets the identity digest is made of.  The digest number is
that of the first `min plen hlen` octets of the hash of the identity digest (`uinfo`) and the message.
-/

namespace Props
open Vlong Ec Ecc Spec EcParam

theorem sm2_slen (C : Curve) (H : Pkcs1.Hash) : min C.plen H.hlen = slen C H := by
  unfold slen; split <;> omega

section
variable {C : Curve} {c p : Nat} [hp : Fact p.Prime] {a b : ZMod p} (hC : EccCurve C c p a b)
include hC

/-- C57: verification of a decoded signature (status 0) against the standard's condition, for a point whose `x`-coordinate is not
zero: accepted exactly if valid. -/
theorem C57_verify (H : Pkcs1.Hash) (x : Ctx) (msg : List Byte) (hst : x.status ≠ 1 ∧ x.status ≠ -1) {G Q : (shortW a b).Point}
    (hG : Denotes c C.G G) (hQ : Denotes2 c x.Q Q) (h0 : Q ≠ 0) (hr : x.r.length = c) (hs : x.s.length = c)
    (hX : ∀ X Y h, sm2Point (val C.n) G Q (val x.r) (val x.s) = .some X Y h → X ≠ 0) :
    ((sm2Verify C c H x msg).2 = true ↔
      Sm2Valid (val C.n) G Q (beNat (H.digest (x.uinfo ++ msg) (min C.plen H.hlen))) (val x.r) (val x.s)) ∧
    (sm2Verify C c H x msg).1.status = (if (sm2Verify C c H x msg).2 then 1 else -1) ∧
    (sm2Verify C c H x msg).1.s = x.s ∧ (sm2Verify C c H x msg).1.Q = x.Q ∧ (sm2Verify C c H x msg).1.uinfo = x.uinfo := by
  rw [sm2_slen]
  unfold sm2Verify
  rw [if_neg hst.1, if_neg hst.2]
  obtain ⟨h1, h2, h3, h4, h5, h6, -⟩ := gmtVerify_spec hC H { x with hmsg := x.uinfo ++ msg, status := 3 } hG hQ h0 hr hs
  refine ⟨⟨fun h => ?_, fun h => ?_⟩, h3, h4, h5, h6⟩
  · obtain ⟨g1, g2, g3, g4, g5, X, Y, hn, v, g6, g7, g8, g9⟩ := h1 h
    refine ⟨g1, g2, g3, g4, g5, X, Y, hn, g6, ?_⟩
    have := val_of_rep (c := c) (p := p) (l := cpy c (os2ip c (beN C.plen v))) (x := X) ⟨length_cpy _ _, ?_, ?_⟩ (hX X Y hn g6)
    · rw [← this]
      rw [← g9]
      congr 2
      rw [val_cpy, (C06_os2ip _ _).2, Nat.mod_mod, beNat_beN, Nat.mod_eq_of_lt, Nat.mod_eq_of_lt]
      · have := hC.plt; rw [show (256 : Nat) = 2 ^ 8 from rfl, ← pow_mul]; omega
      · have h8 := hC.plt
        have h9 : 2 ^ (8 * C.plen) ≤ 2 ^ (32 * c) := Nat.pow_le_pow_right (by norm_num) hC.room
        exact lt_of_le_of_lt (Nat.mod_le _ _) (by omega)
    all_goals
      have h8 := hC.plt
      have h9 : 2 ^ (8 * C.plen) ≤ 2 ^ (32 * c) := Nat.pow_le_pow_right (by norm_num) hC.room
      have hv : val (cpy c (os2ip c (beN C.plen v))) = v := by
        rw [val_cpy, (C06_os2ip _ _).2, Nat.mod_mod, beNat_beN, Nat.mod_eq_of_lt, Nat.mod_eq_of_lt]
        · rw [show (256 : Nat) = 2 ^ 8 from rfl, ← pow_mul]; omega
        · exact lt_of_le_of_lt (Nat.mod_le _ _) (by omega)
      rw [hv]
    · omega
    · exact g8
  · obtain ⟨g1, g2, g3, g4, g5, X, Y, hn, g6, g7⟩ := h
    exact h2 ⟨g1, g2, g3, g4, g5, X, Y, hn, g6, hX X Y hn g6, g7⟩

/-- C57: for every point: whatever is accepted is valid, but that `p` may have been taken for an `x`-coordinate of zero. -/
theorem C57_accepted (H : Pkcs1.Hash) (x : Ctx) (msg : List Byte) (hst : x.status ≠ 1 ∧ x.status ≠ -1) {G Q : (shortW a b).Point}
    (hG : Denotes c C.G G) (hQ : Denotes2 c x.Q Q) (h0 : Q ≠ 0) (hr : x.r.length = c) (hs : x.s.length = c)
    (h : (sm2Verify C c H x msg).2 = true) :
    1 ≤ val x.r ∧ val x.r < val C.n ∧ 1 ≤ val x.s ∧ val x.s < val C.n ∧ (val x.r + val x.s) % val C.n ≠ 0 ∧
      ∃ X Y h v, sm2Point (val C.n) G Q (val x.r) (val x.s) = .some X Y h ∧ v ≤ p ∧ (v : ZMod p) = X ∧
        (beNat (H.digest (x.uinfo ++ msg) (min C.plen H.hlen)) + v) % val C.n = val x.r := by
  rw [sm2_slen]
  unfold sm2Verify at h
  rw [if_neg hst.1, if_neg hst.2] at h
  exact (gmtVerify_spec hC H { x with hmsg := x.uinfo ++ msg, status := 3 } hG hQ h0 hr hs).1 h

omit hC hp in
/-- C57: a context remembers the outcome: until another signature is decoded, every message is accepted after one was, and
none after one was not. -/
theorem C57_outcome_cached (H : Pkcs1.Hash) (x : Ctx) (msg : List Byte) :
    (x.status = 1 → sm2Verify C c H x msg = (x, true)) ∧ (x.status = -1 → sm2Verify C c H x msg = (x, false)) := by
  unfold sm2Verify
  constructor <;> intro h <;> simp [h]

omit hC hp in
theorem sm2_feed (l : List (List Byte)) : ∀ y : Ctx, l.foldl ecdsaUpdate y = { y with hmsg := y.hmsg ++ l.flatten } := by
  induction l with
  | nil => intro y; simp
  | cons m l ih => intro y; rw [List.foldl_cons, ih]; simp [ecdsaUpdate]

omit hC hp in
theorem gmtVerify_status (H : Pkcs1.Hash) (x : Ctx) (t : Int) : gmtVerify C c H { x with status := t } = gmtVerify C c H x := by
  unfold gmtVerify
  simp only

omit hC hp in
/-- C57: verifying in increments is verifying the concatenation, from every state. -/
theorem C57_incremental (H : Pkcs1.Hash) (x : Ctx) (chunks : List (List Byte)) :
    sm2IncVerifyFinal C c H (chunks.foldl ecdsaUpdate (sm2IncInit x)) =
      sm2Verify C c H { x with status := 0 } chunks.flatten := by
  rw [sm2_feed]
  unfold sm2IncVerifyFinal sm2Verify sm2IncInit
  simp only [show ((0 : Int) = 1) = False by decide, show ((0 : Int) = -1) = False by decide, if_false]
  rw [← gmtVerify_status H _ 3]

/-- C57: an accepting verification leaves `s` in the private scalar and in the place of `r`. -/
theorem C57_accept_overwrites (H : Pkcs1.Hash) (x : Ctx) (msg : List Byte) (hst : x.status ≠ 1 ∧ x.status ≠ -1)
    {G Q : (shortW a b).Point} (hG : Denotes c C.G G) (hQ : Denotes2 c x.Q Q) (h0 : Q ≠ 0) (hr : x.r.length = c)
    (hs : x.s.length = c) (h : (sm2Verify C c H x msg).2 = true) :
    (sm2Verify C c H x msg).1.d = x.s ∧ (sm2Verify C c H x msg).1.r = x.s := by
  unfold sm2Verify at h ⊢
  rw [if_neg hst.1, if_neg hst.2] at h ⊢
  exact (gmtVerify_spec hC H { x with hmsg := x.uinfo ++ msg, status := 3 } hG hQ h0 hr hs).2.2.2.2.2.2 h

/-- A draw that leads to a signature in the standard's sense: the scalar is in range, `r` is not zero, `r + k` is not `n`, and
`k - r d` is not zero modulo `n`; the `x`-coordinate of its point is not zero. -/
def Sm2Usable (C : Curve) {p : Nat} [Fact p.Prime] {a b : ZMod p} (G : (shortW a b).Point) (e d k : Nat) : Prop :=
  (1 ≤ k ∧ k < val C.n) ∧ ∃ X Y h, k • G = .some X Y h ∧ X ≠ 0 ∧ (e + X.val) % val C.n ≠ 0 ∧
    (e + X.val) % val C.n + k ≠ val C.n ∧
    ((e + X.val : Nat) : ZMod (val C.n)) * (d : ZMod (val C.n)) ≠ (k : ZMod (val C.n))

theorem sm2Loop_spec (H : Pkcs1.Hash) (msg : List Byte) {G : (shortW a b).Point} (hG : Denotes c C.G G) {d : List W}
    (hd : d.length = c) (hd2 : val d + 1 < val C.n) {rng : Nat → List Byte} (hr : ∀ i, (rng i).length = C.plen) : ∀ fuel i,
    (∀ k R r s, sm2Loop C c H msg d rng fuel i = some (k, R, r, s) → ∃ j, i ≤ j ∧ j < i + fuel ∧
      (∀ l, i ≤ l → l < j → ¬ Sm2Usable C G (beNat (H.digest msg (slen C H))) (val d) (beNat (rng l))) ∧
      val k = beNat (rng j) ∧ k.length = c ∧ 1 ≤ val k ∧ val k < val C.n ∧ sm2Attempt C c H msg d k = some (R, r, s)) ∧
    (sm2Loop C c H msg d rng fuel i = none →
      ∀ l, i ≤ l → l < i + fuel → ¬ Sm2Usable C G (beNat (H.digest msg (slen C H))) (val d) (beNat (rng l))) := by
  intro fuel
  induction fuel with
  | zero => intro i; exact ⟨fun k R r s h => by simp [sm2Loop] at h, fun _ l h1 h2 => by omega⟩
  | succ f ih =>
    intro i
    have hv := os_val hC (rng i) (hr i)
    have hlen : (os2ip c (rng i)).length = c := (C06_os2ip _ _).1
    have rej : ¬ Sm2Usable C G (beNat (H.digest msg (slen C H))) (val d) (beNat (rng i)) →
        sm2Loop C c H msg d rng (f + 1) i = sm2Loop C c H msg d rng f (i + 1) →
        (∀ k R r s, sm2Loop C c H msg d rng (f + 1) i = some (k, R, r, s) → ∃ j, i ≤ j ∧ j < i + (f + 1) ∧
          (∀ l, i ≤ l → l < j → ¬ Sm2Usable C G (beNat (H.digest msg (slen C H))) (val d) (beNat (rng l))) ∧
          val k = beNat (rng j) ∧ k.length = c ∧ 1 ≤ val k ∧ val k < val C.n ∧ sm2Attempt C c H msg d k = some (R, r, s)) ∧
        (sm2Loop C c H msg d rng (f + 1) i = none →
          ∀ l, i ≤ l → l < i + (f + 1) → ¬ Sm2Usable C G (beNat (H.digest msg (slen C H))) (val d) (beNat (rng l))) := by
      intro hbad heq
      rw [heq]
      obtain ⟨g1, g2⟩ := ih (i + 1)
      constructor
      · intro k R r s h
        obtain ⟨j, j1, j2, j3, j4⟩ := g1 k R r s h
        refine ⟨j, by omega, by omega, fun l l1 l2 => ?_, j4⟩
        rcases Nat.eq_or_lt_of_le l1 with rfl | l1
        · exact hbad
        · exact j3 l l1 l2
      · intro h l l1 l2
        rcases Nat.eq_or_lt_of_le l1 with rfl | l1
        · exact hbad
        · exact g2 h l l1 (by omega)
    by_cases hs : scalarOk C (os2ip c (rng i)) = true
    · obtain ⟨s1, s2⟩ := (scalarOk_iff C _).mp hs
      obtain ⟨X, Y, hns, v, e1, e2, e3, e4, e5⟩ := sm2Attempt_spec hC H msg hG hd (by omega) hlen s1 s2
      cases ha : sm2Attempt C c H msg d (os2ip c (rng i)) with
      | none =>
        refine rej ?_ (by rw [sm2Loop, if_pos hs, ha])
        rintro ⟨-, X', Y', h', f1, f2, f3, f4, f5⟩
        rw [← hv, e1] at f1
        obtain ⟨rfl, -⟩ := WeierstrassCurve.Affine.Point.some.inj f1
        have hvX : v = X.val := by
          have hvp : v ≠ p := by
            rintro rfl
            exact f2 (by rw [← e3]; simp)
          rw [← e3, ZMod.val_natCast, Nat.mod_eq_of_lt (by omega)]
        rw [hvX, hv] at e5
        rcases e5 ha with h | h | h | h
        · exact f3 h
        · exact f4 h
        · omega
        · exact f5 h
      | some t =>
        obtain ⟨R', r', s'⟩ := t
        have heq : sm2Loop C c H msg d rng (f + 1) i = some (os2ip c (rng i), R', r', s') := by
          rw [sm2Loop, if_pos hs, ha]
        rw [heq]
        refine ⟨?_, fun h => by simp at h⟩
        intro k R r s h
        simp only [Option.some.injEq, Prod.mk.injEq] at h
        obtain ⟨rfl, rfl, rfl, rfl⟩ := h
        exact ⟨i, le_rfl, by omega, fun l l1 l2 => by omega, hv, hlen, s1, s2, ha⟩
    · refine rej ?_ (by rw [sm2Loop, if_neg hs])
      rintro ⟨h, -⟩
      rw [← hv] at h
      exact hs ((scalarOk_iff C _).mpr h)

/-- C58: signing with a private scalar below `n - 1` uses a draw `k` in `1..n-1`, none of the earlier draws being usable;
`r = (e + x) mod n` for the `x`-coordinate of `k G`, `s = (k - r d)/(1 + d) mod n`, both not zero, and `r + k ≠ n`.  For a
coordinate of zero `p` may stand in its place. -/
theorem C58_sign (H : Pkcs1.Hash) (x y : Ctx) (msg : List Byte) (hst : x.status ≠ 3) {rng : Nat → List Byte}
    (hr : ∀ i, (rng i).length = C.plen) (hd : x.d.length = c) (hd2 : val x.d + 1 < val C.n) {G : (shortW a b).Point}
    (hG : Denotes c C.G G) (fuel : Nat) (h : sm2Sign C c H x msg rng fuel = some y) :
    ∃ j < fuel, ∃ X Y hn, ∃ v : Nat, beNat (rng j) • G = .some X Y hn ∧ 1 ≤ beNat (rng j) ∧ beNat (rng j) < val C.n ∧
      (∀ i < j, ¬ Sm2Usable C G (beNat (H.digest (x.uinfo ++ msg) (min C.plen H.hlen))) (val x.d) (beNat (rng i))) ∧
      y.status = 1 ∧ y.d = x.d ∧ y.Q = x.Q ∧ y.uinfo = x.uinfo ∧ y.r.length = c ∧ y.s.length = c ∧
      (v : ZMod p) = X ∧ (X ≠ 0 → v = X.val) ∧ (X = 0 → v = 0 ∨ v = p) ∧
      val y.r = (beNat (H.digest (x.uinfo ++ msg) (min C.plen H.hlen)) + v) % val C.n ∧
      1 ≤ val y.r ∧ val y.r + beNat (rng j) ≠ val C.n ∧ 1 ≤ val y.s ∧ val y.s < val C.n ∧
      (val y.s : ZMod (val C.n)) = (1 + (val x.d : ZMod (val C.n)))⁻¹ *
        ((beNat (rng j) : ZMod (val C.n)) - (val y.r : ZMod (val C.n)) * (val x.d : ZMod (val C.n))) := by
  rw [sm2_slen]
  unfold sm2Sign at h
  rw [if_pos hst] at h
  unfold gmtSign at h
  obtain ⟨g1, -⟩ := sm2Loop_spec hC H (x.uinfo ++ msg) hG hd hd2 hr fuel 0
  simp only at h
  split at h
  · simp at h
  · rename_i k R r s hl
    simp only [Option.some.injEq] at h
    subst h
    obtain ⟨j, -, j2, j3, j4, j5, j6, j7, j8⟩ := g1 k R r s hl
    obtain ⟨X, Y, hn, v, e1, e2, e3, e4, -⟩ := sm2Attempt_spec hC H (x.uinfo ++ msg) hG hd (by omega) j5 j6 j7
    obtain ⟨f1, f2, f3, f4, f5, f6, f7, f8, f9⟩ := e4 R r s j8
    refine ⟨j, by omega, X, Y, hn, v, by rw [← j4]; exact e1, by omega, by omega, fun i hi => j3 i (by omega) hi, rfl, rfl, rfl, rfl,
      f1, f2, e3, fun hX => ?_, fun hX => ?_, f3, ?_, by rw [← j4]; exact f5, f6, f7, by rw [← j4]; exact f9⟩
    · have hvp : v ≠ p := by
        rintro rfl
        exact hX (by rw [← e3]; simp)
      rw [← e3, ZMod.val_natCast, Nat.mod_eq_of_lt (by omega)]
    · rw [hX, ZMod.natCast_eq_zero_iff] at e3
      obtain ⟨t, rfl⟩ := e3
      rcases t with _ | _ | t
      · left; simp
      · right; simp
      · have := hp.out.pos; exfalso; rw [show p * (t + 1 + 1) = p * t + p + p by ring] at e2; omega
    · exact Nat.one_le_iff_ne_zero.mpr f4

/-- C58: signing goes on only as long as no draw is usable. -/
theorem C58_sign_none (H : Pkcs1.Hash) (x : Ctx) (msg : List Byte) (hst : x.status ≠ 3) {rng : Nat → List Byte}
    (hr : ∀ i, (rng i).length = C.plen) (hd : x.d.length = c) (hd2 : val x.d + 1 < val C.n) {G : (shortW a b).Point}
    (hG : Denotes c C.G G) (fuel : Nat) (h : sm2Sign C c H x msg rng fuel = none) :
    ∀ i < fuel, ¬ Sm2Usable C G (beNat (H.digest (x.uinfo ++ msg) (min C.plen H.hlen))) (val x.d) (beNat (rng i)) := by
  rw [sm2_slen]
  unfold sm2Sign at h
  rw [if_pos hst] at h
  unfold gmtSign at h
  obtain ⟨-, g2⟩ := sm2Loop_spec hC H (x.uinfo ++ msg) hG hd hd2 hr fuel 0
  simp only at h
  split at h
  · rename_i hl
    exact fun i hi => g2 hl i (by omega) (by omega)
  · simp at h

/-- The point of the verification is that of the signing scalar. -/
theorem sm2Point_of_sign {G : (shortW a b).Point} (ho : addOrderOf G = val C.n) {d k r s : Nat} (hd : d + 1 < val C.n)
    (hk2 : k < val C.n)
    (hs : (s : ZMod (val C.n)) = (1 + (d : ZMod (val C.n)))⁻¹ * ((k : ZMod (val C.n)) - (r : ZMod (val C.n)) * (d : ZMod (val C.n)))) :
    sm2Point (val C.n) G (d • G) r s = k • G ∧
      (((r + s : Nat) : ZMod (val C.n)) = (1 + (d : ZMod (val C.n)))⁻¹ * ((r : ZMod (val C.n)) + (k : ZMod (val C.n)))) := by
  have : Fact (val C.n).Prime := ⟨hC.nprime⟩
  have hd0 : (1 + (d : ZMod (val C.n))) ≠ 0 := by
    rw [show (1 + (d : ZMod (val C.n))) = ((d + 1 : Nat) : ZMod (val C.n)) by push_cast; ring, Ne, ZMod.natCast_eq_zero_iff]
    intro h; exact absurd (Nat.le_of_dvd (by omega) h) (by omega)
  have hs' : (1 + (d : ZMod (val C.n))) * s = k - r * d := by rw [hs]; field_simp
  constructor
  · unfold sm2Point
    rw [smul_smul, ← add_smul, ← ho, ← mod_addOrderOf_nsmul, ho]
    congr 1
    rw [← Nat.mod_eq_of_lt hk2, ← ZMod.natCast_eq_natCast_iff', Nat.cast_add, Nat.cast_mul, ZMod.natCast_mod]
    push_cast
    linear_combination hs'
  · push_cast
    field_simp
    linear_combination hs'

/-- C58: a signature is accepted by every party holding the public key `d G` and the same identity digest, if the
`x`-coordinate of the signer's point is not zero. -/
theorem C58_sign_verify (H : Pkcs1.Hash) (x y z : Ctx) (msg : List Byte) (hst : x.status ≠ 3) {rng : Nat → List Byte}
    (hr : ∀ i, (rng i).length = C.plen) (hd : x.d.length = c) (hd1 : 1 ≤ val x.d) (hd2 : val x.d + 1 < val C.n)
    {G : (shortW a b).Point} (hG : Denotes c C.G G) (fuel : Nat)
    (h : sm2Sign C c H x msg rng fuel = some y) (hz : z.status ≠ 1 ∧ z.status ≠ -1)
    (hQ : Denotes2 c z.Q (val x.d • G)) (hid : z.uinfo = x.uinfo) (hzr : z.r = y.r) (hzs : z.s = y.s)
    (hX : ∀ j < fuel, ∀ X Y hn, beNat (rng j) • G = .some X Y hn → X ≠ 0) :
    (sm2Verify C c H z msg).2 = true ∧
    Sm2Valid (val C.n) G (val x.d • G) (beNat (H.digest (x.uinfo ++ msg) (min C.plen H.hlen))) (val y.r) (val y.s) := by
  have : Fact (val C.n).Prime := ⟨hC.nprime⟩
  obtain ⟨j, hj, X, Y, hn, v, e1, e2, e3, -, -, -, -, -, e4, e5, e6, e7, -, e8, e9, e10, e11, e12, e13⟩ := C58_sign hC H x y msg hst hr hd hd2 hG fuel h
  have ho := base_order hC hG
  have hX0 := hX j hj X Y hn e1
  obtain ⟨p1, p2⟩ := sm2Point_of_sign hC ho hd2 e3 e13
  have hrn : val y.r < val C.n := by rw [e8]; exact Nat.mod_lt _ hC.nprime.pos
  have hvalid : Sm2Valid (val C.n) G (val x.d • G) (beNat (H.digest (x.uinfo ++ msg) (min C.plen H.hlen))) (val y.r) (val y.s) := by
    refine ⟨e9, hrn, e11, e12, ?_, X, Y, hn, by rw [p1, e1], by rw [e8, e7 hX0]⟩
    intro h0
    rw [show ((val y.r + val y.s : Nat) : ZMod (val C.n)) = 0 by rw [ZMod.natCast_eq_zero_iff]; exact Nat.dvd_of_mod_eq_zero h0] at p2
    rcases mul_eq_zero.mp p2.symm with h | h
    · rw [inv_eq_zero, show (1 + (val x.d : ZMod (val C.n))) = ((val x.d + 1 : Nat) : ZMod (val C.n)) by push_cast; ring,
        ZMod.natCast_eq_zero_iff] at h
      exact absurd (Nat.le_of_dvd (by omega) h) (by omega)
    · rw [← Nat.cast_add, ZMod.natCast_eq_zero_iff] at h
      obtain ⟨t, ht⟩ := h
      rcases t with _ | _ | t
      · omega
      · rw [zero_add, mul_one] at ht; exact e10 ht
      · rw [show val C.n * (t + 1 + 1) = val C.n * t + val C.n + val C.n by ring] at ht; omega
  refine ⟨?_, hvalid⟩
  have hv := (C57_verify hC H z msg hz hG hQ (smul_ne hC ho hd1 (by omega)) (by rw [hzr, e4]) (by rw [hzs, e5]) (by
    intro X' Y' h' hP
    rw [hzr, hzs, p1, e1] at hP
    obtain ⟨rfl, -⟩ := WeierstrassCurve.Affine.Point.some.inj hP
    exact hX0)).1
  rw [hzr, hzs, hid] at hv
  exact hv.mpr hvalid

/-- C58: with the private scalar `n - 1` no number of draws, whatever they are, makes the signing function return. -/
theorem C58_never_returns (H : Pkcs1.Hash) (x : Ctx) (msg : List Byte) (rng : Nat → List Byte) (hr : ∀ i, (rng i).length = C.plen)
    (hd : x.d.length = c) (hd2 : val x.d + 1 = val C.n) (fuel : Nat) : sm2Sign C c H x msg rng fuel = none := by
  obtain ⟨G, hG, -⟩ := hC.base
  have key : ∀ m f i, sm2Loop C c H m x.d rng f i = none := by
    intro m f
    induction f with
    | zero => intro i; rfl
    | succ f ih =>
      intro i
      rw [sm2Loop]
      split
      · rename_i hs
        obtain ⟨s1, s2⟩ := (scalarOk_iff C _).mp hs
        obtain ⟨X, Y, hns, v, e1, e2, e3, e4, -⟩ := sm2Attempt_spec hC H m hG hd (by omega) (C06_os2ip c (rng i)).1 s1 s2
        cases ha : sm2Attempt C c H m x.d (os2ip c (rng i)) with
        | none => exact ih (i + 1)
        | some t =>
          obtain ⟨R, r, s⟩ := t
          exact absurd hd2 (e4 R r s ha).2.2.2.2.2.2.2.1
      · exact ih (i + 1)
  unfold sm2Sign gmtSign
  split <;> simp [key]

omit hC hp in
/-- C58: signing in increments is signing the concatenation, from every state. -/
theorem C58_incremental (H : Pkcs1.Hash) (x : Ctx) (chunks : List (List Byte)) (rng : Nat → List Byte) (fuel : Nat) :
    sm2IncSignFinal C c H (chunks.foldl ecdsaUpdate (sm2IncInit x)) rng fuel =
      sm2Sign C c H { x with status := 0 } chunks.flatten rng fuel := by
  rw [sm2_feed]
  simp [sm2IncSignFinal, sm2Sign, sm2IncInit]

end

/-- C59: the identity digest is the hash of the standard's octets, for an identity of less than 8192 octets; `A` is the number the
code makes of the curve coefficient `a`. -/
theorem C59_identity_digest (C : Curve) (c : Nat) (H : Pkcs1.Hash) (x : Ctx) (id : List Byte) (hid : id.length < 8192) {A : Nat}
    (hA : val (sm2A C c) = A) : (sm2SetZ C c H x id).uinfo =
      H.digest (sm2Z C.plen id A (val C.b) (val C.G.x) (val C.G.y) (val x.Q.x) (val x.Q.y)) H.hlen := by
  unfold sm2SetZ sm2Z
  simp only
  have h1 : id.length % 65536 = id.length := Nat.mod_eq_of_lt (by omega)
  have h2 : beN 2 (8 * id.length) = [BitVec.ofNat 8 (id.length * 8 / 256), BitVec.ofNat 8 (id.length * 8)] := by
    simp [beN, List.range_succ, Nat.mul_comm]
  rw [h1, h2, List.take_length]
  simp only [Pkcs1.i2osp_beN, hA]

/-- C59: the numbers of the three curves: `a = p - 3`, and `b`, the base point as published. -/
theorem C59_curve_numbers :
    (val (sm2A curveSM2 11) = qSM2 - 3 ∧ val curveSM2.b = bSM2 ∧ val curveSM2.G.x = gxSM2 ∧ val curveSM2.G.y = gySM2) ∧
    (val (sm2A secp256r1 11) = q256 - 3 ∧ val secp256r1.b = b256 ∧ val secp256r1.G.x = gx256 ∧ val secp256r1.G.y = gy256) ∧
    (val (sm2A secp384r1 15) = q384 - 3 ∧ val secp384r1.b = b384 ∧ val secp384r1.G.x = gx384 ∧ val secp384r1.G.y = gy384) := by
  decide +kernel

/-- C59: setting the identity changes nothing else that a later operation uses; unknown commands and a missing buffer are refused. -/
theorem C59_control (C : Curve) (c : Nat) (H : Pkcs1.Hash) (x : Ctx) (cmd : Bool) (id : Option (List Byte)) :
    (∀ y, sm2Xctrl C c H x cmd id = some y → cmd = true ∧ ∃ d, id = some d ∧ y.uinfo = (sm2SetZ C c H x d).uinfo ∧
      y.status = x.status ∧ y.d = x.d ∧ y.k = x.k ∧ y.Q = x.Q ∧ y.R = x.R ∧ y.r = x.r ∧ y.s = x.s) ∧
    (sm2Xctrl C c H x cmd id = none ↔ cmd = false ∨ id = none) := by
  unfold sm2Xctrl
  cases cmd <;> cases id <;> simp [sm2SetZ]

/-- C59: a key that was generated or decoded has the digest of the identity `1234567812345678`. -/
theorem C59_default_identity {C : Curve} {c : Nat} (H : Pkcs1.Hash) (x : Ctx) :
    (∀ rng fuel y, sm2Keygen C c H rng fuel x = some y → ∃ w, keygen C c rng fuel x = some w ∧ y = sm2SetZ C c H w sm2DefaultId) ∧
    (∀ enc y, sm2DecodePrivateKey C c H x enc = some y → ∃ w, decodePrivateKey C c x enc = some w ∧ y = sm2SetZ C c H w sm2DefaultId) ∧
    (∀ enc y ok, sm2DecodePublicKey C c H x enc = some (y, ok) → ∃ w, decodePublicKey C c x enc = some (w, ok) ∧
      y = sm2SetZ C c H w sm2DefaultId) := by
  refine ⟨?_, ?_, ?_⟩
  · intro rng fuel y h
    unfold sm2Keygen at h
    rw [Option.map_eq_some_iff] at h
    obtain ⟨w, h1, h2⟩ := h
    exact ⟨w, h1, h2.symm⟩
  · intro enc y h
    unfold sm2DecodePrivateKey at h
    rw [Option.map_eq_some_iff] at h
    obtain ⟨w, h1, h2⟩ := h
    exact ⟨w, h1, h2.symm⟩
  · intro enc y ok h
    unfold sm2DecodePublicKey at h
    rw [Option.map_eq_some_iff] at h
    obtain ⟨⟨w, ok'⟩, h1, h2⟩ := h
    simp only [Prod.mk.injEq] at h2
    obtain ⟨h2, rfl⟩ := h2
    exact ⟨w, h1, h2.symm⟩

/-- C59: signer and verifier agree on the digest: a key decoded from what the signer exported, uncompressed, has the signer's. -/
theorem C59_same_digest {C : Curve} {c p : Nat} [hp : Fact p.Prime] {a b : ZMod p} (hC : EccCurve C c p a b) (H : Pkcs1.Hash)
    (x x' y : Ctx) (id : List Byte) (enc : List Byte)
    (he : encodePublicKey C x (1 + C.plen * 2) = some enc) (hd : decodePublicKey C c x' enc = some (y, true)) :
    (sm2SetZ C c H y id).uinfo = (sm2SetZ C c H x id).uinfo := by
  have hre := C50_reencode hC x' y enc hd
  have hlen : enc.length = 1 + C.plen * 2 := by
    unfold encodePublicKey pointEncode at he
    rw [if_pos rfl] at he
    simp only [Option.some.injEq] at he
    rw [← he]
    simp only [List.length_cons, List.length_append, (C06_i2osp _ _).1]
    omega
  rw [hlen] at hre
  rw [← he] at hre
  unfold encodePublicKey pointEncode at hre
  rw [if_pos rfl, if_pos rfl] at hre
  simp only [Option.some.injEq, List.cons.injEq, true_and] at hre
  obtain ⟨h1, h2⟩ := List.append_inj hre (by rw [(C06_i2osp _ _).1, (C06_i2osp _ _).1])
  unfold sm2SetZ
  simp only [h1, h2]

/-- C59: identities are cut to the length modulo 65536: a longer one has the digest of its beginning. -/
theorem C59_long_identities_collide (C : Curve) (c : Nat) (H : Pkcs1.Hash) (x : Ctx) (id : List Byte) :
    sm2SetZ C c H x id = sm2SetZ C c H x (id.take (id.length % 65536)) ∧
    (65536 ≤ id.length → id.take (id.length % 65536) ≠ id) := by
  have hlt : id.length % 65536 < 65536 := Nat.mod_lt _ (by norm_num)
  have hle : id.length % 65536 ≤ id.length := Nat.mod_le _ _
  constructor
  · unfold sm2SetZ
    simp only [List.length_take, Nat.min_eq_left hle, Nat.mod_mod, List.take_take, min_self]
  · intro h heq
    have := congrArg List.length heq
    rw [List.length_take, Nat.min_eq_left hle] at this
    omega

/-- C59: for an identity of 8192 to 65535 octets the two length octets hold the bit length modulo 65536. -/
theorem C59_length_octets (C : Curve) (c : Nat) (H : Pkcs1.Hash) (x : Ctx) (id : List Byte) (hid : id.length < 65536) :
    (sm2SetZ C c H x id).hmsg.take 2 = beN 2 (8 * id.length % 65536) ∧
    ((sm2SetZ C c H x id).hmsg.drop 2).take id.length = id := by
  unfold sm2SetZ
  simp only [Nat.mod_eq_of_lt hid, List.take_length]
  constructor
  · simp only [List.append_assoc, List.cons_append, List.nil_append, List.take_succ_cons, List.take_zero, beN, List.range_succ, List.range_zero,
      List.map_append, List.map_cons, List.map_nil]
    congr 1
    · apply BitVec.eq_of_toNat_eq
      simp only [BitVec.toNat_ofNat]
      norm_num
      omega
    · congr 1
      apply BitVec.eq_of_toNat_eq
      simp only [BitVec.toNat_ofNat]
      norm_num
      omega
  · simp [List.append_assoc]


section
variable {C : Curve} {c p : Nat} [hp : Fact p.Prime] {a b : ZMod p} (hC : EccCurve C c p a b)
include hC

theorem sm2_second (H : Pkcs1.Hash) (x : Ctx) (msg : List Byte) {G : (shortW a b).Point} (hG : Denotes c C.G G) (hQ : x.Q = C.G) {X Y : ZMod p}
    {hn : (shortW a b).Nonsingular X Y} (hGX : G = .some X Y hn) (hX : X ≠ 0) (hst : x.status = 0) (hrl : x.r.length = c) (hsl : x.s.length = c)
    {e r s : Nat} (he : beNat (H.digest (x.uinfo ++ msg) (min C.plen H.hlen)) = e) (hr : val x.r = r) (hs : val x.s = s)
    (h1 : 1 ≤ r) (h2 : r < val C.n) (h3 : 1 ≤ s) (h4 : s < val C.n) (h5 : (r + s) % val C.n ≠ 0)
    (h6 : (s + (r + s) % val C.n) % val C.n = val C.n - 1) (h7 : (s + (s + s) % val C.n) % val C.n = 1)
    (h8 : (e + X.val) % val C.n = r) (h9 : r ≠ s) :
    (sm2Verify C c H x msg).2 = true ∧
    (sm2IncVerifyFinal C c H (ecdsaUpdate (sm2IncInit (sm2Verify C c H x msg).1) msg)).2 = false := by
  have ho := base_order hC hG
  have hG0 := base_ne hC ho
  have hn1 : (val C.n - 1) • G = -G := by
    have h : (val C.n - 1) • G + G = 0 := by
      rw [← succ_nsmul, Nat.sub_add_cancel hC.nprime.pos, ← ho]; exact addOrderOf_nsmul_eq_zero G
    exact eq_neg_of_add_eq_zero_left h
  have hp1 : sm2Point (val C.n) G G r s = -G := by
    unfold sm2Point
    rw [← add_smul, ← mod_addOrderOf_nsmul, ho, h6, hn1]
  have hp2 : sm2Point (val C.n) G G s s = G := by
    unfold sm2Point
    rw [← add_smul, ← mod_addOrderOf_nsmul, ho, h7, one_nsmul]
  have hQd : Denotes2 c x.Q G := by rw [hQ]; exact Denotes2.of hG
  obtain ⟨v1, v2, v3, v4, v5⟩ := C57_verify hC H x msg ⟨by rw [hst]; decide, by rw [hst]; decide⟩ hG hQd hG0 hrl hsl (by
    intro X' Y' h' hP
    rw [hr, hs, hp1, hGX, WeierstrassCurve.Affine.Point.neg_some] at hP
    obtain ⟨rfl, -⟩ := WeierstrassCurve.Affine.Point.some.inj hP
    exact hX)
  have hacc : (sm2Verify C c H x msg).2 = true := by
    rw [v1, hr, hs, he]
    refine ⟨h1, h2, h3, h4, h5, X, _, _, by rw [hp1, hGX, WeierstrassCurve.Affine.Point.neg_some], h8⟩
  refine ⟨hacc, ?_⟩
  obtain ⟨o1, o2⟩ := C57_accept_overwrites hC H x msg ⟨by rw [hst]; decide, by rw [hst]; decide⟩ hG hQd hG0 hrl hsl hacc
  have hi := C57_incremental (C := C) (c := c) H (sm2Verify C c H x msg).1 [msg]
  simp only [List.foldl_cons, List.foldl_nil, List.flatten_cons, List.flatten_nil, List.append_nil] at hi
  rw [hi]
  have w := (C57_verify hC H { (sm2Verify C c H x msg).1 with status := 0 } msg ⟨by simp, by simp⟩ hG (Q := G) (by simp only [v4]; exact hQd) hG0
    (by simp only [o2]; exact hsl) (by simp only [v3]; exact hsl) (by
      intro X' Y' h' hP
      simp only [o2, v3] at hP
      rw [hs, hp2, hGX] at hP
      obtain ⟨rfl, -⟩ := WeierstrassCurve.Affine.Point.some.inj hP
      exact hX)).1
  rw [Bool.eq_false_iff]
  intro hacc2
  obtain ⟨-, -, -, -, -, X', Y', h', q1, q2⟩ := w.mp hacc2
  simp only [o2, v3, v5] at q1 q2
  rw [hs, hp2, hGX] at q1
  obtain ⟨rfl, -⟩ := WeierstrassCurve.Affine.Point.some.inj q1
  rw [he, h8, hs] at q2
  exact h9 q2

end

theorem gx_sm2 {G : (shortW (-3 : ZMod qSM2) ((bSM2 : Nat) : ZMod qSM2)).Point} (hG : Denotes 11 curveSM2.G G) :
    ∃ X Y hn, G = .some X Y hn ∧ X = ((gxSM2 : Nat) : ZMod qSM2) := by
  have hc := hG.2.2
  rcases G with _ | ⟨X, Y, hn⟩
  · exact absurd hc.2.2 (by rw [show val curveSM2.G.z = 1 by decide +kernel]; simp)
  · refine ⟨X, Y, hn, rfl, ?_⟩
    have := hc.2.1
    rw [show val curveSM2.G.z = 1 by decide +kernel, show val curveSM2.G.x = gxSM2 by decide +kernel] at this
    rw [this]; simp

/-- C57: a signature that is accepted can be rejected when the same message is verified again incrementally with the same
context: the first verification has overwritten `r`. -/
theorem C57_accepted_then_rejected : ∃ (H : Pkcs1.Hash) (x : Ctx) (G : (shortW (-3 : ZMod qSM2) ((bSM2 : Nat) : ZMod qSM2)).Point),
    Denotes 11 curveSM2.G G ∧ Denotes2 11 x.Q G ∧ x.status = 0 ∧ ∀ msg, (sm2Verify curveSM2 11 H x msg).2 = true ∧
    (sm2IncVerifyFinal curveSM2 11 H (ecdsaUpdate (sm2IncInit (sm2Verify curveSM2 11 H x msg).1) msg)).2 = false := by
  obtain ⟨G, hG, -⟩ := C40_base_point.2.2
  obtain ⟨X, Y, hn, hGX, hX⟩ := gx_sm2 hG
  refine ⟨⟨32, false, fun _ i => (beN 32 54231579593000448611467365446797187265238515187963546074854011396924819748516).getD i 0⟩,
    ⟨0, [], [], curveSM2.G, xyzInf 11,
      os2ip 11 (beN 32 77194726140237499170946896809347261844041082483305163045229206237528959363947),
      os2ip 11 (beN 32 77194726140237499170946896809347261844041082483305163045229206237528959363949), [], []⟩, G, hG, Denotes2.of hG, rfl, fun msg => ?_⟩
  refine sm2_second eccCurveSM2 _ _ msg hG rfl hGX ?_ rfl (by decide +kernel) (by decide +kernel)
    (e := 54231579593000448611467365446797187265238515187963546074854011396924819748516)
    (r := 77194726140237499170946896809347261844041082483305163045229206237528959363947)
    (s := 77194726140237499170946896809347261844041082483305163045229206237528959363949)
    (by simp only [Pkcs1.Hash.digest]; decide +kernel) (by decide +kernel) (by decide +kernel) (by decide +kernel) (by decide +kernel) (by decide +kernel) (by decide +kernel)
    (by decide +kernel) (by decide +kernel) (by decide +kernel) ?_ (by decide +kernel)
  · rw [hX, Ne, ZMod.natCast_eq_zero_iff]; decide +kernel
  · rw [hX, ZMod.val_natCast]; decide +kernel

/-- C58: the private key `n - 1` is accepted by the decoder, and signing with it never returns. -/
theorem C58_accepted_key_never_signs (H : Pkcs1.Hash) (x : Ctx) : ∃ y, sm2DecodePrivateKey curveSM2 11 H x (beN 32 (nSM2 - 1)) = some y ∧
    ∀ msg rng, (∀ i, (rng i : List Byte).length = 32) → ∀ fuel, sm2Sign curveSM2 11 H y msg rng fuel = none := by
  obtain ⟨G, hG, -⟩ := C40_base_point.2.2
  obtain ⟨h1, h2⟩ := C51_decode_private eccCurveSM2 hG x (beN 32 (nSM2 - 1))
  cases hd : decodePrivateKey curveSM2 11 x (beN 32 (nSM2 - 1)) with
  | none => exact absurd hd (h1.mpr ⟨length_beN _ _, by decide +kernel, by decide +kernel⟩)
  | some w =>
    obtain ⟨-, g2, g3, -⟩ := h2 w hd
    refine ⟨sm2SetZ curveSM2 11 H w sm2DefaultId, by rw [sm2DecodePrivateKey, hd]; rfl, fun msg rng hr fuel => ?_⟩
    refine C58_never_returns eccCurveSM2 H (sm2SetZ curveSM2 11 H w sm2DefaultId) msg rng hr (show w.d.length = 11 from g2) ?_ fuel
    change val w.d + 1 = _
    rw [g3]; decide +kernel

/-- The premises of the theorems: the key `d = 1`, a draw of the number one, digest number zero. -/
example : ∃ (H : Pkcs1.Hash) (x y : Ctx) (G : (shortW (-3 : ZMod qSM2) ((bSM2 : Nat) : ZMod qSM2)).Point), Denotes 11 curveSM2.G G ∧
    x.d.length = 11 ∧ 1 ≤ val x.d ∧ val x.d + 1 < val curveSM2.n ∧ Denotes2 11 y.Q (val x.d • G) ∧ x.status = 0 ∧ y.uinfo = x.uinfo ∧
    (∀ X Y hn, beNat (beN 32 1) • G = .some X Y hn → X ≠ 0) ∧
    sm2Sign curveSM2 11 H x [] (fun _ => beN 32 1) 1 ≠ none := by
  obtain ⟨G, h1, -⟩ := C40_base_point.2.2
  obtain ⟨X, Y, hn, hGX, hX⟩ := gx_sm2 h1
  have hx := C51_decode_private eccCurveSM2 h1 ⟨0, [], [], xyzInf 11, xyzInf 11, [], [], [], []⟩ (beN 32 1)
  cases hd : decodePrivateKey curveSM2 11 ⟨0, [], [], xyzInf 11, xyzInf 11, [], [], [], []⟩ (beN 32 1) with
  | none => exact absurd hd (hx.1.mpr ⟨length_beN _ _, by decide +kernel, by decide +kernel⟩)
  | some y =>
    obtain ⟨g1, g2, g3, g4, g5⟩ := hx.2 y hd
    have h1v : beNat (beN 32 1) = 1 := by decide +kernel
    rw [h1v] at g3 g4
    refine ⟨⟨32, false, fun _ _ => 0⟩, y, y, G, h1, g2, by omega, by rw [g3]; decide +kernel, by rw [g3]; exact Denotes2.of g4, g1, rfl, ?_, ?_⟩
    · intro X' Y' hn' hP
      rw [h1v, one_nsmul, hGX] at hP
      obtain ⟨rfl, -⟩ := WeierstrassCurve.Affine.Point.some.inj hP
      rw [hX, Ne, ZMod.natCast_eq_zero_iff]; decide +kernel
    intro hnone
    refine C58_sign_none eccCurveSM2 ⟨32, false, fun _ _ => 0⟩ y [] (by rw [g1]; decide) (rng := fun _ => beN 32 1)
      (fun _ => length_beN _ _) g2 (by rw [g3]; decide +kernel) h1 1 hnone 0 (by decide) ?_
    rw [h1v, g3]
    have hz : beNat (Pkcs1.Hash.digest ⟨32, false, fun _ _ => 0⟩ (y.uinfo ++ []) (min curveSM2.plen 32)) = 0 := by
      simp only [Pkcs1.Hash.digest]; decide +kernel
    rw [hz]
    refine ⟨⟨le_rfl, by decide +kernel⟩, X, Y, hn, by rw [one_nsmul]; exact hGX, ?_, ?_, ?_, ?_⟩
    · rw [hX, Ne, ZMod.natCast_eq_zero_iff]; decide +kernel
    · rw [hX, ZMod.val_natCast]; decide +kernel
    · rw [hX, ZMod.val_natCast]; decide +kernel
    · rw [hX, ZMod.val_natCast, Nat.cast_one, mul_one, ← Nat.cast_one, Ne, ZMod.natCast_eq_natCast_iff']; decide +kernel

/-- An identity that meets the premise of the digest theorem; the two length octets are those of 128 bits. -/
example : sm2DefaultId.length < 8192 ∧ (sm2Z 32 sm2DefaultId 0 0 0 0 0 0).take 2 = [0x00#8, 0x80#8] := by decide +kernel

end Props
