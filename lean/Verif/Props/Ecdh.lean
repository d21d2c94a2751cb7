import Verif.Lemmas.Ecdh
import Verif.Props.Ecc

/-!
# ECDH key encapsulation: C55, C56

`EccCurve` holds of the three curves (`C49_curves`).
-/

namespace Props
open Vlong Ec Ecc Spec EcParam

section
variable {C : Curve} {c p : Nat} [hp : Fact p.Prime] {a b : ZMod p} (hC : EccCurve C c p a b)
include hC

/-- `plen` octets are within the words of a number. -/
theorem plen_le4 : C.plen ≤ 4 * c := by have := hC.room; omega

theorem smul_ne' {Q : (shortW a b).Point} (h0 : Q ≠ 0) (hn : val C.n • Q = 0) {k : Nat} (h1 : 1 ≤ k) (h2 : k < val C.n) :
    k • Q ≠ 0 := by
  haveI : Fact (val C.n).Prime := ⟨hC.nprime⟩
  exact smul_ne hC (addOrderOf_eq_prime hn h0) h1 h2

theorem encLoop_spec (Q : Xyz) {rng : Nat → List Byte} (hr : ∀ i, (rng i).length = C.plen) : ∀ (fuel i : Nat),
    (encLoop C c Q rng fuel i = none ↔ ∀ l, i ≤ l → l < i + fuel → ¬ (1 ≤ beNat (rng l) ∧ beNat (rng l) < val C.n)) ∧
    (∀ k R, encLoop C c Q rng fuel i = some (k, R) → ∃ j, i ≤ j ∧ j < i + fuel ∧ k.length = c ∧ val k = beNat (rng j) ∧
      (1 ≤ beNat (rng j) ∧ beNat (rng j) < val C.n) ∧
      (∀ l, i ≤ l → l < j → ¬ (1 ≤ beNat (rng l) ∧ beNat (rng l) < val C.n)) ∧
      R = scaleAccumulate C c (xyzInf c) Q k) := by
  intro fuel
  induction fuel with
  | zero => intro i; exact ⟨by simp [encLoop]; intro l h1 h2; omega, by intro k R h; simp [encLoop] at h⟩
  | succ f ih =>
    intro i
    have hcand := candidate_eq hC (rng i)
    have hv := os_val hC (rng i) (hr i)
    rw [encLoop]
    simp only [hcand]
    by_cases hok : scalarOk C (os2ip c (rng i)) = true
    · rw [if_pos hok]
      rw [scalarOk_iff, hv] at hok
      refine ⟨⟨fun h => by simp at h, fun h => absurd hok (h i le_rfl (by omega))⟩, ?_⟩
      intro k R h
      simp only [Option.some.injEq, Prod.mk.injEq] at h
      obtain ⟨rfl, rfl⟩ := h
      exact ⟨i, le_rfl, by omega, (Props.C06_os2ip c _).1, hv, hok, fun l h1 h2 => by omega, rfl⟩
    · rw [if_neg hok]
      rw [scalarOk_iff, hv] at hok
      obtain ⟨g1, g2⟩ := ih (i + 1)
      constructor
      · rw [g1]
        constructor
        · intro h l h1 h2
          by_cases hl : l = i
          · subst hl; exact hok
          · exact h l (by omega) (by omega)
        · intro h l h1 h2
          exact h l (by omega) (by omega)
      · intro k R h
        obtain ⟨j, e1, e2, e3, e4, e5, e6, e7⟩ := g2 k R h
        refine ⟨j, by omega, by omega, e3, e4, e5, ?_, e7⟩
        intro l h1 h2
        by_cases hl : l = i
        · subst hl; exact hok
        · exact e6 l (by omega) h2

/-- C55: encapsulation to a valid public key `Q` uses the first draw `k` in `1..n-1`, and goes on exactly while there is none; the
secret is the `x`-coordinate of `k Q` in `plen` octets (a number below the prime, or, for the coordinate zero, possibly the prime
itself), followed in longer buffers by octets of the old contents of the member `d` and, for buffers longer than that
member, by whatever comes after it; the ciphertext point is `k G` with `z = 1`; the secret stays in the context, in place of the
private scalar. -/
theorem C55_enc (x : Ctx) (sslen : Nat) {rng : Nat → List Byte} (hr : ∀ i, (rng i).length = C.plen) (fuel : Nat)
    {G Q : (shortW a b).Point} (hG : Denotes c C.G G) (hQ : Denotes2 c x.Q Q) (h0 : Q ≠ 0) (hn : val C.n • Q = 0)
    (hd : x.d.length = c) :
    (ecdhEnc C c x sslen rng fuel = none ↔ ∀ i < fuel, ¬ (1 ≤ beNat (rng i) ∧ beNat (rng i) < val C.n)) ∧
    ∀ y o, ecdhEnc C c x sslen rng fuel = some (y, o) → ∃ j < fuel, (1 ≤ beNat (rng j) ∧ beNat (rng j) < val C.n) ∧
      (∀ i < j, ¬ (1 ≤ beNat (rng i) ∧ beNat (rng i) < val C.n)) ∧
      Denotes c y.R (beNat (rng j) • G) ∧ val y.R.z = 1 ∧ y.Q = x.Q ∧ y.status = x.status ∧
      ∃ X Y h v, beNat (rng j) • Q = .some X Y h ∧ v ≤ p ∧ (v : ZMod p) = X ∧ (X ≠ 0 → v = X.val) ∧
        octetsOf y.d = beN C.plen v ++ (octetsOf x.d).drop C.plen ∧
        (sslen ≤ 4 * c → o = .secret ((beN C.plen v ++ (octetsOf x.d).drop C.plen).take sslen)) ∧
        (4 * c < sslen → o = .outside) := by
  obtain ⟨g1, g2⟩ := encLoop_spec hC x.Q hr fuel 0
  unfold ecdhEnc
  cases he : encLoop C c x.Q rng fuel 0 with
  | none =>
    refine ⟨?_, fun y o h => by simp at h⟩
    simp only [true_iff]
    intro i hi
    exact g1.mp he i (by omega) (by omega)
  | some kr =>
    obtain ⟨k, R⟩ := kr
    obtain ⟨j, -, hj, e3, e4, e5, e6, rfl⟩ := g2 k R he
    have hgo : ¬ ∀ i < fuel, ¬ (1 ≤ beNat (rng i) ∧ beNat (rng i) < val C.n) := fun h => h j (by omega) e5
    have hne : beNat (rng j) • Q ≠ 0 := smul_ne' hC h0 hn e5.1 e5.2
    have hz := scaleAccumulate_ptZ hC.ok hC.zero hC.two hC.noTwo k (inf_ptZ hC.ok) (denotes2_iff.mp hQ) h0
    rw [zero_add, e4] at hz
    have hzne : val (scaleAccumulate C c (xyzInf c) x.Q k).z ≠ 0 := fun h => hne ((ptZ_iff hz).mp h)
    simp only
    rw [if_neg (by simpa using (nonzero_iff _).mpr hzne)]
    obtain ⟨p1, p2⟩ := pub_of_scalar hC hG (d := k) (by omega) (by omega)
    rw [e4] at p1
    refine ⟨by simp only [reduceCtorEq, false_iff]; exact hgo, ?_⟩
    intro y o h
    simp only [Option.some.injEq, Prod.mk.injEq] at h
    obtain ⟨rfl, rfl⟩ := h
    refine ⟨j, by omega, e5, fun i hi => e6 i (by omega) hi, p1, p2, rfl, rfl, ?_⟩
    rcases hP : beNat (rng j) • Q with _ | ⟨X, Y, hns⟩
    · exact absurd hP hne
    rw [hP] at hz
    obtain ⟨v, v1, v2, v3, v4⟩ := secret_of hC hz.1
    have hs := saved (r := mulM C.aux c (invModP C c (scaleAccumulate C c (xyzInf c) x.Q k).z)
      (scaleAccumulate C c (xyzInf c) x.Q k).x 1) (v := x.d) (plen := C.plen) (by rw [hd]; exact plen_le4 hC)
    rw [v4] at hs
    refine ⟨X, Y, hns, v, rfl, v1, v2, v3, hs.1, ?_, ?_⟩
    · intro hl
      unfold copyOut
      rw [hs.2, hd, if_pos hl, hs.1]
    · intro hl
      unfold copyOut
      rw [hs.2, hd, if_neg (by omega)]

/-- C55: decapsulating a ciphertext point `P` gives the `x`-coordinate of `d P` in the same form; the private scalar and the
public key are untouched, but the ciphertext point is replaced by `d P`. -/
theorem C55_dec (x : Ctx) (sslen : Nat) {P : (shortW a b).Point} (hP : Denotes2 c x.R P) (h0 : P ≠ 0) (hn : val C.n • P = 0)
    (hd1 : 1 ≤ val x.d) (hd2 : val x.d < val C.n) (hk : x.k.length = c) :
    (ecdhDec C c x sslen).1.d = x.d ∧ (ecdhDec C c x sslen).1.Q = x.Q ∧ (ecdhDec C c x sslen).1.status = C.plen ∧
    (ecdhDec C c x sslen).1.k.length = c ∧ Denotes c (ecdhDec C c x sslen).1.R (val x.d • P) ∧
    ∃ X Y h v, val x.d • P = .some X Y h ∧ v ≤ p ∧ (v : ZMod p) = X ∧ (X ≠ 0 → v = X.val) ∧
      (sslen ≤ 4 * c → (ecdhDec C c x sslen).2 = .secret ((beN C.plen v ++ (octetsOf x.k).drop C.plen).take sslen)) ∧
      (4 * c < sslen → (ecdhDec C c x sslen).2 = .outside) := by
  have hne : val x.d • P ≠ 0 := smul_ne' hC h0 hn hd1 hd2
  have hz := scaleAccumulate_ptZ hC.ok hC.zero hC.two hC.noTwo x.d (inf_ptZ hC.ok) (denotes2_iff.mp hP) h0
  rw [zero_add] at hz
  have hcp : xyzCopy c x.R = x.R := copy_pt2 (denotes2_iff.mp hP)
  have hzne : val (scaleAccumulate C c (xyzInf c) x.R x.d).z ≠ 0 := fun h => hne ((ptZ_iff hz).mp h)
  unfold ecdhDec
  rw [hcp]
  simp only
  rw [if_neg (by simpa using (nonzero_iff _).mpr hzne)]
  have hden := denotes_iff.mpr hz.1
  rcases hQ : val x.d • P with _ | ⟨X, Y, hns⟩
  · exact absurd hQ hne
  rw [hQ] at hz hden
  obtain ⟨v, v1, v2, v3, v4⟩ := secret_of hC hz.1
  have hs := saved (r := mulM C.aux c (invModP C c (scaleAccumulate C c (xyzInf c) x.R x.d).z)
    (scaleAccumulate C c (xyzInf c) x.R x.d).x 1) (v := x.k) (plen := C.plen) (by rw [hk]; exact plen_le4 hC)
  rw [v4] at hs
  refine ⟨rfl, rfl, rfl, by simp only; rw [hs.2, hk], hden, X, Y, hns, v, rfl, v1, v2, v3, ?_, ?_⟩
  · intro hl
    unfold copyOut
    simp only
    rw [hs.2, hk, if_pos hl, hs.1]
  · intro hl
    unfold copyOut
    simp only
    rw [hs.2, hk, if_neg (by omega)]

/-- C55: decoding a ciphertext of at least `1 + plen` octets succeeds exactly if it encodes some point of the curve (its order
is not tested); of an uncompressed encoding that point is stored. -/
theorem C55_decode_ciphertext (hA : AliasOk C c) (x : Ctx) (ct : List Byte) (hl : 1 + C.plen ≤ ct.length) :
    ∃ y ok, ecdhDecodeCiphertext C c x ct = some (y, ok) ∧ y.status = 0 ∧ y.d = x.d ∧ y.k = x.k ∧ y.Q = x.Q ∧
      (ok = true ↔ ∃ P : (shortW a b).Point, EncodesPoint C.plen ct P) ∧
      (ok = true → ct.length = 1 + C.plen * 2 → ∀ P : (shortW a b).Point, EncodesPoint C.plen ct P → Denotes2 c y.R P) := by
  unfold ecdhDecodeCiphertext
  by_cases hshape : (∃ X Y, X.length = C.plen ∧ Y.length = C.plen ∧ ct = 4#8 :: (X ++ Y)) ∨
    (∃ t X, (t = 2#8 ∨ t = 3#8) ∧ X.length = C.plen ∧ ct = t :: X)
  · rcases hshape with ⟨X, Y, hX, hY, rfl⟩ | ⟨t, X, ht, hX, rfl⟩
    · rw [alias_unc hC hA X Y hX hY]
      have henc : ∀ P : (shortW a b).Point, EncodesPoint C.plen (4#8 :: (X ++ Y)) P → ∃ h, P = .some (beNat X : ZMod p) (beNat Y : ZMod p) h := by
        rintro P ⟨x', y', h, rfl, ⟨X', Y', hX', hY', he, rfl, rfl⟩ | ⟨t', X', hX', he, -, ht'⟩⟩
        · simp only [List.cons.injEq, true_and] at he
          obtain ⟨rfl, rfl⟩ := List.append_inj he (by omega)
          exact ⟨h, rfl⟩
        · exfalso
          simp only [List.cons.injEq] at he
          rcases ht' with ⟨e, -⟩ | ⟨e, -⟩ <;> rw [e] at he <;> exact absurd he.1 (by decide)
      by_cases he : (beNat Y : ZMod p) ^ 2 = (beNat X : ZMod p) ^ 3 + a * (beNat X : ZMod p) + b
      · rw [if_pos he]
        have hns := EcCheck.nonsingular_of_eq hC.two hC.noTwo he
        refine ⟨_, true, rfl, rfl, rfl, rfl, rfl, ?_, ?_⟩
        · simp only [true_iff]
          exact ⟨.some _ _ hns, _, _, hns, rfl, Or.inl ⟨X, Y, hX, hY, rfl, rfl, rfl⟩⟩
        · intro _ _ P hP
          obtain ⟨h, rfl⟩ := henc P hP
          exact denotes2_iff.mpr (coords_some hC (P := ⟨os2ip c X, os2ip c Y, cpy c one⟩) h le_rfl (os_rep hC X hX).1 (os_rep hC Y hY).1)
      · rw [if_neg he]
        refine ⟨_, false, rfl, rfl, rfl, rfl, rfl, ?_, fun h => by simp at h⟩
        simp only [Bool.false_eq_true, false_iff]
        rintro ⟨P, hP⟩
        obtain ⟨h, -⟩ := henc P hP
        exact he ((eqn_iff _ _).mp h.1)
    · obtain ⟨y, -, hd⟩ := alias_comp hC hA t X hX ht
      rw [hd]
      have hlen : (t :: X).length ≠ 1 + C.plen * 2 := by
        have := hC.plen
        simp [hX]; omega
      by_cases hs : IsSquare ((beNat X : ZMod p) ^ 3 + a * (beNat X : ZMod p) + b)
      · rw [if_pos hs]
        refine ⟨_, true, rfl, rfl, rfl, rfl, rfl, ?_, fun _ h => absurd h hlen⟩
        simp only [true_iff]
        obtain ⟨r, hr⟩ := hs
        have hr' : r ^ 2 = (beNat X : ZMod p) ^ 3 + a * (beNat X : ZMod p) + b := by rw [hr]; ring
        have hr0 : r ≠ 0 := by rintro rfl; exact hC.noTwo _ (by rw [hr]; ring)
        have hpar := neg_val (podd hC) hr0
        have hns := EcCheck.nonsingular_of_eq hC.two hC.noTwo hr'
        have hns' := EcCheck.nonsingular_of_eq hC.two hC.noTwo (y := -r) (by rw [neg_sq]; exact hr')
        have h2 := r.val.mod_two_eq_zero_or_one
        rcases ht with rfl | rfl
        · rcases h2 with h2 | h2
          · exact ⟨.some _ _ hns, _, _, hns, rfl, Or.inr ⟨_, X, hX, rfl, rfl, Or.inl ⟨rfl, h2⟩⟩⟩
          · exact ⟨.some _ _ hns', _, _, hns', rfl, Or.inr ⟨_, X, hX, rfl, rfl, Or.inl ⟨rfl, by omega⟩⟩⟩
        · rcases h2 with h2 | h2
          · exact ⟨.some _ _ hns', _, _, hns', rfl, Or.inr ⟨_, X, hX, rfl, rfl, Or.inr ⟨rfl, by omega⟩⟩⟩
          · exact ⟨.some _ _ hns, _, _, hns, rfl, Or.inr ⟨_, X, hX, rfl, rfl, Or.inr ⟨rfl, h2⟩⟩⟩
      · rw [if_neg hs]
        refine ⟨_, false, rfl, rfl, rfl, rfl, rfl, ?_, fun h => by simp at h⟩
        simp only [Bool.false_eq_true, false_iff]
        rintro ⟨P, x', y', h, rfl, ⟨X', Y', hX', hY', he, rfl, rfl⟩ | ⟨t', X', hX', he, rfl, ht'⟩⟩
        · simp only [List.cons.injEq] at he
          rcases ht with e | e <;> rw [e] at he <;> exact absurd he.1 (by decide)
        · simp only [List.cons.injEq] at he
          obtain ⟨rfl, rfl⟩ := he
          exact hs ⟨y', by rw [← (eqn_iff _ _).mp h.1]; ring⟩
  · have hno : ∀ u, decodeY C c ct u = none := by
      intro u
      cases h : decodeY C c ct u with
      | none => rfl
      | some y => exact absurd (decodeY_shape hl h) hshape
    have : pointDecodeAlias C c ct = some none := by
      unfold pointDecodeAlias
      rw [if_neg (by omega)]
      simp only [hno]
    rw [this]
    refine ⟨_, false, rfl, rfl, rfl, rfl, rfl, ?_, fun h => by simp at h⟩
    simp only [Bool.false_eq_true, false_iff]
    rintro ⟨P, x', y', h, rfl, ⟨X', Y', hX', hY', he, -⟩ | ⟨t', X', hX', he, -, ht'⟩⟩
    · exact hshape (Or.inl ⟨X', Y', hX', hY', he⟩)
    · exact hshape (Or.inr ⟨t', X', ht'.imp (·.1) (·.1), hX', he⟩)

omit hp hC in
/-- C55: ciphertexts shorter than `1 + plen` octets are read beyond their end. -/
theorem C55_overread (x : Ctx) (ct : List Byte) (h : ct.length < 1 + C.plen) : ecdhDecodeCiphertext C c x ct = none := by
  unfold ecdhDecodeCiphertext pointDecodeAlias
  rw [if_pos h]

/-- C56: the two parties agree.  One holds a private scalar `d`, the other the public key `d G` and encapsulates; the
ciphertext, encoded without compression, decoded and decapsulated, gives the same octets (unless the common `x`-coordinate is
zero, where one may obtain the octets of zero and the other those of the prime). -/
theorem C56_agree (hA : AliasOk C c) (xa xb yb : Ctx) (o : KemOut) (sslen : Nat) (hss : sslen ≤ C.plen) {rng : Nat → List Byte}
    (hr : ∀ i, (rng i).length = C.plen) (fuel : Nat) {G : (shortW a b).Point} (hG : Denotes c C.G G)
    (hd1 : 1 ≤ val xa.d) (hd2 : val xa.d < val C.n) (hk : xa.k.length = c)
    (hQ : Denotes2 c xb.Q (val xa.d • G)) (hdb : xb.d.length = c)
    (h : ecdhEnc C c xb sslen rng fuel = some (yb, o)) :
    ∃ ct ya, ecdhEncodeCiphertext C yb (1 + C.plen * 2) = some ct ∧ ecdhDecodeCiphertext C c xa ct = some (ya, true) ∧
      ∃ j < fuel, ∃ X Y hns, (val xa.d * beNat (rng j)) • G = .some X Y hns ∧
        (X ≠ 0 → o = .secret ((beN C.plen X.val).take sslen) ∧ (ecdhDec C c ya sslen).2 = o) := by
  have ho := base_order hC hG
  have hGn : val C.n • G = 0 := by rw [← ho]; exact addOrderOf_nsmul_eq_zero G
  have hQ0 : val xa.d • G ≠ 0 := smul_ne hC ho hd1 hd2
  have hQn : val C.n • (val xa.d • G) = 0 := by rw [← mul_nsmul', mul_nsmul, hGn, nsmul_zero]
  obtain ⟨j, hj, e1, -, e2, e3, -, -, X, Y, hns, v, f1, f2, f3, f4, -, f5, -⟩ := (C55_enc hC xb sslen hr fuel hG hQ hQ0 hQn hdb).2 yb o h
  have hR0 : beNat (rng j) • G ≠ 0 := smul_ne hC ho e1.1 e1.2
  have hRn : val C.n • (beNat (rng j) • G) = 0 := by rw [← mul_nsmul', mul_nsmul, hGn, nsmul_zero]
  obtain ⟨ct, c1, c2, c3⟩ := encode_ok hC e2 e3 hR0 _ (Or.inl rfl)
  obtain ⟨ya, ok, d1, d2, d3, d4, d5, d6, d7⟩ := C55_decode_ciphertext hC hA xa ct (by omega)
  have hok := d6.mpr ⟨_, c3⟩
  subst hok
  refine ⟨ct, ya, c1, d1, j, hj, X, Y, hns, ?_, ?_⟩
  · rw [mul_nsmul]; exact f1
  · intro hX
    have hpl := plen_le4 hC
    obtain ⟨-, -, -, -, -, X', Y', hns', v', g1, g2, g3, g4, g5, -⟩ := C55_dec hC ya sslen (d7 rfl c2 _ c3) hR0 hRn
      (by rw [d3]; exact hd1) (by rw [d3]; exact hd2) (by rw [d4]; exact hk)
    rw [d3, ← mul_nsmul, mul_comm, mul_nsmul, f1] at g1
    simp only [WeierstrassCurve.Affine.Point.some.injEq] at g1
    obtain ⟨rfl, rfl⟩ := g1
    have htake : ∀ (l m : List Byte), sslen ≤ l.length → (l ++ m).take sslen = l.take sslen := fun l m hl =>
      List.take_append_of_le_length hl
    have e5 := f5 (by omega)
    rw [f4 hX, htake _ _ (by rw [length_beN]; exact hss)] at e5
    refine ⟨e5, ?_⟩
    rw [g5 (by omega), g4 hX, htake _ _ (by rw [length_beN]; exact hss), e5]

/-- C56: decapsulating twice: the second secret is the `x`-coordinate of `d (d P)`, not that of `d P`. -/
theorem C56_dec_twice (x : Ctx) (sslen sslen' : Nat) (hl : sslen' ≤ C.plen) {P : (shortW a b).Point} (hP : Denotes2 c x.R P) (h0 : P ≠ 0)
    (hn : val C.n • P = 0) (hd1 : 1 ≤ val x.d) (hd2 : val x.d < val C.n) (hk : x.k.length = c) :
    ∃ X Y h, (val x.d * val x.d) • P = .some X Y h ∧
      (X ≠ 0 → (ecdhDec C c (ecdhDec C c x sslen).1 sslen').2 = .secret ((beN C.plen X.val).take sslen')) := by
  obtain ⟨h1, -, -, h4, h5, -⟩ := C55_dec hC x sslen hP h0 hn hd1 hd2 hk
  obtain ⟨-, -, -, -, -, X, Y, h, v, g1, g2, g3, g4, g5, -⟩ := C55_dec hC (ecdhDec C c x sslen).1 sslen' (Denotes2.of h5)
    (smul_ne' hC h0 hn hd1 hd2) (by rw [← mul_nsmul', mul_nsmul, hn, nsmul_zero]) (by rw [h1]; exact hd1) (by rw [h1]; exact hd2) h4
  rw [h1, ← mul_nsmul] at g1
  have := plen_le4 hC
  refine ⟨X, Y, h, g1, fun hX => ?_⟩
  rw [g5 (by omega), g4 hX, List.take_append_of_le_length (by rw [length_beN]; exact hl)]

/-- C56: every compressed ciphertext of a point of the curve is accepted, but what is stored is not that point, nor any point of the
curve; decapsulation then returns NULL, or the octets of a number that is zero modulo the prime: never the secret. -/
theorem C56_compressed (hA : AliasOk C c) (x : Ctx) (ct : List Byte) {P : (shortW a b).Point} (hP : EncodesPoint C.plen ct P)
    (hl : ct.length = 1 + C.plen) (hd : x.d ≠ []) (hk : x.k.length = c) :
    ∃ y, ecdhDecodeCiphertext C c x ct = some (y, true) ∧ (∀ P' : (shortW a b).Point, ¬ Denotes2 c y.R P') ∧
      ∀ sslen ≤ 4 * c, (ecdhDec C c y sslen).2 = .null ∨ ∃ v ≤ p, (v : ZMod p) = 0 ∧
        (ecdhDec C c y sslen).2 = .secret ((beN C.plen v ++ (octetsOf x.k).drop C.plen).take sslen) := by
  have hpl := hC.plen
  obtain ⟨x', y', h, rfl, ⟨X, Y, hX, hY, rfl, -⟩ | ⟨t, X, hX, rfl, rfl, ht⟩⟩ := hP
  · simp [hX, hY] at hl; omega
  obtain ⟨y, ry, hdec⟩ := alias_comp hC hA t X hX (ht.imp (·.1) (·.1))
  have hsq : IsSquare ((beNat X : ZMod p) ^ 3 + a * (beNat X : ZMod p) + b) := ⟨y', by rw [← (eqn_iff _ _).mp h.1]; ring⟩
  rw [if_pos hsq] at hdec
  obtain ⟨rx, -⟩ := os_rep hC X hX
  have ro := (one_rep hC).1
  refine ⟨{ x with status := 0, R := ⟨os2ip c X, y, cpy c one⟩ }, by unfold ecdhDecodeCiphertext; rw [hdec], ?_, ?_⟩
  · intro P' hP'
    have hco := hP'.2.2
    simp only [rx.res, ry.res, ro.res] at hco
    rcases P' with _ | ⟨u, v, hq⟩
    · exact one_ne_zero hco.2.2
    · obtain ⟨-, -, e⟩ := hco
      have hv : v = 0 := by simpa using e.symm
      exact y_ne hC.noTwo hq.1 hv
  · intro sslen hss
    obtain ⟨w0, hz⟩ := scale_y0 hC rx (ry.mono (by norm_num)) (ro.mono (by norm_num)) x.d hd
    unfold ecdhDec
    have hcp : xyzCopy c ⟨os2ip c X, y, cpy c one⟩ = ⟨os2ip c X, y, cpy c one⟩ := by
      unfold xyzCopy; rw [cpy_self rx.len, cpy_self ry.len, cpy_self ro.len]
    simp only [hcp]
    split
    · exact Or.inl rfl
    · right
      generalize hRR : scaleAccumulate C c (xyzInf c) ⟨os2ip c X, y, cpy c one⟩ x.d = RR at *
      have hinv := invP_rep hC hz.z
      rw [inv_zero] at hinv
      have hm : Rep c p 1 (mulM C.aux c (invModP C c RR.z) RR.x 1) 0 := (mul_rr hC.fld hinv hz.x (by norm_num)).of_eq (by ring)
      have hs := saved (r := mulM C.aux c (invModP C c RR.z) RR.x 1) (v := x.k) (plen := C.plen) (by rw [hk]; exact plen_le4 hC)
      rw [Pkcs1.i2osp_beN] at hs
      refine ⟨_, by simpa using hm.le, hm.res, ?_⟩
      unfold copyOut
      simp only
      rw [hs.2, hk, if_pos hss, hs.1]

end

/-- The premises of the theorems above hold of the three curves; here: encapsulation to the base point of each. -/
example : AliasOk secp256r1 11 ∧ AliasOk secp384r1 15 ∧ AliasOk curveSM2 11 := ⟨alias256, alias384, aliasSM2⟩

example (x : Ctx) (hx : x.d.length = 11) : ∃ G : (shortW (-3 : ZMod q256) ((b256 : Nat) : ZMod q256)).Point,
    Denotes 11 secp256r1.G G ∧ Denotes2 11 { x with Q := secp256r1.G }.Q G ∧ G ≠ 0 ∧ val secp256r1.n • G = 0 ∧
    { x with Q := secp256r1.G }.d.length = 11 := by
  obtain ⟨G, h1, h2, -, h4⟩ := C40_base_point.1
  exact ⟨G, h1, Denotes2.of h1, h2, by rw [← h4]; exact addOrderOf_nsmul_eq_zero G, hx⟩

/-- The secret of the agreement is not always zero: with scalars `1` and `1` it is the abscissa of the base point. -/
example : ∃ (G : (shortW (-3 : ZMod q256) ((b256 : Nat) : ZMod q256)).Point) (X Y : ZMod q256)
    (h : (shortW (-3 : ZMod q256) ((b256 : Nat) : ZMod q256)).Nonsingular X Y),
    Denotes 11 secp256r1.G G ∧ (1 * 1) • G = .some X Y h ∧ X ≠ 0 := by
  obtain ⟨G, h1, h2, -, -⟩ := C40_base_point.1
  rcases G with _ | ⟨X, Y, h⟩
  · exact absurd rfl h2
  refine ⟨_, X, Y, h, h1, by rw [one_mul, one_nsmul], ?_⟩
  rintro rfl
  have hx := h1.2.2.2.1
  rw [zero_mul, ZMod.natCast_eq_zero_iff] at hx
  exact absurd hx (by decide +kernel)

end Props
