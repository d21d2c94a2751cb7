import Verif.Lemmas.EccRe
import Verif.Lemmas.EccInst

/-!
# Keys of the short Weierstrass curves: C49, C50, C51

`Denotes c P Q` (coordinates at most `p`) and `Denotes2 c P Q` (at most `2p`) say that the words of `P` are homogeneous
coordinates of the point `Q` of the curve.
-/

namespace Props
open Vlong Ec Ecc Spec EcParam

/-- The three curves of the library meet the premise of the theorems below. -/
theorem C49_curves : EccCurve secp256r1 11 q256 (-3) ((b256 : Nat) : ZMod q256) ∧
    EccCurve secp384r1 15 q384 (-3) ((b384 : Nat) : ZMod q384) ∧
    EccCurve curveSM2 11 qSM2 (-3) ((bSM2 : Nat) : ZMod qSM2) := ⟨eccCurve256, eccCurve384, eccCurveSM2⟩

theorem dec_of {C : Curve} {c : Nat} {enc : List Byte} {P : Xyz} (h : pointDecode C c enc = some (some P)) (x : Ctx) :
    decodePublicKey C c x enc = some ({ x with status := 0, Q := P }, true) := by
  unfold decodePublicKey; rw [h]

section
variable {C : Curve} {c p : Nat} [hp : Fact p.Prime] {a b : ZMod p} (hC : EccCurve C c p a b)
include hC

/-- C49: the inverse modulo the field prime, for every number up to the prime; multiples of the prime give a multiple of
it. -/
theorem C49_inverse_p {x : List W} (hl : x.length = c) (hv : val x ≤ p) : (invModP C c x).length = c ∧
    val (invModP C c x) ≤ p ∧ (¬ p ∣ val x → val (invModP C c x) * val x % p = 1) ∧
    (p ∣ val x → p ∣ val (invModP C c x)) := by
  have h := invP_rep hC (l := x) ⟨hl, by omega, rfl⟩
  refine ⟨h.len, by have := h.le; omega, fun hd => ?_, fun hd => ?_⟩
  · have h0 : (val x : ZMod p) ≠ 0 := by rwa [Ne, ZMod.natCast_eq_zero_iff]
    have : ((val (invModP C c x) * val x : Nat) : ZMod p) = ((1 : Nat) : ZMod p) := by
      rw [Nat.cast_mul, h.res, inv_mul_cancel₀ h0, Nat.cast_one]
    rw [ZMod.natCast_eq_natCast_iff'] at this
    rw [this, Nat.mod_eq_of_lt hp.out.one_lt]
  · rw [← ZMod.natCast_eq_zero_iff] at hd ⊢
    rw [h.res, hd, inv_zero]

/-- C49: the inverse modulo the order of the base point. -/
theorem C49_inverse_n {x : List W} (hl : x.length = c) (hv : val x ≤ val C.n) : (invModN C c x).length = c ∧
    val (invModN C c x) ≤ val C.n ∧ (¬ val C.n ∣ val x → val (invModN C c x) * val x % val C.n = 1) ∧
    (val C.n ∣ val x → val C.n ∣ val (invModN C c x)) := by
  haveI : Fact (val C.n).Prime := ⟨hC.nprime⟩
  have h := invN_rep hC (l := x) ⟨hl, by omega, rfl⟩
  refine ⟨h.len, by have := h.le; omega, fun hd => ?_, fun hd => ?_⟩
  · have h0 : (val x : ZMod (val C.n)) ≠ 0 := by rwa [Ne, ZMod.natCast_eq_zero_iff]
    have : ((val (invModN C c x) * val x : Nat) : ZMod (val C.n)) = ((1 : Nat) : ZMod (val C.n)) := by
      rw [Nat.cast_mul, h.res, inv_mul_cancel₀ h0, Nat.cast_one]
    rw [ZMod.natCast_eq_natCast_iff'] at this
    rw [this, Nat.mod_eq_of_lt hC.nprime.one_lt]
  · rw [← ZMod.natCast_eq_zero_iff] at hd ⊢
    rw [h.res, hd, inv_zero]

/-- C49: the square root: a result is always returned, and it is a root of the argument exactly if the argument has one. -/
theorem C49_sqrt {x : List W} (hl : x.length = c) (hv : val x ≤ p) : ∃ y, sqrtC3m4 C.aux c x = some y ∧
    y.length = c ∧ val y ≤ p ∧ ((∃ r : Nat, r ^ 2 % p = val x % p) ↔ val y ^ 2 % p = val x % p) := by
  obtain ⟨y, hy, ry⟩ := sqrt_rep hC (l := x) ⟨hl, by omega, rfl⟩
  refine ⟨y, hy, ry.len, by have := ry.le; omega, fun ⟨r, hr⟩ => ?_, fun h => ⟨_, h⟩⟩
  have e : ((r ^ 2 : Nat) : ZMod p) = (val x : ZMod p) := (ZMod.natCast_eq_natCast_iff' _ _ _).mpr hr
  rw [Nat.cast_pow] at e
  have := sqrt_sq hC.p4 e
  rw [← ry.res] at this
  exact (ZMod.natCast_eq_natCast_iff' _ _ _).mp (by rw [Nat.cast_pow]; exact this)

/-- C50: decoding a public key reads outside the octets it is given exactly if they are fewer than `1 + plen`. -/
theorem C50_overread (x : Ctx) (enc : List Byte) : decodePublicKey C c x enc = none ↔ enc.length < 1 + C.plen := by
  unfold decodePublicKey pointDecode
  by_cases h : enc.length < 1 + C.plen
  · simp [h]
  · rw [if_neg h]
    simp only [h, iff_false]
    cases decodeY C c enc (curveRhs C c (os2ip c ((enc.drop 1).take C.plen))) with
    | none => simp
    | some y =>
      simp only
      split_ifs <;> simp

/-- C50: a public key is accepted exactly if its octets encode a point of the curve (other than infinity) of order
dividing `n`; the key then stored denotes that point, and the status tells the outcome. -/
theorem C50_decode (x : Ctx) (enc : List Byte) (hl : 1 + C.plen ≤ enc.length) :
    ∃ y ok, decodePublicKey C c x enc = some (y, ok) ∧ y.status = (if ok then 0 else -1) ∧
      (ok = true ↔ ∃ Q : (shortW a b).Point, EncodesPoint C.plen enc Q ∧ val C.n • Q = 0) ∧
      (ok = true → ∀ Q : (shortW a b).Point, EncodesPoint C.plen enc Q → Denotes2 c y.Q Q ∧ val y.Q.z = 1) := by
  unfold decodePublicKey
  cases hd : pointDecode C c enc with
  | none =>
    have := (C50_overread hC x enc).mp (by unfold decodePublicKey; rw [hd])
    omega
  | some o =>
    cases o with
    | none =>
      refine ⟨_, _, rfl, rfl, ?_, fun h => absurd h (by simp)⟩
      simp only [Bool.false_eq_true, false_iff]
      rintro ⟨Q, h1, h2⟩
      obtain ⟨P, hP, -⟩ := decode_complete hC h1 h2
      rw [hd] at hP; simp at hP
    | some P =>
      obtain ⟨Q, h1, h2, h3, h4⟩ := decode_sound hC hd
      refine ⟨_, _, rfl, rfl, ?_, fun _ Q' hQ' => ?_⟩
      · simp only [true_iff]
        exact ⟨Q, h1, h2⟩
      · have : Q' = Q := by
          obtain ⟨x1, y1, n1, rfl, e1⟩ := h1
          obtain ⟨x2, y2, n2, rfl, e2⟩ := hQ'
          have hpl := hC.plen
          rcases e1 with ⟨X, Y, hX, hY, rfl, rfl, rfl⟩ | ⟨t, X, hX, rfl, rfl, ht⟩
          · rcases e2 with ⟨X', Y', hX', hY', he, rfl, rfl⟩ | ⟨t', X', hX', he, -⟩
            · rw [List.cons.injEq] at he
              obtain ⟨rfl, rfl⟩ := List.append_inj he.2 (hX.trans hX'.symm)
              rfl
            · have := congrArg List.length he
              simp at this; omega
          · rcases e2 with ⟨X', Y', hX', hY', he, -⟩ | ⟨t', X', hX', he, rfl, ht'⟩
            · have := congrArg List.length he
              simp at this; omega
            · rw [List.cons.injEq] at he
              obtain ⟨rfl, rfl⟩ := he
              have hy : y2 = y1 := by
                have g1 := (eqn_iff _ _).mp n1.1
                have g2 := (eqn_iff _ _).mp n2.1
                refine parity_eq (podd hC) (y_ne hC.noTwo n2.1) (g2.trans g1.symm) ?_
                rcases ht with ⟨rfl, h⟩ | ⟨rfl, h⟩ <;> rcases ht' with ⟨h', h''⟩ | ⟨h', h''⟩
                · omega
                · simp at h'
                · simp at h'
                · omega
              subst hy; rfl
        rw [this]; exact ⟨h3, h4⟩

/-- C50: encoding a public key in canonical form (as key generation and private-key decoding leave it), in either form,
gives octets that decode to the same point. -/
theorem C50_roundtrip (x : Ctx) {Q : (shortW a b).Point} (h : Denotes c x.Q Q) (hz : val x.Q.z = 1) (h0 : Q ≠ 0)
    (hn : val C.n • Q = 0) (len : Nat) (hlen : len = 1 + C.plen * 2 ∨ len = 1 + C.plen) (x' : Ctx) :
    ∃ enc, encodePublicKey C x len = some enc ∧ enc.length = len ∧ EncodesPoint C.plen enc Q ∧
      ∃ y, decodePublicKey C c x' enc = some (y, true) ∧ Denotes2 c y.Q Q := by
  obtain ⟨enc, h1, h2, h3⟩ := encode_ok hC h hz h0 len hlen
  obtain ⟨P, h4, h5⟩ := decode_complete hC h3 hn
  refine ⟨enc, h1, h2, h3, { x' with status := 0, Q := P }, ?_, h5⟩
  unfold decodePublicKey
  rw [h4]

/-- C50: re-encoding an accepted public key to the length it came in gives the same octets. -/
theorem C50_reencode (x y : Ctx) (enc : List Byte) (h : decodePublicKey C c x enc = some (y, true)) :
    encodePublicKey C y enc.length = some enc := by
  unfold decodePublicKey at h
  split at h
  · simp at h
  · simp at h
  · rename_i P hd
    simp only [Option.some.injEq, Prod.mk.injEq, and_true] at h
    subst h
    exact reencode hC hd

/-- C50: no other output length is encoded to. -/
theorem C50_encode_lengths (x : Ctx) (len : Nat) : encodePublicKey C x len = none ↔
    len ≠ 1 + C.plen * 2 ∧ len ≠ 1 + C.plen := by
  unfold encodePublicKey pointEncode
  by_cases h1 : len = 1 + C.plen * 2
  · simp [h1]
  · by_cases h2 : len = 1 + C.plen
    · have := hC.plen
      subst h2; rw [if_neg (by omega), if_pos rfl]; simp
    · simp [h1, h2]

/-- C50: compressing an accepted uncompressed key gives an encoding of the point if the octets of `y` are below the
prime, and of the opposite point otherwise. -/
theorem C50_compress (x y : Ctx) {X Y : List Byte} (hX : X.length = C.plen) (hY : Y.length = C.plen)
    (h : decodePublicKey C c x (4#8 :: (X ++ Y)) = some (y, true)) {Q : (shortW a b).Point}
    (hQ : EncodesPoint C.plen (4#8 :: (X ++ Y)) Q) :
    ∃ enc, encodePublicKey C y (1 + C.plen) = some enc ∧ EncodesPoint C.plen enc (if beNat Y < p then Q else -Q) := by
  unfold decodePublicKey at h
  split at h
  · simp at h
  · simp at h
  · rename_i P hd
    simp only [Option.some.injEq, Prod.mk.injEq, and_true] at h
    subst h
    obtain ⟨enc, h1, -, h2⟩ := recompress hC hX hY hd hQ
    exact ⟨enc, h1, h2⟩

/-- C50: decompressing an accepted compressed key gives an encoding of the same point. -/
theorem C50_decompress (x y : Ctx) (enc : List Byte) (h : decodePublicKey C c x enc = some (y, true))
    {Q : (shortW a b).Point} (hQ : EncodesPoint C.plen enc Q) :
    ∃ enc', encodePublicKey C y (1 + C.plen * 2) = some enc' ∧ EncodesPoint C.plen enc' Q := by
  have hl : 1 + C.plen ≤ enc.length := by
    by_contra hl
    rw [(C50_overread hC x enc).mpr (by omega)] at h
    simp at h
  have hn : val C.n • Q = 0 := by
    have hd := h
    unfold decodePublicKey at hd
    split at hd
    · simp at hd
    · simp at hd
    · rename_i P hd'
      obtain ⟨Q', h1, h2, h3, -⟩ := decode_sound hC hd'
      simp only [Option.some.injEq, Prod.mk.injEq, and_true] at hd
      obtain ⟨y', ok, e1, -, -, e2⟩ := C50_decode hC x enc hl
      rw [h] at e1
      simp only [Option.some.injEq, Prod.mk.injEq] at e1
      obtain ⟨rfl, rfl⟩ := e1
      have := (e2 rfl Q hQ).1
      rw [← hd] at this
      have : Q = Q' := coords_unique this.2.2 h3.2.2
      rw [this]; exact h2
  unfold decodePublicKey at h
  split at h
  · simp at h
  · simp at h
  · rename_i P hd
    simp only [Option.some.injEq, Prod.mk.injEq, and_true] at h
    subst h
    exact reuncompress hC hd hQ hn

/-- C51: a private key is accepted exactly if it has `plen` octets and is a number from `1` to `n - 1`; the context then
holds that number and the public point `d·G`, in canonical form. -/
theorem C51_decode_private {G : (shortW a b).Point} (hG : Denotes c C.G G) (x : Ctx) (enc : List Byte) :
    (decodePrivateKey C c x enc ≠ none ↔ enc.length = C.plen ∧ 1 ≤ beNat enc ∧ beNat enc < val C.n) ∧
    (∀ y, decodePrivateKey C c x enc = some y → y.status = 0 ∧ y.d.length = c ∧ val y.d = beNat enc ∧
      Denotes c y.Q (beNat enc • G) ∧ val y.Q.z = 1) := by
  obtain ⟨h1, h2⟩ := dec_spec hC hG enc
  unfold decodePrivateKey
  cases hd : decPrivkey C c enc with
  | none =>
    refine ⟨?_, fun y h => by simp at h⟩
    simpa using h2.mp hd
  | some r =>
    obtain ⟨d, Q⟩ := r
    obtain ⟨g1, g2, g3, g4, g5, g6, g7⟩ := h1 d Q hd
    refine ⟨?_, fun y h => ?_⟩
    · simp only [ne_eq, reduceCtorEq, not_false_eq_true, true_iff]
      exact ⟨g1, by omega, by omega⟩
    · simp only [Option.some.injEq] at h
      subst h
      exact ⟨rfl, g2, g3, g3 ▸ g6, g7⟩

/-- C51: a private key that was accepted is written out as the same octets, and buffers of another length are refused. -/
theorem C51_private_roundtrip (x y : Ctx) (enc : List Byte) (h : decodePrivateKey C c x enc = some y) (len : Nat) :
    encodePrivateKey C y len = if len = C.plen then some enc else none := by
  obtain ⟨G, hG, -⟩ := hC.base
  obtain ⟨h1, h2⟩ := C51_decode_private hC hG x enc
  obtain ⟨hl, -, -⟩ := h1.mp (by rw [h]; simp)
  obtain ⟨-, e1, e2, -⟩ := h2 y h
  unfold encodePrivateKey
  by_cases hlen : len = C.plen
  · rw [if_neg (by rw [not_not]; exact hlen), if_pos hlen]
    congr 1
    apply Pkcs1.beNat_inj
    · rw [(C06_i2osp _ _).1, hl]
    · rw [(C06_i2osp _ _).2, e2, Nat.mod_eq_of_lt]
      have := beNat_lt enc
      rwa [hl] at this
  · rw [if_pos hlen, if_neg hlen]

/-- C51: key generation takes the first draw that is a number from `1` to `n - 1` as the private key and makes the public
key `d·G` of it, in canonical form; it goes on exactly while no draw is. -/
theorem C51_keygen {rng : Nat → List Byte} (hr : ∀ i, (rng i).length = C.plen) {G : (shortW a b).Point}
    (hG : Denotes c C.G G) (fuel : Nat) (x : Ctx) :
    (keygen C c rng fuel x = none ↔ ∀ i < fuel, ¬ (1 ≤ beNat (rng i) ∧ beNat (rng i) < val C.n)) ∧
    (∀ y, keygen C c rng fuel x = some y → ∃ j < fuel, (1 ≤ beNat (rng j) ∧ beNat (rng j) < val C.n) ∧
      (∀ i < j, ¬ (1 ≤ beNat (rng i) ∧ beNat (rng i) < val C.n)) ∧ y.status = 0 ∧ y.d.length = c ∧
      val y.d = beNat (rng j) ∧ Denotes c y.Q (beNat (rng j) • G) ∧ val y.Q.z = 1) := by
  obtain ⟨h1, h2⟩ := gen_spec hC hr hG fuel 0
  have hsome : ∀ y, keygen C c rng fuel x = some y → ∃ j < fuel, (1 ≤ beNat (rng j) ∧ beNat (rng j) < val C.n) ∧
      (∀ i < j, ¬ (1 ≤ beNat (rng i) ∧ beNat (rng i) < val C.n)) ∧ y.status = 0 ∧ y.d.length = c ∧
      val y.d = beNat (rng j) ∧ Denotes c y.Q (beNat (rng j) • G) ∧ val y.Q.z = 1 := by
    intro y h
    unfold keygen at h
    split at h
    · simp at h
    · rename_i d Q hd
      simp only [Option.some.injEq] at h
      subst h
      obtain ⟨j, -, g2, g3, g4, g5, g6, g7, g8, g9⟩ := h1 d Q hd
      refine ⟨j, by omega, ⟨by omega, by omega⟩, fun i hi => g7 i (by omega) hi, rfl, ?_, g4, g4 ▸ g8, g9⟩
      rw [g3]; exact (C06_os2ip _ _).1
  refine ⟨⟨fun h i hi => ?_, fun h => ?_⟩, hsome⟩
  · unfold keygen at h
    split at h
    · rename_i hd
      exact h2 hd i (by omega) (by omega)
    · simp at h
  · cases hk : keygen C c rng fuel x with
    | none => rfl
    | some y =>
      obtain ⟨j, hj, hgood, -⟩ := hsome y hk
      exact absurd hgood (h j hj)

/-- C51: the public key of a generated pair, exported in either form, is accepted by another party and denotes `d·G`; the
private key exported and loaded elsewhere gives the same pair. -/
theorem C51_keygen_export {rng : Nat → List Byte} (hr : ∀ i, (rng i).length = C.plen) {G : (shortW a b).Point}
    (hG : Denotes c C.G G) (fuel : Nat) (x y x' : Ctx) (h : keygen C c rng fuel x = some y) :
    (∀ len, (len = 1 + C.plen * 2 ∨ len = 1 + C.plen) → ∃ enc, encodePublicKey C y len = some enc ∧
      ∃ y', decodePublicKey C c x' enc = some (y', true) ∧ Denotes2 c y'.Q (val y.d • G)) ∧
    (∃ enc y', encodePrivateKey C y C.plen = some enc ∧ decodePrivateKey C c x' enc = some y' ∧ y'.d = y.d ∧
      y'.Q = y.Q) := by
  obtain ⟨j, -, hg, -, -, e1, e2, e3, e4⟩ := (C51_keygen hC hr hG fuel x).2 y h
  have ho := base_order hC hG
  rw [← e2] at e3
  constructor
  · intro len hlen
    have h0 := smul_ne hC ho (k := val y.d) (by omega) (by omega)
    have hn : val C.n • (val y.d • G) = 0 := by
      rw [smul_comm, ← ho, addOrderOf_nsmul_eq_zero, smul_zero]
    obtain ⟨enc, g1, -, -, g2⟩ := C50_roundtrip hC y e3 e4 h0 hn len hlen x'
    exact ⟨enc, g1, g2⟩
  · obtain ⟨g1, g2⟩ := gen_spec hC hr hG fuel 0
    unfold keygen at h
    split at h
    · simp at h
    · rename_i d Q hd
      simp only [Option.some.injEq] at h
      subst h
      obtain ⟨j', -, -, k1, k2, k3, k4, -, -, -⟩ := g1 d Q hd
      have hQ : Q = canonPubkey C c (scaleAccumulate C c (xyzInf c) C.G d) := by
        clear g1 g2 e1 e2 e3 e4 hg k1 k2 k3 k4
        revert hd
        generalize (0 : Nat) = i
        induction fuel generalizing i with
        | zero => intro hd; simp [genPrivkey] at hd
        | succ f ih =>
          intro hd
          unfold genPrivkey at hd
          simp only at hd
          split at hd
          · simp only [Option.some.injEq, Prod.mk.injEq] at hd
            rw [← hd.2, ← hd.1]
          · exact ih _ hd
      have hrl := hr j'
      have hoct : i2osp d C.plen = rng j' := by rw [k1]; exact i2os hC _ hrl
      refine ⟨rng j', { x' with status := 0, d := d, Q := Q }, ?_, ?_, rfl, rfl⟩
      · unfold encodePrivateKey
        rw [if_neg (by simp)]
        exact congrArg some hoct
      · unfold decodePrivateKey decPrivkey
        rw [if_neg (by rw [not_not]; exact hrl)]
        simp only
        rw [← k1, if_pos ((scalarOk_iff C d).mpr ⟨k3, k4⟩)]
        simp only [hQ]

end

/-- The point of secp256r1 with `x = 0`, used below. -/
theorem x0point : ∃ hns : (shortW (-3 : ZMod q256) ((b256 : Nat) : ZMod q256)).Nonsingular ((0 : Nat) : ZMod q256)
      ((46263761741508638697010950048709651021688891777877937875096931459006746039284 : Nat) : ZMod q256),
      n256 • (WeierstrassCurve.Affine.Point.some _ _ hns) = 0 := by
  have := EcCheck.order_of_check (p := q256) (a := 115792089210356248762697446949407573530086143415290314195533631308867097853948) (b := b256) (n := n256) (x := 0) (y := 46263761741508638697010950048709651021688891777877937875096931459006746039284)
    two256 noTwo256' (by decide +kernel)
  rw [a256] at this
  exact this

/-- C50: the octets of the coordinates are not required to be reduced: on secp256r1 the same point is accepted with two
different values of the `x` octets (`0` and the prime itself). -/
theorem C50_noncanonical_accepted (x : Ctx) : ∃ (enc enc' : List Byte) (y y' : Ctx)
    (Q : (shortW (-3 : ZMod q256) ((b256 : Nat) : ZMod q256)).Point), enc ≠ enc' ∧ enc.length = enc'.length ∧
    decodePublicKey secp256r1 11 x enc = some (y, true) ∧ decodePublicKey secp256r1 11 x enc' = some (y', true) ∧
    Denotes2 11 y.Q Q ∧ Denotes2 11 y'.Q Q := by
  obtain ⟨hns, hn⟩ := x0point
  have hn' : val secp256r1.n • (WeierstrassCurve.Affine.Point.some _ _ hns) = 0 := by
    rw [show val secp256r1.n = n256 by decide +kernel]; exact hn
  have hpl : secp256r1.plen = 32 := rfl
  have key : ∀ v : Nat, v < 256 ^ 32 → ((v : Nat) : ZMod q256) = ((0 : Nat) : ZMod q256) →
      EncodesPoint secp256r1.plen (4#8 :: (beN 32 v ++ beN 32 46263761741508638697010950048709651021688891777877937875096931459006746039284))
        (WeierstrassCurve.Affine.Point.some _ _ hns) := by
    intro v hv h0
    refine ⟨_, _, hns, rfl, Or.inl ⟨_, _, length_beN _ _, length_beN _ _, rfl, ?_, ?_⟩⟩
    · rw [hpl, beNat_beN, Nat.mod_eq_of_lt hv, h0]
    · rw [hpl, beNat_beN, Nat.mod_eq_of_lt (by decide +kernel)]
  have k1 := key 0 (by decide) rfl
  have k2 := key q256 (by decide +kernel) (by rw [ZMod.natCast_self, Nat.cast_zero])
  obtain ⟨P1, d1, e1⟩ := decode_complete eccCurve256 k1 hn'
  obtain ⟨P2, d2, e2⟩ := decode_complete eccCurve256 k2 hn'
  have f1 := dec_of d1 x
  have f2 := dec_of d2 x
  have hne : (4#8 :: (beN 32 0 ++ beN 32 46263761741508638697010950048709651021688891777877937875096931459006746039284)) ≠
      (4#8 :: (beN 32 q256 ++ beN 32 46263761741508638697010950048709651021688891777877937875096931459006746039284)) := by
    intro h
    have h := (List.cons.inj h).2
    have h := (List.append_inj h (by rw [length_beN, length_beN])).1
    have h := congrArg beNat h
    rw [beNat_beN, beNat_beN] at h
    exact absurd h (by decide +kernel)
  have hle : (4#8 :: (beN 32 0 ++ beN 32 46263761741508638697010950048709651021688891777877937875096931459006746039284)).length =
      (4#8 :: (beN 32 q256 ++ beN 32 46263761741508638697010950048709651021688891777877937875096931459006746039284)).length := by
    simp only [List.length_cons, List.length_append, length_beN]
  exact ⟨_, _, _, _, _, hne, hle, f1, f2, e1, e2⟩

/-- The point of secp256r1 with `y = 5`, used below. -/
theorem y5point : ∃ hns : (shortW (-3 : ZMod q256) ((b256 : Nat) : ZMod q256)).Nonsingular
      ((97336249849781499110478751644944710685832846615753941840897971642720016261591 : Nat) : ZMod q256) ((5 : Nat) : ZMod q256),
      n256 • (WeierstrassCurve.Affine.Point.some _ _ hns) = 0 := by
  have := EcCheck.order_of_check (p := q256) (a := 115792089210356248762697446949407573530086143415290314195533631308867097853948) (b := b256) (n := n256) (x := 97336249849781499110478751644944710685832846615753941840897971642720016261591) (y := 5)
    two256 noTwo256' (by decide +kernel)
  rw [a256] at this
  exact this

/-- C50: so there are uncompressed keys of secp256r1 that are accepted and, when exported compressed, become the key of
another (the opposite) point. -/
theorem C50_compress_changes_key (x : Ctx) : ∃ (enc enc' : List Byte) (y y' : Ctx)
    (Q : (shortW (-3 : ZMod q256) ((b256 : Nat) : ZMod q256)).Point), Q ≠ -Q ∧
    decodePublicKey secp256r1 11 x enc = some (y, true) ∧ Denotes2 11 y.Q Q ∧
    encodePublicKey secp256r1 y 33 = some enc' ∧
    decodePublicKey secp256r1 11 x enc' = some (y', true) ∧ Denotes2 11 y'.Q (-Q) := by
  obtain ⟨hns, hn⟩ := y5point
  have hn' : val secp256r1.n • (WeierstrassCurve.Affine.Point.some _ _ hns) = 0 := by
    rw [show val secp256r1.n = n256 by decide +kernel]; exact hn
  have hX : (beN 32 97336249849781499110478751644944710685832846615753941840897971642720016261591).length = secp256r1.plen := length_beN _ _
  have hY : (beN 32 (q256 + 5)).length = secp256r1.plen := length_beN _ _
  have hYv : beNat (beN 32 (q256 + 5)) = q256 + 5 := by rw [beNat_beN, Nat.mod_eq_of_lt (by decide +kernel)]
  have k1 : EncodesPoint secp256r1.plen (4#8 :: (beN 32 97336249849781499110478751644944710685832846615753941840897971642720016261591 ++ beN 32 (q256 + 5)))
      (WeierstrassCurve.Affine.Point.some _ _ hns) := by
    refine ⟨_, _, hns, rfl, Or.inl ⟨_, _, hX, hY, rfl, ?_, ?_⟩⟩
    · rw [beNat_beN, Nat.mod_eq_of_lt (by decide +kernel)]
    · rw [hYv, Nat.cast_add, ZMod.natCast_self, zero_add]
  obtain ⟨P1, d1, e1⟩ := decode_complete eccCurve256 k1 hn'
  have hd := dec_of d1 x
  obtain ⟨enc', g1, g2⟩ := C50_compress eccCurve256 x _ hX hY hd k1
  rw [hYv, if_neg (by omega)] at g2
  obtain ⟨P2, d2, e2⟩ := decode_complete eccCurve256 g2 ((neg_nsmul _ _).trans (by rw [hn', neg_zero]))
  refine ⟨_, enc', _, _, _, ?_, hd, e1, g1, dec_of d2 x, e2⟩
  intro h
  have h5 : (((5 : Nat) : ZMod q256)) = -((5 : Nat) : ZMod q256) := by
    rw [WeierstrassCurve.Affine.Point.neg_some] at h
    have := (WeierstrassCurve.Affine.Point.some.inj h).2
    simpa [WeierstrassCurve.Affine.negY, shortW] using this
  have h10 : (((10 : Nat) : ZMod q256)) = 0 := by
    have : ((5 : Nat) : ZMod q256) + ((5 : Nat) : ZMod q256) = 0 := by nth_rewrite 1 [h5]; ring
    rw [← this, ← Nat.cast_add]
  rw [ZMod.natCast_eq_zero_iff] at h10
  exact absurd (Nat.le_of_dvd (by norm_num) h10) (by decide +kernel)

/-- The base point meets the premises of the decoding and encoding theorems. -/
example (x : Ctx) : ∃ G : (shortW (-3 : ZMod q256) ((b256 : Nat) : ZMod q256)).Point, Denotes 11 secp256r1.G G ∧ G ≠ 0 ∧
    val secp256r1.n • G = 0 ∧ val secp256r1.G.z = 1 ∧ ∃ enc, encodePublicKey secp256r1 { x with Q := secp256r1.G } 33 = some enc ∧
      EncodesPoint 32 enc G := by
  obtain ⟨G, h1, h2, -, h4⟩ := C40_base_point.1
  have hn : val secp256r1.n • G = 0 := by rw [← h4]; exact addOrderOf_nsmul_eq_zero G
  have hz : val secp256r1.G.z = 1 := by decide +kernel
  obtain ⟨enc, g1, -, g2, -⟩ := C50_roundtrip eccCurve256 { x with Q := secp256r1.G } h1 hz h2 hn 33 (Or.inr rfl) x
  exact ⟨G, h1, h2, hn, hz, enc, g1, g2⟩

/-- A private key of one is accepted; the draw sequence `1, 1, ...` gives a key. -/
example (x : Ctx) : decodePrivateKey secp256r1 11 x (beN 32 1) ≠ none ∧
    keygen secp256r1 11 (fun _ => beN 32 1) 3 x ≠ none ∧ decodePrivateKey secp256r1 11 x (beN 32 0) = none := by
  obtain ⟨G, h1, -⟩ := C40_base_point.1
  refine ⟨(C51_decode_private eccCurve256 h1 x _).1.mpr ⟨length_beN _ _, by decide +kernel, by decide +kernel⟩, ?_, ?_⟩
  · intro h
    have h := (C51_keygen eccCurve256 (rng := fun _ => beN 32 1) (fun _ => length_beN _ _) h1 3 x).1.mp h
    exact h 0 (by decide) ⟨by decide +kernel, by decide +kernel⟩
  · by_contra h
    have := ((C51_decode_private eccCurve256 h1 x _).1.mp h).2.1
    rw [beNat_beN] at this
    simp at this

/-- Inverse and square root on concrete numbers. -/
example : val (invModP secp256r1 11 (cpy 11 [2])) * 2 % q256 = 1 := by
  have := (C49_inverse_p eccCurve256 (x := cpy 11 [2]) (by decide) (by decide +kernel)).2.2.1 (by decide +kernel)
  rwa [show val (cpy 11 [2]) = 2 by decide] at this

/-- C51: for every top word of an order, the mask put on random candidates keeps exactly as many low bits as the word has (so no
scalar below the order is excluded, and no bit above its length survives). -/
theorem C51_mask (x m : W) (k : Nat) (h1 : 2 ^ k ≤ m.toNat) (h2 : m.toNat < 2 ^ (k + 1)) :
    (topwordModmask x m).toNat = x.toNat % 2 ^ (k + 1) := topwordModmask_spec x m k h1 h2

example : (topwordModmask 0xffffffff#32 0x1ff#32).toNat = 0x1ff := by
  rw [C51_mask _ _ 8 (by decide) (by decide)]; decide

end Props
