import Verif.Lemmas.EccSig
import Verif.Props.Ecdsa

/-!
# The signature codec: C54
-/

namespace Props
open Vlong Ec Ecc Spec EcParam

/-- C54: encoding a signature with components below `2^384` (as signing leaves them): the announced length is that of its DER
encoding; with enough room the buffer starts with that encoding and is otherwise untouched; with less, NULL is returned. -/
theorem C54_encode (x : Ctx) (hr : val x.r < 2 ^ 384) (hs : val x.s < 2 ^ 384) : ∃ enc, IsDerSig (val x.r) (val x.s) enc ∧
    ecdsaSignatureLength x = some (some enc.length) ∧
    ∀ sig, (sig.length < enc.length → ecdsaEncodeSignature x sig = some none) ∧
      (enc.length ≤ sig.length → ecdsaEncodeSignature x sig = some (some (enc ++ sig.drop enc.length))) := by
  have h1 := intSize_small hr
  have h2 := intSize_small hs
  have l1 : (Der.encodeInteger x.r).length = Der.intSize x.r := (C08_encode x.r).2.2
  have l2 : (Der.encodeInteger x.s).length = Der.intSize x.s := (C08_encode x.s).2.2
  have hlen : (0x30#8 :: BitVec.ofNat 8 (Der.intSize x.r + 2 + (Der.intSize x.s + 2)) ::
        ((0x02#8 :: BitVec.ofNat 8 (Der.intSize x.r) :: Der.encodeInteger x.r) ++
         (0x02#8 :: BitVec.ofNat 8 (Der.intSize x.s) :: Der.encodeInteger x.s))).length =
      Der.intSize x.r + 2 + (Der.intSize x.s + 2) + 2 := by
    simp [l1, l2]; omega
  have hlen2 : ((0x02#8 :: BitVec.ofNat 8 (Der.intSize x.r) :: Der.encodeInteger x.r) ++
         (0x02#8 :: BitVec.ofNat 8 (Der.intSize x.s) :: Der.encodeInteger x.s)).length = Der.intSize x.r + 2 + (Der.intSize x.s + 2) := by
    simp [l1, l2]; omega
  refine ⟨_, ⟨_, _, derInt_of_words x.r hr, derInt_of_words x.s hs, by rw [hlen2]; omega, by rw [hlen2]⟩, ?_, ?_⟩
  · unfold ecdsaSignatureLength
    rw [encodeDss_none hr hs, hlen]
    simp
  · intro sig
    unfold ecdsaEncodeSignature
    rw [encodeDss_none hr hs, hlen]
    simp only [Option.bind_eq_bind, Option.bind_some]
    constructor
    · intro h
      rw [if_pos h]; rfl
    · intro h
      rw [if_neg (by omega), encodeDss_some hr hs sig h]
      simp

/-- C54: the encoding function behind it, called directly: for every buffer, whatever its length, no octet is written outside
the buffer; it returns the length and the encoding, or `-1` if the buffer is too short. -/
theorem C54_bounds (x : Ctx) (hr : val x.r < 2 ^ 384) (hs : val x.s < 2 ^ 384) : ∃ enc, IsDerSig (val x.r) (val x.s) enc ∧
    ∀ sig, encodeDss x.r x.s (some sig) =
      if enc.length ≤ sig.length then some (some (enc.length, enc ++ sig.drop enc.length)) else some none := by
  have h1 := intSize_small hr
  have h2 := intSize_small hs
  have l1 : (Der.encodeInteger x.r).length = Der.intSize x.r := (C08_encode x.r).2.2
  have l2 : (Der.encodeInteger x.s).length = Der.intSize x.s := (C08_encode x.s).2.2
  have hlen : (0x30#8 :: BitVec.ofNat 8 (Der.intSize x.r + 2 + (Der.intSize x.s + 2)) ::
        ((0x02#8 :: BitVec.ofNat 8 (Der.intSize x.r) :: Der.encodeInteger x.r) ++
         (0x02#8 :: BitVec.ofNat 8 (Der.intSize x.s) :: Der.encodeInteger x.s))).length =
      Der.intSize x.r + 2 + (Der.intSize x.s + 2) + 2 := by
    simp [l1, l2]; omega
  have hlen2 : ((0x02#8 :: BitVec.ofNat 8 (Der.intSize x.r) :: Der.encodeInteger x.r) ++
         (0x02#8 :: BitVec.ofNat 8 (Der.intSize x.s) :: Der.encodeInteger x.s)).length = Der.intSize x.r + 2 + (Der.intSize x.s + 2) := by
    simp [l1, l2]; omega
  refine ⟨_, ⟨_, _, derInt_of_words x.r hr, derInt_of_words x.s hs, by rw [hlen2]; omega, by rw [hlen2]⟩, ?_⟩
  intro sig
  rw [hlen]
  by_cases h : Der.intSize x.r + 2 + (Der.intSize x.s + 2) + 2 ≤ sig.length
  · rw [if_pos h, encodeDss_some hr hs sig h]
  · rw [if_neg h, encodeDss_short hr hs sig (by omega)]

/-- C54: decoding a DER signature, with anything after it: accepted, the numbers reduced modulo the size of the words of the
context, the status back to undecided, the keys untouched. -/
theorem C54_decode (c : Nat) (x : Ctx) {r s : Nat} {enc : List Byte} (h : IsDerSig r s enc) (rest : List Byte) :
    ∃ y, ecdsaDecodeSignature c x (enc ++ rest) = some (y, true) ∧ y.status = 0 ∧ y.d = x.d ∧ y.Q = x.Q ∧ y.r.length = c ∧
      y.s.length = c ∧ val y.r = r % 2 ^ (32 * c) ∧ val y.s = s % 2 ^ (32 * c) := by
  obtain ⟨R, S, e, h1, h2, h3, h4⟩ := decodeDss_der c x.r x.s h rest
  refine ⟨{ x with r := R, s := S, status := 0 }, ?_, rfl, rfl, rfl, h1, h2, h3, h4⟩
  unfold ecdsaDecodeSignature
  rw [e]

/-- C54: what a signer encodes another party decodes to the same words. -/
theorem C54_roundtrip (c : Nat) (x z : Ctx) (hr : val x.r < 2 ^ 384) (hs : val x.s < 2 ^ 384) (hlr : x.r.length = c)
    (hls : x.s.length = c) (sig : List Byte) (n : Nat) (hn : ecdsaSignatureLength x = some (some n)) (hl : n ≤ sig.length) :
    ∃ sig' y, ecdsaEncodeSignature x sig = some (some sig') ∧ sig'.length = sig.length ∧
      ecdsaDecodeSignature c z sig' = some (y, true) ∧ y.r = x.r ∧ y.s = x.s ∧ y.Q = z.Q ∧ y.status = 0 := by
  obtain ⟨enc, h1, h2, h3⟩ := C54_encode x hr hs
  rw [h2] at hn
  simp only [Option.some.injEq] at hn
  subst hn
  obtain ⟨y, g1, g2, g3, g4, g5, g6, g7, g8⟩ := C54_decode c z h1 (sig.drop enc.length)
  refine ⟨_, y, (h3 sig).2 hl, by simp; omega, g1, ?_, ?_, g4, g2⟩
  · apply val_inj (by rw [g5, hlr])
    rw [g7, Nat.mod_eq_of_lt]
    have := val_lt x.r
    rwa [hlr] at this
  · apply val_inj (by rw [g6, hls])
    rw [g8, Nat.mod_eq_of_lt]
    have := val_lt x.s
    rwa [hls] at this

/-- C54: the whole path: a signature made with a private key and encoded is, decoded by a party that holds the public key,
verified exactly if its `r` is in `1..n-1`. -/
theorem C54_sign_encode_verify {C : Curve} {c p : Nat} [hp : Fact p.Prime] {a b : ZMod p} (hC : EccCurve C c p a b)
    (hpl : C.plen ≤ 48) (H : Pkcs1.Hash) (x y z : Ctx) (msg : List Byte) (hst : x.status ≠ 2) {rng : Nat → List Byte}
    (hr : ∀ i, (rng i).length = C.plen) (hd : x.d.length = c) (hd1 : 1 ≤ val x.d) (hd2 : val x.d < val C.n)
    {G : (shortW a b).Point} (hG : Denotes c C.G G) (fuel : Nat) (h : ecdsaSign C c H x msg rng fuel = some y)
    (hQ : Denotes2 c z.Q (val x.d • G)) (sig : List Byte) (hsig : 104 ≤ sig.length) :
    ∃ sig' w, ecdsaEncodeSignature y sig = some (some sig') ∧ ecdsaDecodeSignature c z sig' = some (w, true) ∧
      ((ecdsaVerify C c H w msg).2 = true ↔ 1 ≤ val y.r ∧ val y.r < val C.n) := by
  obtain ⟨j, -, X, Y, hn, e1, e2, e3, -, -, -, -, e4, e5, e6, e7, e8, e9, e10, e11⟩ := C53_sign hC H x y msg hst hr hd hG fuel h
  have hp48 : 2 ^ (8 * C.plen) ≤ 2 ^ 384 := Nat.pow_le_pow_right (by norm_num) (by omega)
  have hplt := hC.plt
  have hnp := hC.np
  have b1 : val y.r < 2 ^ 384 := lt_of_lt_of_le (lt_of_le_of_lt e6 hplt) hp48
  have b2 : val y.s < 2 ^ 384 := lt_of_lt_of_le (lt_trans (lt_trans e10 hnp) hplt) hp48
  have hlen : ecdsaSignatureLength y = some (some (Der.intSize y.r + 2 + (Der.intSize y.s + 2) + 2)) := by
    unfold ecdsaSignatureLength
    rw [encodeDss_none b1 b2]
    simp
  have s1 := intSize_small b1
  have s2 := intSize_small b2
  obtain ⟨sig', w, g1, -, g2, g3, g4, g5, g6⟩ := C54_roundtrip c y z b1 b2 e4 e5 sig _ hlen (by omega)
  refine ⟨sig', w, g1, g2, ?_⟩
  exact C53_sign_verify hC H x y w msg hst hr hd hd1 hd2 hG fuel h (by rw [g6]; decide) (by rw [g5]; exact hQ) g3 g4

/-- C54: encodings are not unique for the decoder: for every signature with components below `2^256`, the encoding of
`(r + 2^352, s)` is different and decoded by an eleven-word context to the same numbers. -/
theorem C54_malleable (x : Ctx) {r s : Nat} {enc : List Byte} (h : IsDerSig r s enc) (hr : r < 2 ^ 256) (hs : s < 2 ^ 256) :
    ∃ enc' y y', enc' ≠ enc ∧ IsDerSig (r + 2 ^ 352) s enc' ∧ ecdsaDecodeSignature 11 x enc = some (y, true) ∧
      ecdsaDecodeSignature 11 x enc' = some (y', true) ∧ val y.r = val y'.r ∧ val y.s = val y'.s := by
  have hbig : r + 2 ^ 352 < 2 ^ 384 := by
    have : (2 : Nat) ^ 256 + 2 ^ 352 < 2 ^ 384 := by decide +kernel
    omega
  have hs' : s < 2 ^ 384 := lt_trans hs (by decide +kernel)
  have hw : ∀ v : Nat, v < 2 ^ 384 → val (os2ip 12 (beN 48 v)) = v := by
    intro v hv
    rw [(C06_os2ip _ _).2, beNat_beN, show (256 : Nat) ^ 48 = 2 ^ 384 by decide +kernel, Nat.mod_eq_of_lt hv, Nat.mod_eq_of_lt hv]
  obtain ⟨enc', h1, -, -⟩ := C54_encode { x with r := os2ip 12 (beN 48 (r + 2 ^ 352)), s := os2ip 12 (beN 48 s) }
    (by simp only; rw [hw _ hbig]; exact hbig) (by simp only; rw [hw _ hs']; exact hs')
  simp only [hw _ hbig, hw _ hs'] at h1
  obtain ⟨y, g1, -, -, -, -, -, g2, g3⟩ := C54_decode 11 x h []
  obtain ⟨y', k1, -, -, -, -, -, k2, k3⟩ := C54_decode 11 x h1 []
  obtain ⟨y12, m1, -, -, -, -, -, m2, -⟩ := C54_decode 12 x h []
  obtain ⟨y12', n1, -, -, -, -, -, n2, -⟩ := C54_decode 12 x h1 []
  rw [List.append_nil] at g1 k1 m1 n1
  refine ⟨enc', y, y', ?_, h1, g1, k1, ?_, ?_⟩
  · rintro rfl
    rw [m1] at n1
    simp only [Option.some.injEq, Prod.mk.injEq, and_true] at n1
    subst n1
    rw [m2, show 32 * 12 = 384 from rfl, Nat.mod_eq_of_lt hbig, Nat.mod_eq_of_lt (lt_trans hr (by decide +kernel))] at n2
    have : 0 < 2 ^ 352 := by positivity
    omega
  · rw [g2, k2, show 32 * 11 = 352 from rfl, Nat.add_mod_right]
  · rw [g3, k3]

/-- A concrete signature: `(5, 200)`. -/
example : IsDerSig 5 200 [0x30, 7, 2, 1, 5, 2, 2, 0, 200] :=
  ⟨[2, 1, 5], [2, 2, 0, 200], ⟨[5], ⟨5, [], rfl, by decide, Or.inl rfl⟩, by decide, by decide, rfl⟩,
    ⟨[0, 200], ⟨0, [200], rfl, by decide, Or.inr (Or.inr ⟨200, [], rfl, by decide⟩)⟩, by decide, by decide, rfl⟩, by decide, rfl⟩

example : secp256r1.plen ≤ 48 ∧ secp384r1.plen ≤ 48 := by decide

end Props
