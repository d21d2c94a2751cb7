import Verif.Lemmas.XecdhInst

/-!
# C47, C48: X25519 and X448

C47: public keys, ciphertexts and shared secrets are the `u`-coordinates RFC 7748 prescribes, for every
scalar and every peer value, on the curve or on its twist. C48: both sides agree; repeated decapsulation
and buffer lengths.
-/

namespace Props
open Vlong Spec Ec EdParam Xecdh

/-- The coefficients `A` of the two curves. -/
abbrev A25519 : ZMod qEd25519 := ((486662 : Nat) : ZMod qEd25519)
abbrev A448 : ZMod qEd448 := ((156326 : Nat) : ZMod qEd448)

/-- The two moduli are the RFC's, and prime. -/
theorem C47_fields : qEd25519 = 2 ^ 255 - 19 ∧ qEd25519.Prime ∧ qEd448 = 2 ^ 448 - 2 ^ 224 - 1 ∧ qEd448.Prime :=
  ⟨by decide +kernel, Fact.out, by decide +kernel, Fact.out⟩

/-- Every residue is the `u`-coordinate of some point, so `IsScaled` pins its result down: there is one
and only one. -/
theorem C47_result_unique {q : Nat} [Fact q.Prime] (h2 : 2 < q) {A : ZMod q} (hA : A ^ 2 ≠ 4) (n : Nat) (u r r' : ZMod q)
    (h : IsScaled A n u r) (h' : IsScaled A n u r') : r = r' := by
  have two : (2 : ZMod q) ≠ 0 := by
    intro e
    have h' := (ZMod.natCast_eq_zero_iff 2 q).mp (by exact_mod_cast e)
    have := Nat.le_of_dvd (by norm_num) h'
    omega
  have hchar : ringChar (ZMod q) ≠ 2 := by rw [ZMod.ringChar_zmod_n]; omega
  obtain ⟨d, hd⟩ := FiniteField.exists_nonsquare (F := ZMod q) hchar
  have hd0 : d ≠ 0 := by rintro rfl; exact hd ⟨0, by simp⟩
  rcases mont_exists two hA hd u with ⟨P, hP⟩ | ⟨P, hP⟩
  · rw [h 1 one_ne_zero P hP, h' 1 one_ne_zero P hP]
  · rw [h d hd0 P hP, h' d hd0 P hP]

/-- `ecMt_point_scale` on Curve25519 for any scalar words and any point of the curve or a twist. -/
theorem C47_ladder_25519 (k x1 : List W) (bits : Nat) (hl : x1.length = 11) (hx : val x1 < 2 ^ 294)
    {B : ZMod qEd25519} (hB : B ≠ 0) (P : (montW A25519 B).Point) (hP : uCoord P = (val x1 : ZMod qEd25519)) :
    (mtPointScale aux25519 a24_25519 11 k x1 bits).length = 11 ∧ val (mtPointScale aux25519 a24_25519 11 k x1 bits) ≤ qEd25519 ∧
    (val (mtPointScale aux25519 a24_25519 11 k x1 bits) : ZMod qEd25519) = uCoord ((val k % 2 ^ bits) • P) := by
  have := mtPointScale_rep mtOk25519.fld mtOk25519.q2 mtOk25519.lo hB mtOk25519.A2 mtOk25519.a24l mtOk25519.a24 k x1 bits (2 ^ 39 + 1) P
    ⟨hl, hx.le.trans (by decide +kernel), hP.symm⟩ (by norm_num)
  exact ⟨this.len, this.le.trans (Nat.one_mul _).le, this.res⟩

/-- The same on Curve448. -/
theorem C47_ladder_448 (k x1 : List W) (bits : Nat) (hl : x1.length = 17) (hx : val x1 < 2 ^ 487)
    {B : ZMod qEd448} (hB : B ≠ 0) (P : (montW A448 B).Point) (hP : uCoord P = (val x1 : ZMod qEd448)) :
    (mtPointScale aux448 a24_448 17 k x1 bits).length = 17 ∧ val (mtPointScale aux448 a24_448 17 k x1 bits) ≤ qEd448 ∧
    (val (mtPointScale aux448 a24_448 17 k x1 bits) : ZMod qEd448) = uCoord ((val k % 2 ^ bits) • P) := by
  have := mtPointScale_rep mtOk448.fld mtOk448.q2 mtOk448.lo hB mtOk448.A2 mtOk448.a24l mtOk448.a24 k x1 bits (2 ^ 39 + 1) P
    ⟨hl, hx.le.trans (by decide +kernel), hP.symm⟩ (by norm_num)
  exact ⟨this.len, this.le.trans (Nat.one_mul _).le, this.res⟩

/-- Key generation: the exported private key is the clamped scalar, the exported public key the
`u`-coordinate of its multiple of the base point `u = 9`. -/
theorem C47_x25519_keygen (sk : List Byte) (hs : sk.length = 32) (P0 : List W) :
    (∃ k, encodePriv (keygen crv25519 sk P0) 32 = some k ∧ leNat k = decodeScalar25519 sk) ∧
    ∃ pub, encodePub (keygen crv25519 sk P0) 32 = some pub ∧ pub.length = 32 ∧
      IsEncodedResult A25519 (decodeScalar25519 sk) ((9 : Nat) : ZMod qEd25519) pub := by
  obtain ⟨h1, -, -, -, h5⟩ := keygen_result mtOk25519 sk hs P0
  refine ⟨⟨encLSB (decLSB 11 (clamp25519 sk)) 32, rfl, ?_⟩, _, h1, by simp [encLSB, crv25519], h5⟩
  obtain ⟨c1, c2⟩ := clamp25519_val sk hs
  have hl := leNat_lt (clamp25519 sk)
  rw [c1] at hl
  rw [leNat_encLSB, val_decLSB, ← c2, Nat.mod_eq_of_lt (a := leNat (clamp25519 sk)) (by norm_num at *; omega), Nat.mod_eq_of_lt hl]

theorem C47_x448_keygen (sk : List Byte) (hs : sk.length = 56) (P0 : List W) :
    (∃ k, encodePriv (keygen crv448 sk P0) 56 = some k ∧ leNat k = decodeScalar448 sk) ∧
    ∃ pub, encodePub (keygen crv448 sk P0) 56 = some pub ∧ pub.length = 56 ∧
      IsEncodedResult A448 (decodeScalar448 sk) ((5 : Nat) : ZMod qEd448) pub := by
  obtain ⟨h1, -, -, -, h5⟩ := keygen_result mtOk448 sk hs P0
  refine ⟨⟨encLSB (decLSB 17 (clamp448 sk)) 56, rfl, ?_⟩, _, h1, by simp [encLSB, crv448], h5⟩
  obtain ⟨c1, c2⟩ := clamp448_val sk hs
  have hl := leNat_lt (clamp448 sk)
  rw [c1] at hl
  rw [leNat_encLSB, val_decLSB, ← c2, Nat.mod_eq_of_lt (a := leNat (clamp448 sk)) (hl.trans_le (by decide +kernel)), Nat.mod_eq_of_lt hl]

/-- Encapsulation against any public key octets (including non-canonical ones and points of the twist):
the secret is X25519 of the fresh scalar and the peer's value, the ciphertext X25519 of it and 9. -/
theorem C47_x25519_enc (pub r : List Byte) (hp : pub.length ≤ 32) (hr : r.length = 32) (k0 P0 : List W) :
    IsEncodedResult A25519 (decodeScalar25519 r) ((decodeU25519 pub : Nat) : ZMod qEd25519)
      (enc (decodePub crv25519 pub k0 P0) 32 r).1 ∧
    ∃ ct, encodeCt (enc (decodePub crv25519 pub k0 P0) 32 r).2 32 = some ct ∧
      IsEncodedResult A25519 (decodeScalar25519 r) ((9 : Nat) : ZMod qEd25519) ct :=
  enc_full mtOk25519 pub r hp hr k0 P0

theorem C47_x448_enc (pub r : List Byte) (hp : pub.length ≤ 56) (hr : r.length = 56) (k0 P0 : List W) :
    IsEncodedResult A448 (decodeScalar448 r) ((decodeU448 pub : Nat) : ZMod qEd448)
      (enc (decodePub crv448 pub k0 P0) 56 r).1 ∧
    ∃ ct, encodeCt (enc (decodePub crv448 pub k0 P0) 56 r).2 56 = some ct ∧
      IsEncodedResult A448 (decodeScalar448 r) ((5 : Nat) : ZMod qEd448) ct :=
  enc_full mtOk448 pub r hp hr k0 P0

/-- Decapsulation of any ciphertext octets. -/
theorem C47_x25519_dec (sk ct : List Byte) (hs : sk.length = 32) (hct : ct.length ≤ 32) (P0 : List W) :
    IsEncodedResult A25519 (decodeScalar25519 sk) ((decodeU25519 ct : Nat) : ZMod qEd25519)
      (dec (decodeCt (keygen crv25519 sk P0) ct) 32).1 :=
  (dec_result mtOk25519 (keygen crv25519 sk P0) rfl sk hs rfl ct hct).1

theorem C47_x448_dec (sk ct : List Byte) (hs : sk.length = 56) (hct : ct.length ≤ 56) (P0 : List W) :
    IsEncodedResult A448 (decodeScalar448 sk) ((decodeU448 ct : Nat) : ZMod qEd448)
      (dec (decodeCt (keygen crv448 sk P0) ct) 56).1 :=
  (dec_result mtOk448 (keygen crv448 sk P0) rfl sk hs rfl ct hct).1

/-- Reloading the exported private key gives the same scalar and the same public key. -/
theorem C47_reload (P0 P1 : List W) :
    (∀ sk : List Byte, sk.length = 32 → ∃ k x, encodePriv (keygen crv25519 sk P0) 32 = some k ∧
      decodePriv crv25519 k P1 = some x ∧ x.k = (keygen crv25519 sk P0).k ∧ x.K = (keygen crv25519 sk P0).K) ∧
    (∀ sk : List Byte, sk.length = 56 → ∃ k x, encodePriv (keygen crv448 sk P0) 56 = some k ∧
      decodePriv crv448 k P1 = some x ∧ x.k = (keygen crv448 sk P0).k ∧ x.K = (keygen crv448 sk P0).K) := by
  constructor
  · intro sk hs
    obtain ⟨⟨k, h1, h2⟩, -⟩ := C47_x25519_keygen sk hs P0
    have hk : k = encLSB (decLSB 11 (clamp25519 sk)) 32 := (Option.some.inj h1).symm
    have hkl : k.length = 32 := by rw [hk]; simp [encLSB]
    have key : decLSB 11 (clamp25519 (k.take 32)) = decLSB 11 (clamp25519 sk) := by
      rw [List.take_of_length_le hkl.le]
      obtain ⟨a1, a2⟩ := clamp25519_val k hkl
      obtain ⟨b1, b2⟩ := clamp25519_val sk hs
      apply val_inj
      · simp [decLSB, length_decLoop]
      · rw [val_decLSB, val_decLSB, a2, b2]
        congr 1
        unfold decodeScalar25519 at h2 ⊢
        rw [h2]; norm_num; omega
    refine ⟨k, keygen crv25519 (k.take 32) P1, h1, ?_, key, ?_⟩
    · unfold decodePriv; rw [if_neg (by rw [hkl]; simp [crv25519])]; rfl
    · exact keygen_K_congr crv25519 _ _ P1 P0 key
  · intro sk hs
    obtain ⟨⟨k, h1, h2⟩, -⟩ := C47_x448_keygen sk hs P0
    have hk : k = encLSB (decLSB 17 (clamp448 sk)) 56 := (Option.some.inj h1).symm
    have hkl : k.length = 56 := by rw [hk]; simp [encLSB]
    have key : decLSB 17 (clamp448 (k.take 56)) = decLSB 17 (clamp448 sk) := by
      rw [List.take_of_length_le hkl.le]
      obtain ⟨a1, a2⟩ := clamp448_val k hkl
      obtain ⟨b1, b2⟩ := clamp448_val sk hs
      apply val_inj
      · simp [decLSB, length_decLoop]
      · rw [val_decLSB, val_decLSB, a2, b2]
        congr 1
        unfold decodeScalar448 at h2 ⊢
        rw [h2]
        have e1 : (2:Nat) ^ 447 = 4 * 2 ^ 445 := by decide +kernel
        rw [e1, ← Nat.mul_add 4 (2 ^ 445) (leNat sk / 4 % 2 ^ 445), Nat.mul_div_cancel_left _ (by norm_num), Nat.add_mod_left, Nat.mod_mod, ← Nat.mul_add]
    refine ⟨k, keygen crv448 (k.take 56) P1, h1, ?_, key, ?_⟩
    · unfold decodePriv; rw [if_neg (by rw [hkl]; simp [crv448])]; rfl
    · exact keygen_K_congr crv448 _ _ P1 P0 key

/-- C48: both sides of X25519 obtain the same octets, whatever the two random inputs. -/
theorem C48_x25519_agree (sk r : List Byte) (hs : sk.length = 32) (hr : r.length = 32) (P0 k1 P1 : List W) :
    ∃ pub ct, encodePub (keygen crv25519 sk P0) 32 = some pub ∧
      encodeCt (enc (decodePub crv25519 pub k1 P1) 32 r).2 32 = some ct ∧
      (dec (decodeCt (keygen crv25519 sk P0) ct) 32).1 = (enc (decodePub crv25519 pub k1 P1) 32 r).1 := by
  obtain ⟨h1, h2, h3⟩ := agree mtOk25519 sk r hs hr P0 k1 P1
  refine ⟨_, _, h1, h2, ?_⟩
  rcases h3 with h | h
  · exact h
  · exfalso
    have hchar : ringChar (ZMod qEd25519) ≠ 2 := by rw [ZMod.ringChar_zmod_n]; decide +kernel
    obtain ⟨d, hd⟩ := FiniteField.exists_nonsquare (F := ZMod qEd25519) hchar
    have hd0 : d ≠ 0 := by rintro rfl; exact hd ⟨0, by simp⟩
    rcases mont_exists twoEd25519 sq25519 hd ((9 : Nat) : ZMod qEd25519) with ⟨P, hP⟩ | ⟨P, hP⟩
    · exact agreed_ne_zero one_ne_zero P hP r sk (h 1 one_ne_zero P hP)
    · exact agreed_ne_zero hd0 P hP r sk (h d hd0 P hP)

/-- C48: both sides of X448 obtain the same octets unless the agreed coordinate is zero modulo the prime.
(That it never is needs the primality of the group order, which is not proved here.) -/
theorem C48_x448_agree (sk r : List Byte) (hs : sk.length = 56) (hr : r.length = 56) (P0 k1 P1 : List W) :
    ∃ pub ct, encodePub (keygen crv448 sk P0) 56 = some pub ∧
      encodeCt (enc (decodePub crv448 pub k1 P1) 56 r).2 56 = some ct ∧
      ((dec (decodeCt (keygen crv448 sk P0) ct) 56).1 = (enc (decodePub crv448 pub k1 P1) 56 r).1 ∨
        IsScaled A448 (decodeScalar448 r * decodeScalar448 sk) ((5 : Nat) : ZMod qEd448) 0) := by
  obtain ⟨h1, h2, h3⟩ := agree mtOk448 sk r hs hr P0 k1 P1
  refine ⟨_, _, h1, h2, ?_⟩
  rcases h3 with h | h
  · exact Or.inl h
  · right
    intro B hB P hP
    rw [mul_nsmul', h B hB P hP]

/-- A second decapsulation (any buffer length) returns the same secret and changes nothing. -/
theorem C48_dec_again (x : Ctx) (hc : 0 < x.curve.sslen) (m n : Nat) :
    (dec (dec x m).2 n) = ((dec x n).1, (dec x m).2) := by
  unfold dec
  by_cases h : x.status > 0
  · simp [h]
  · simp only [h, if_false]
    have : (0 : Int) < x.curve.sslen := by exact_mod_cast hc
    simp [hc, hc.ne']

/-- Shorter buffers get a prefix of the secret, longer ones are padded with zeros. -/
theorem C48_buffer (x : Ctx) (n : Nat) (r : List Byte) :
    (∀ i, i < n → (dec x n).1[i]? = some (if i < x.curve.sslen then (dec x x.curve.sslen).1.getD i 0 else 0)) ∧
    (∀ i, i < n → (enc x n r).1[i]? = some (if i < x.curve.sslen then (enc x x.curve.sslen r).1.getD i 0 else 0)) ∧
    (dec x n).1.length = n ∧ (enc x n r).1.length = n := by
  have key : ∀ (tmp : List Byte) (s i : Nat), i < n → (copySS tmp s n)[i]? = some (if i < s then (copySS tmp s s).getD i 0 else 0) := by
    intro tmp s i hi
    unfold copySS
    rw [List.getElem?_map, List.getElem?_range hi]
    simp only [Option.map_some]
    split
    · rename_i h
      simp [h, List.getD_eq_getElem?_getD, List.getElem?_range]
    · rfl
  refine ⟨fun i hi => ?_, fun i hi => ?_, ?_, ?_⟩
  · exact key _ _ i hi
  · exact key _ _ i hi
  · simp [dec, copySS]
  · simp [enc, copySS]

/- Non-vacuity: a point of Curve25519 (or a twist) with `u = 9`, and 32 octets that clamp to `2^254`. -/
example : (∃ (B : ZMod qEd25519) (_ : B ≠ 0) (P : (montW A25519 B).Point), uCoord P = ((9 : Nat) : ZMod qEd25519) ∧ P ≠ 0) ∧
    decodeScalar25519 (List.replicate 32 0) = 2 ^ 254 ∧ decodeU25519 (List.replicate 32 255) = 2 ^ 255 - 1 := by
  refine ⟨?_, by decide +kernel, by decide +kernel⟩
  have hchar : ringChar (ZMod qEd25519) ≠ 2 := by rw [ZMod.ringChar_zmod_n]; decide +kernel
  obtain ⟨d, hd⟩ := FiniteField.exists_nonsquare (F := ZMod qEd25519) hchar
  have hd0 : d ≠ 0 := by rintro rfl; exact hd ⟨0, by simp⟩
  have hne : ∀ {B : ZMod qEd25519} (P : (montW A25519 B).Point), uCoord P = ((9 : Nat) : ZMod qEd25519) → P ≠ 0 := by
    rintro B P hP rfl
    exact absurd ((ZMod.natCast_eq_zero_iff _ _).mp (hP.symm.trans rfl)) (by decide +kernel)
  rcases mont_exists twoEd25519 sq25519 hd ((9 : Nat) : ZMod qEd25519) with ⟨P, hP⟩ | ⟨P, hP⟩
  · exact ⟨1, one_ne_zero, P, hP, hne P hP⟩
  · exact ⟨d, hd0, P, hP, hne P hP⟩

end Props
