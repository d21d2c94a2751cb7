import Verif.Lemmas.Xecdh

/-! The two curves of RFC 7748. -/

namespace Xecdh
open Vlong Spec Ec EdParam

theorem q25519 : val p25519 = qEd25519 := by decide +kernel
theorem q448 : val p448 = qEd448 := by decide +kernel

theorem sq25519 : ((486662 : Nat) : ZMod qEd25519) ^ 2 ≠ 4 := by
  intro h
  have : ((486662 ^ 2 : Nat) : ZMod qEd25519) = ((4 : Nat) : ZMod qEd25519) := by push_cast; exact h
  exact absurd ((ZMod.natCast_eq_natCast_iff' _ _ _).mp this) (by decide +kernel)

theorem sq448 : ((156326 : Nat) : ZMod qEd448) ^ 2 ≠ 4 := by
  intro h
  have : ((156326 ^ 2 : Nat) : ZMod qEd448) = ((4 : Nat) : ZMod qEd448) := by push_cast; exact h
  exact absurd ((ZMod.natCast_eq_natCast_iff' _ _ _).mp this) (by decide +kernel)

theorem mtOk25519 : MtOk crv25519 qEd25519 ((486662 : Nat) : ZMod qEd25519) decodeScalar25519 decodeU25519 where
  fld := q25519 ▸ fieldOk25519
  q2 := by decide +kernel
  lo := by decide +kernel
  A2 := sq25519
  a24l := by decide +kernel
  a24 := by
    have : crv25519.a24.toNat = 121665 := by decide +kernel
    rw [this]; push_cast; norm_num
  a24e := by decide +kernel
  up := by decide +kernel
  upw := by decide +kernel
  enc := by decide +kernel
  encq := by decide +kernel
  cs := by decide
  clamp := by
    intro sk h
    obtain ⟨h1, h2⟩ := clamp25519_val sk h
    refine ⟨h1, h2, ?_⟩
    unfold decodeScalar25519
    show _ < 2 ^ 255
    norm_num
    omega
  mask := maskU25519
  decUle := by
    intro b hb
    unfold decodeU25519
    show _ < 256 ^ 32
    norm_num
    omega
  decUq := by
    intro b hb
    unfold decodeU25519
    apply Nat.mod_eq_of_lt
    unfold qEd25519 at hb
    norm_num at *
    omega

theorem mtOk448 : MtOk crv448 qEd448 ((156326 : Nat) : ZMod qEd448) decodeScalar448 decodeU448 where
  fld := q448 ▸ fieldOk448
  q2 := by decide +kernel
  lo := by decide +kernel
  A2 := sq448
  a24l := by decide +kernel
  a24 := by
    have : crv448.a24.toNat = 39081 := by decide +kernel
    rw [this]; push_cast; norm_num
  a24e := by decide +kernel
  up := by decide +kernel
  upw := by decide +kernel
  enc := by decide +kernel
  encq := by decide +kernel
  cs := by decide
  clamp := by
    intro sk h
    obtain ⟨h1, h2⟩ := clamp448_val sk h
    refine ⟨h1, h2, ?_⟩
    unfold decodeScalar448
    show _ < 2 ^ 448
    have h3 : leNat sk / 4 % 2 ^ 445 < 2 ^ 445 := Nat.mod_lt _ (by positivity)
    have e1 : (2:Nat) ^ 447 = 4 * 2 ^ 445 := by decide +kernel
    have e2 : (2:Nat) ^ 448 = 8 * 2 ^ 445 := by decide +kernel
    rw [e1, e2]
    generalize (2:Nat) ^ 445 = z at *
    omega
  mask := maskU448
  decUle := by
    intro b hb
    exact (leNat_lt b).trans_le (Nat.pow_le_pow_right (by norm_num) hb)
  decUq := fun b _ => rfl

/-- The base point of Curve25519 has order `L`. -/
theorem base25519 {B : ZMod qEd25519} (hB : B ≠ 0) (P : (montW ((486662 : Nat) : ZMod qEd25519) B).Point)
    (hP : uCoord P = ((9 : Nat) : ZMod qEd25519)) : LEd25519 • P = 0 := by
  refine ladN_zero twoEd25519 hB sq25519 rfl ?_ P hP LEd25519 253 (by decide +kernel) (by decide +kernel)
  intro h
  exact absurd ((ZMod.natCast_eq_zero_iff _ _).mp h) (by decide +kernel)

theorem primeL25519 : Nat.Prime LEd25519 := EcPrime.prime_7237005577332262213973186563042994240857116359379907606001950938285454250989

theorem uCoord_zero_two {q : Nat} [Fact q.Prime] {A B : ZMod q} (hB : B ≠ 0) (P : (montW A B).Point) (hu : uCoord P = 0) : 2 • P = 0 := by
  rw [two_nsmul]
  rcases P with _ | ⟨x, y, hq⟩
  · rfl
  · simp only [uCoord] at hu
    have hx0 : x = 0 := by
      rcases div_eq_zero_iff.mp hu with h | h
      · exact h
      · exact absurd h hB
    have q := (mont_eqn x y).mp hq.1
    rw [hx0] at q
    have hy0 : y = 0 := by
      have : y ^ 2 = 0 := by rw [q]; ring
      exact pow_eq_zero_iff two_ne_zero |>.mp this
    apply WeierstrassCurve.Affine.Point.add_self_of_Y_eq
    simp [WeierstrassCurve.Affine.negY, montW, hy0]

theorem clamped_not_dvd (sk : List Byte) : ¬ LEd25519 ∣ decodeScalar25519 sk := by
  intro h
  unfold decodeScalar25519 at h
  set j := leNat sk / 8 % 2 ^ 251 with hj
  have hjl : j < 2 ^ 251 := Nat.mod_lt _ (by positivity)
  have e : 2 ^ 254 + 8 * j = 8 * (2 ^ 251 + j) := by ring
  rw [e] at h
  rcases (Nat.Prime.dvd_mul primeL25519).mp h with h | h
  · exact absurd h (by decide +kernel)
  · have := Nat.le_of_dvd (by positivity) h
    have hL : (2:Nat) ^ 252 < LEd25519 := by decide +kernel
    have : (2:Nat) ^ 252 = 2 ^ 251 + 2 ^ 251 := by decide +kernel
    omega

/-- A product of two clamped scalars never takes the base point of Curve25519 to `u = 0`. -/
theorem agreed_ne_zero {B : ZMod qEd25519} (hB : B ≠ 0) (P : (montW ((486662 : Nat) : ZMod qEd25519) B).Point)
    (hP : uCoord P = ((9 : Nat) : ZMod qEd25519)) (s t : List Byte) :
    uCoord (decodeScalar25519 s • decodeScalar25519 t • P) ≠ 0 := by
  intro h
  have h2 := uCoord_zero_two hB _ h
  rw [← mul_nsmul', ← mul_nsmul'] at h2
  have hL := base25519 hB P hP
  have hP0 : P ≠ 0 := by
    rintro rfl
    exact absurd ((ZMod.natCast_eq_zero_iff _ _).mp (hP.symm.trans rfl)) (by decide +kernel)
  haveI : Fact (Nat.Prime LEd25519) := ⟨primeL25519⟩
  have ho := addOrderOf_eq_prime hL hP0
  have hd := addOrderOf_dvd_of_nsmul_eq_zero h2
  rw [ho] at hd
  rcases (Nat.Prime.dvd_mul primeL25519).mp hd with h | h
  · rcases (Nat.Prime.dvd_mul primeL25519).mp h with h | h
    · exact absurd h (by decide +kernel)
    · exact clamped_not_dvd _ h
  · exact clamped_not_dvd _ h

section
variable {crv : MtCurve} {q : Nat} [Fact q.Prime] {A : ZMod q} {decS decU : List Byte → Nat}

theorem up_lt (h : MtOk crv q A decS decU) : val (baseWords crv) < 256 ^ crv.sslen := by
  rw [(baseWords_val h).2]; have := h.up; have := h.enc; omega

theorem keygen_result (h : MtOk crv q A decS decU) (sk : List Byte) (hs : sk.length = crv.sslen) (P0 : List W) :
    encodePub (keygen crv sk P0) crv.sslen = some (encLSB (keygen crv sk P0).K crv.sslen) ∧
    (keygen crv sk P0).K.length = crv.c ∧ val (keygen crv sk P0).K ≤ q ∧
    IsScaled A (decS sk) ((crv.up : Nat) : ZMod q) (val (keygen crv sk P0).K : ZMod q) ∧
    IsEncodedResult A (decS sk) ((crv.up : Nat) : ZMod q) (encLSB (keygen crv sk P0).K crv.sslen) := by
  obtain ⟨h1, h2⟩ := baseWords_val h
  obtain ⟨a, b, c⟩ := scale_result h hs h1 (up_lt h)
  rw [h2] at c
  have e : (keygen crv sk P0).K = mtPointScale crv.aux crv.a24 crv.c (decLSB crv.c (crv.clamp sk)) (baseWords crv) crv.pbits := rfl
  rw [e]
  refine ⟨?_, a, b, c, ?_, ?_⟩
  · unfold encodePub
    rw [show (keygen crv sk P0).curve = crv from rfl, if_neg (by simp), e]
  · rw [leNat_enc h b]; exact c
  · rw [leNat_enc h b]; exact b

theorem copySS_full (tmp : List Byte) (n : Nat) (h : tmp.length = n) : copySS tmp n n = tmp := by
  unfold copySS
  apply List.ext_getElem
  · simp [h]
  · intro i h1 h2
    simp only [List.length_map, List.length_range] at h1
    simp [h1, List.getD_eq_getElem?_getD, List.getElem?_eq_getElem h2]

theorem cpy_val {c : Nat} (l : List W) (h : l.length = c) : cpy c l = l := by
  exact cpy_self h

theorem enc_result (h : MtOk crv q A decS decU) (x : Ctx) (hc : x.curve = crv) (hl : x.K.length = crv.c) (hv : val x.K < 256 ^ crv.sslen)
    (r : List Byte) (hr : r.length = crv.sslen) :
    IsEncodedResult A (decS r) (val x.K : ZMod q) (enc x crv.sslen r).1 ∧ (enc x crv.sslen r).2.curve = crv ∧
    (enc x crv.sslen r).1 = encLSB (mtPointScale crv.aux crv.a24 crv.c (decLSB crv.c (crv.clamp r)) x.K crv.pbits) crv.sslen ∧
    (enc x crv.sslen r).2.P = mtPointScale crv.aux crv.a24 crv.c (decLSB crv.c (crv.clamp r)) (baseWords crv) crv.pbits := by
  obtain ⟨a, b, c⟩ := scale_result h hr hl hv
  have e1 : (enc x crv.sslen r).1 = encLSB (mtPointScale crv.aux crv.a24 crv.c (decLSB crv.c (crv.clamp r)) x.K crv.pbits) crv.sslen := by
    unfold enc genScl
    simp only [hc]
    rw [cpy_val _ hl]
    exact copySS_full _ _ (by simp [encLSB])
  refine ⟨?_, ?_, e1, ?_⟩
  · rw [e1]
    exact ⟨by rw [leNat_enc h b]; exact c, by rw [leNat_enc h b]; exact b⟩
  · simpa [enc] using hc
  · unfold enc genScl
    simp only [hc, h.a24e]

theorem keygen_K_congr (crv : MtCurve) (a b : List Byte) (P1 P0 : List W)
    (h : decLSB crv.c (crv.clamp a) = decLSB crv.c (crv.clamp b)) : (keygen crv a P1).K = (keygen crv b P0).K := by
  simp only [keygen, genScl, h]

theorem enc_full (h : MtOk crv q A decS decU) (pub r : List Byte) (hp : pub.length ≤ crv.sslen) (hr : r.length = crv.sslen) (k0 P0 : List W) :
    IsEncodedResult A (decS r) ((decU pub : Nat) : ZMod q) (enc (decodePub crv pub k0 P0) crv.sslen r).1 ∧
    ∃ ct, encodeCt (enc (decodePub crv pub k0 P0) crv.sslen r).2 crv.sslen = some ct ∧
      IsEncodedResult A (decS r) ((crv.up : Nat) : ZMod q) ct := by
  obtain ⟨m1, m2⟩ := h.mask pub hp
  have hv := h.decUle pub hp
  rw [← m2] at hv
  obtain ⟨c0, c1, -, c3⟩ := enc_result h (decodePub crv pub k0 P0) rfl m1 hv r hr
  have e : ((val (decodePub crv pub k0 P0).K : Nat) : ZMod q) = ((decU pub : Nat) : ZMod q) :=
    congrArg Nat.cast m2
  rw [e] at c0
  refine ⟨c0, encLSB (enc (decodePub crv pub k0 P0) crv.sslen r).2.P crv.sslen, ?_, ?_⟩
  · unfold encodeCt; rw [c1, if_neg (by simp)]
  · obtain ⟨b1, b2⟩ := baseWords_val h
    obtain ⟨s1, s2, s3⟩ := scale_result h hr b1 (up_lt h)
    rw [← c3] at s2 s3
    rw [b2] at s3
    have := leNat_enc h s2
    exact ⟨by rw [this]; exact s3, by rw [this]; exact s2⟩

theorem dec_result (h : MtOk crv q A decS decU) (x : Ctx) (hc : x.curve = crv) (sk : List Byte) (hs : sk.length = crv.sslen)
    (hk : x.k = decLSB crv.c (crv.clamp sk)) (ct : List Byte) (hct : ct.length ≤ crv.sslen) :
    IsEncodedResult A (decS sk) (decU ct : ZMod q) (dec (decodeCt x ct) crv.sslen).1 ∧
    (dec (decodeCt x ct) crv.sslen).1 = encLSB (mtPointScale crv.aux crv.a24 crv.c (decLSB crv.c (crv.clamp sk))
      (maskU crv (decLSB crv.c ct)) crv.pbits) crv.sslen := by
  obtain ⟨m1, m2⟩ := h.mask ct hct
  obtain ⟨a, b, c⟩ := scale_result h hs m1 (by rw [m2]; exact h.decUle ct hct)
  rw [m2] at c
  have e1 : (dec (decodeCt x ct) crv.sslen).1 = encLSB (mtPointScale crv.aux crv.a24 crv.c (decLSB crv.c (crv.clamp sk))
      (maskU crv (decLSB crv.c ct)) crv.pbits) crv.sslen := by
    unfold dec decodeCt
    simp only [gt_iff_lt, lt_self_iff_false, if_false, hc, hk, h.a24e]
    exact copySS_full _ _ (by simp [encLSB])
  refine ⟨?_, e1⟩
  rw [e1]
  exact ⟨by rw [leNat_enc h b]; exact c, by rw [leNat_enc h b]; exact b⟩

/-- The two sides of the agreement: equal octets, or the agreed `u` is zero. -/
theorem agree (h : MtOk crv q A decS decU) (sk r : List Byte) (hs : sk.length = crv.sslen) (hr : r.length = crv.sslen)
    (P0 k1 P1 : List W) :
    let me := keygen crv sk P0
    let pub := encLSB me.K crv.sslen
    let peer := enc (decodePub crv pub k1 P1) crv.sslen r
    let ct := encLSB peer.2.P crv.sslen
    let mine := dec (decodeCt me ct) crv.sslen
    encodePub me crv.sslen = some pub ∧ encodeCt peer.2 crv.sslen = some ct ∧
    (mine.1 = peer.1 ∨ ∀ B : ZMod q, B ≠ 0 → ∀ P : (montW A B).Point, uCoord P = ((crv.up : Nat) : ZMod q) →
      uCoord (decS r • decS sk • P) = 0) := by
  intro me pub peer ct mine
  obtain ⟨k1', k2, k3, k4, -⟩ := keygen_result h sk hs P0
  have hpl : pub.length = crv.sslen := by simp [pub, encLSB]
  have hpv : leNat pub = val me.K := leNat_enc h k3
  obtain ⟨m1, m2⟩ := h.mask pub hpl.le
  have hdU : decU pub = val me.K := by rw [← hpv]; exact h.decUq _ (by rw [hpv]; exact k3)
  rw [hdU] at m2
  obtain ⟨-, c1, c2, c3⟩ := enc_result h (decodePub crv pub k1 P1) rfl m1 (by show val (maskU _ _) < _; rw [m2]; exact lt_of_le_of_lt k3 h.enc) r hr
  obtain ⟨b1, b2⟩ := baseWords_val h
  obtain ⟨s1, s2, s3⟩ := scale_result h hr b1 (up_lt h)
  rw [← c3] at s1 s2 s3
  rw [b2] at s3
  have hcv : leNat ct = val peer.2.P := leNat_enc h s2
  have hctl : ct.length = crv.sslen := by simp [ct, encLSB]
  obtain ⟨n1, n2⟩ := h.mask ct hctl.le
  have hdC : decU ct = val peer.2.P := by rw [← hcv]; exact h.decUq _ (by rw [hcv]; exact s2)
  rw [hdC] at n2
  obtain ⟨-, d2⟩ := dec_result h me rfl sk hs rfl ct hctl.le
  refine ⟨k1', ?_, ?_⟩
  · unfold encodeCt
    rw [show peer.2.curve = crv from c1, if_neg (by simp)]
  · -- values of both secrets
    obtain ⟨e1, e2, e3⟩ := scale_result h hr m1 (by rw [m2]; exact lt_of_le_of_lt k3 h.enc)
    obtain ⟨f1, f2, f3⟩ := scale_result h hs n1 (by rw [n2]; exact lt_of_le_of_lt s2 h.enc)
    rw [m2] at e3
    rw [n2] at f3
    by_cases hz : ∀ B : ZMod q, B ≠ 0 → ∀ P : (montW A B).Point, uCoord P = ((crv.up : Nat) : ZMod q) →
      uCoord (decS r • decS sk • P) = 0
    · right; exact hz
    · left
      push Not at hz
      obtain ⟨B, hB, P, hP, hne⟩ := hz
      show (dec (decodeCt me ct) crv.sslen).1 = (enc (decodePub crv pub k1 P1) crv.sslen r).1
      rw [d2, c2]
      apply encLSB_inj
      have v1 := e3 B hB (decS sk • P) (k4 B hB P hP).symm
      have v2 := f3 B hB (decS r • P) (s3 B hB P hP).symm
      have comm : decS sk • decS r • P = decS r • decS sk • P := by
        rw [← mul_nsmul', ← mul_nsmul', mul_comm]
      rw [comm, ← v1] at v2
      rw [← v1] at hne
      have hmod := (ZMod.natCast_eq_natCast_iff' _ _ _).mp v2
      have nz : ∀ n : Nat, n ≤ q → (n : ZMod q) ≠ 0 → n % q = n := by
        intro n hn h0
        apply Nat.mod_eq_of_lt
        rcases Nat.lt_or_eq_of_le hn with h | h
        · exact h
        · rw [h, ZMod.natCast_self] at h0; exact absurd rfl h0
      rw [nz _ f2 (by rw [v2]; exact hne), nz _ e2 hne] at hmod
      exact hmod

end
end Xecdh
