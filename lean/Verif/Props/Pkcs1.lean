import Verif.Lemmas.Pkcs1Ops2

/-!
# Properties C31, C33, C34, C35, C45, C46: the PKCS #1 schemes

`PubOk`, `PrivOk` (`Verif.Lemmas.Pkcs1Key`) describe contexts holding a valid key of exactly `bits` bits.  A key pair is
`PubOk x`, `PrivOk (val x.e) y` with equal moduli.  The encodings are those of RFC 8017, `Verif.Spec.Pkcs1`.
`Hash.mgf` is MGF1 of the hash function, or its output if it is an XOF.
-/

namespace Props
open Vlong Spec _root_.Pkcs1
open Spec.Pkcs1 hiding Byte

/-! ## A concrete key pair -/

/-- A four-prime toy key of 96 bits, `e = 3`. -/
def toyPub : Pub :=
  { status := 0, bits := 96, n := [0x96a8e0cb, 0x69b3f032, 0xfffeea00], e := [3],
    w1 := List.replicate 24 0, w2 := List.replicate 24 0 }

def toyPriv : Priv :=
  { status := 0, bits := 96, n := [0x96a8e0cb, 0x69b3f032, 0xfffeea00], q := [16777199], dQ := [11184799],
    l := [⟨[16777139], [11184759], [279619]⟩, ⟨[16777127], [11184751], [10738138]⟩, ⟨[16777121], [11184747], [4315767]⟩],
    w1 := List.replicate 24 0, w2 := List.replicate 24 0 }

theorem toyPub_ok : PubOk toyPub := ⟨by decide, by decide, by decide, by decide, by decide, rfl⟩

theorem toyPriv_ok : PrivOk (val toyPub.e) toyPriv := by
  refine ⟨⟨by change Nat.Prime 16777199; norm_num, ⟨2, rfl⟩, ⟨by change Nat.Prime 16777139; norm_num, ⟨2, rfl⟩, by decide,
    by change Nat.Prime 16777127; norm_num, ⟨2, rfl⟩, by decide, by change Nat.Prime 16777121; norm_num, ⟨2, rfl⟩, by decide, trivial⟩, by decide⟩, by decide, by decide, by decide, by decide, ?_, by decide, rfl⟩
  intro x hx
  simp only [toyPriv, List.mem_cons, List.not_mem_nil, or_false] at hx
  rcases hx with rfl | rfl | rfl <;> decide

/-- A toy hash function with one octet of output. -/
def toyHash : Hash := ⟨1, false, fun m i => BitVec.ofNat 8 (m.length * 7 + i + 1)⟩
def toyPadding : Padding := ⟨toyHash, toyHash, 1⟩

/-! ## C31: verification -/

/-- C31 (refuted): after decoding a signature, one-shot PSS verification accepts it, whatever the key, the
message and the signature are. -/
theorem C31_pss_accepts_everything (P : Padding) (x : Pub) (sig msg : List Byte) :
    ∃ x', pssVerify P (decodeSig x sig) msg = some (x', true) := by
  refine ⟨{ decodeSig x sig with status := 2 }, ?_⟩
  unfold pssVerify pssVerifyBody
  rw [if_neg (by simp [decodeSig]), if_neg (by simp [decodeSig]), if_pos (by simp)]
  rfl

/-- C31 (refuted): and so do incremental PSS verification, and both forms of PKCS #1 v1.5 verification. -/
theorem C31_others_accept_everything (P : Padding) (oid : Option HashOid) (x : Pub) (sig msg : List Byte) :
    (∃ x', pssIncVerify P (decodeSig x sig) msg = some (x', true)) ∧
    (∃ x', v15Verify oid (decodeSig x sig) msg = some (x', true)) ∧
    (∃ x', v15IncVerify oid (decodeSig x sig) msg = some (x', true)) := by
  refine ⟨⟨{ decodeSig x sig with status := 2 }, ?_⟩, ⟨{ decodeSig x sig with status := 2 }, ?_⟩, ⟨{ decodeSig x sig with status := 2 }, ?_⟩⟩
  · unfold pssIncVerify pssVerifyBody
    simp only
    rw [if_neg (by simp), if_neg (by simp), if_pos (by simp)]; rfl
  · unfold v15Verify v15VerifyBody
    rw [if_neg (by simp [decodeSig]), if_neg (by simp [decodeSig]), if_pos (by simp)]; rfl
  · unfold v15IncVerify v15VerifyBody
    simp only
    rw [if_neg (by simp), if_neg (by simp), if_pos (by simp)]; rfl

/-- C31 (refuted): for every key, hash function and message, the empty signature (the integer 0) is accepted although no
encoded message that it represents passes the standard's check. -/
theorem C31_forgery (P : Padding) (o : HashOid) (x : Pub) (msg : List Byte) (he : 0 < val x.e) :
    (∃ x', pssVerify P (decodeSig x []) msg = some (x', true)) ∧
    (¬ ∃ EM, beNat EM = beNat [] ^ val x.e % val x.n ∧
      PssConsistent P.hmsg.full P.hmgf.mgf P.hmsg.hlen P.slen (x.bits - 1) (P.hmsg.full msg) EM) ∧
    (∃ x', v15Verify (some o) (decodeSig x []) msg = some (x', true)) ∧
    beNat (emsaPkcs1 ((x.bits + 7) / 8) (o.pre ++ P.hmsg.digest msg o.dlen)) ≠ beNat [] ^ val x.e % val x.n := by
  have h0 : beNat [] ^ val x.e % val x.n = 0 := by
    rw [show beNat [] = 0 from rfl, Nat.zero_pow he, Nat.zero_mod]
  refine ⟨C31_pss_accepts_everything P x [] msg, ?_, (C31_others_accept_everything P (some o) x [] msg).2.1, ?_⟩
  · rintro ⟨EM, h1, -, D, H, salt, e, -⟩
    rw [h0, e, beNat_snoc] at h1
    have : ((0xbc : BitVec 8)).toNat = 0xbc := rfl
    omega
  · rw [h0]
    unfold emsaPkcs1
    rw [List.append_assoc, List.append_assoc, List.cons_append, beNat_cons, List.cons_append, beNat_cons]
    have : 0 < 1 * 256 ^ ([] ++ (List.replicate ((x.bits + 7) / 8 - (o.pre ++ P.hmsg.digest msg o.dlen).length - 3) 0xff ++
      ([0x00] ++ (o.pre ++ P.hmsg.digest msg o.dlen)))).length := by
      rw [Nat.one_mul]; exact Nat.pow_pos (by decide)
    rw [show ((0x01 : BitVec 8)).toNat = 1 from rfl]
    omega

/-- C31, what is missing: the consistency check that follows the early return is the standard's (it is never
reached with an outcome, because the status is 2 on entry; with status 0 it would stop at an assertion). -/
theorem C31_check_partial (P : Padding) (hm : P.hmgf.xof = false → 0 < P.hmgf.hlen) (emBits : Nat) (mHash EM tail : List Byte)
    (hk : P.hmsg.hlen + P.slen + 2 ≤ (emBits + 7) / 8) (hE : EM.length = (emBits + 7) / 8) :
    ∃ b, pssCheck P emBits mHash (EM ++ tail) = some b ∧
      (b = true ↔ PssConsistent P.hmsg.full P.hmgf.mgf P.hmsg.hlen P.slen emBits mHash EM) :=
  pssCheck_iff P hm emBits mHash EM tail hk hE

example : ∃ x', pssVerify toyPadding (decodeSig toyPub [1, 2, 3]) [0x61] = some (x', true) :=
  C31_pss_accepts_everything _ _ _ _
example := C31_forgery toyPadding ⟨[0x30], 1⟩ toyPub [0x61] (by decide)
example := C31_check_partial toyPadding (by decide) 95 [7] (List.replicate 12 0xbc) [] (by decide) (by decide)

/-! ## C45: mask generation -/

/-- C45: the mask generation routine XORs onto its output buffer exactly MGF1 of RFC 8017 (hash functions), for every seed and
length. -/
theorem C45_mgf1 (h : Hash) (hx : h.xof = false) (hh : 0 < h.hlen) (seed dst : List Byte) :
    mgfAuto h seed dst true
      = Spec.Pkcs1.xorBytes dst (Spec.Pkcs1.mgf1 (fun m => (List.range h.hlen).map (h.out m)) h.hlen seed dst.length) := by
  rw [mgfAuto_eq h seed dst (fun _ => hh), Hash.mgf, if_neg (by simp [hx])]; rfl

/-- C45: and the output stream itself for an extendable-output function. -/
theorem C45_mgf_xof (h : Hash) (hx : h.xof = true) (seed dst : List Byte) :
    mgfAuto h seed dst true = Spec.Pkcs1.xorBytes dst ((List.range dst.length).map (h.out seed)) := by
  rw [mgfAuto_eq h seed dst (by simp [hx]), Hash.mgf, if_pos hx]; rfl

example := C45_mgf1 toyHash rfl (by decide) [1, 2, 3] (List.replicate 300 0)

/-! ## C33: OAEP -/

/-- C33: `Enc` without a label draws the secret and the seed and leaves the RSA encryption of the RFC 8017 encoding of the secret with
the empty label; `Encode_Ciphertext` writes it big-endian. -/
theorem C33_enc (P : Padding) (hm : P.hmgf.xof = false → 0 < P.hmgf.hlen) (x : Pub) (hx : PubOk x) (hst : x.status ≠ 2)
    (hbits : x.bits < 2 ^ 31) (sslen : Nat) (rng : Nat → Nat → List Byte)
    (hr : ∀ i n, (rng i n).length = n) (hk : sslen + 2 * P.hmsg.hlen + 2 ≤ x.bits / 8) :
    ∃ x', oaepEnc P x sslen rng = some (x', some (rng 0 sslen)) ∧ x'.status = 1 ∧
      ∀ ctlen, x.bits ≤ ctlen * 8 → encodeCt x' ctlen
        = some (beN ctlen (beNat (oaepEncode P.hmgf.mgf P.hmsg.hlen (x.bits / 8) (P.hmsg.full []) (rng 0 sslen) (rng 1 P.hmsg.hlen))
            ^ val x.e % val x.n)) := by
  obtain ⟨C, w1, h1, h2, h3⟩ := oaepEnc_plain P hm x hx hst hbits sslen rng hr hk
  refine ⟨_, h1, rfl, fun ctlen hc => ?_⟩
  unfold encodeCt
  simp only
  rw [if_neg (by omega), words_octets, i2osp_beN, h3]

/-- C33: the same after setting a label. -/
theorem C33_enc_label (P : Padding) (hm : P.hmgf.xof = false → 0 < P.hmgf.hlen) (x : Pub) (hx : PubOk x) (label : List Byte)
    (hbits : x.bits < 2 ^ 31) (sslen : Nat) (rng : Nat → Nat → List Byte)
    (hr : ∀ i n, (rng i n).length = n) (hk : sslen + 2 * P.hmsg.hlen + 2 ≤ x.bits / 8) :
    ∃ x1 x', oaepSetLabel P x label = some x1 ∧ oaepEnc P x1 sslen rng = some (x', some (rng 0 sslen)) ∧
      ∀ ctlen, x.bits ≤ ctlen * 8 → encodeCt x' ctlen
        = some (beN ctlen (beNat (oaepEncode P.hmgf.mgf P.hmsg.hlen (x.bits / 8) (P.hmsg.full label) (rng 0 sslen) (rng 1 P.hmsg.hlen))
            ^ val x.e % val x.n)) := by
  obtain ⟨x1, C, w1, h0, h1, h2, h3⟩ := oaepEnc_label P hm x hx hbits label sslen rng hr hk
  refine ⟨x1, _, h0, h1, fun ctlen hc => ?_⟩
  unfold encodeCt
  simp only
  rw [if_neg (by omega), words_octets, i2osp_beN, h3]

/-- What `Dec` finds after decoding a ciphertext. -/
theorem oaep_decode (y : Priv) (e : Nat) (hy : PrivOk e y) (ct : List Byte) (hct : beNat ct ≤ val y.n) :
    PrivOk e (decodeCt y ct) ∧ (decodeCt y ct).status = 0 ∧ val (words (decodeCt y ct).w1) = beNat ct ∨ y.w1.length % 4 ≠ 0 := by
  by_cases h4 : y.w1.length % 4 = 0
  · left
    refine ⟨⟨hy.key, hy.lo, hy.hi, hy.small, hy.q, hy.l, hy.w, ?_⟩, rfl, ?_⟩
    · change (loadW1 y.w1 ct).length = y.w2.length
      rw [length_loadW1, ← hy.w1]; omega
    · change val (words (loadW1 y.w1 ct)) = _
      rw [val_loadW1, hy.w1]
      exact Nat.mod_eq_of_lt (Nat.lt_of_le_of_lt hct hy.w)
  · right; exact h4

/-- C33: decryption of an arbitrary ciphertext below the modulus.  With `m` the RSA decryption of the ciphertext and `EM` its `k`
octets: if `EM` is the encoding of a message the call succeeds and reports exactly that message (or its length); otherwise it
fails and writes zeros only.  (`k = bits / 8`; the label hash is not looked at here.) -/
theorem C33_dec (P : Padding) (hm : P.hmgf.xof = false → 0 < P.hmgf.hlen) (e : Nat) (y : Priv) (hy : PrivOk e y) (h4 : y.w1.length % 4 = 0)
    (hk : 2 * P.hmsg.hlen + 2 ≤ y.bits / 8) (ct : List Byte) (hct : beNat ct < val y.n) (req : Option Nat) :
    ∃ m y' r, m < val y.n ∧ m ^ e % val y.n = beNat ct ∧ oaepDec P (decodeCt y ct) req = some (y', r) ∧
      (∀ lHash M, OaepDecodes P.hmgf.mgf P.hmsg.hlen (y.bits / 8) (beN (y.bits / 8) m) lHash M →
        r.ok = true ∧ (req = none → r.len = some (M.length : Int)) ∧
        (∀ n, req = some n → r.ss = M.take n ++ List.replicate (n - M.length) 0)) ∧
      ((¬ ∃ lHash M, OaepDecodes P.hmgf.mgf P.hmsg.hlen (y.bits / 8) (beN (y.bits / 8) m) lHash M) →
        r.ok = false ∧ r.ss = List.replicate (req.getD 0) 0 ∧ r.len = if req = none then some (-1) else none) := by
  obtain ⟨d1, d2, d3⟩ := (oaep_decode y e hy ct (by omega)).resolve_right (by omega)
  obtain ⟨m, y', r, a1, a2, a3, a4, a5, a6⟩ := oaepDec_spec P hm e (decodeCt y ct) d1 d2 hk
    (by rw [d3]; change _ ≤ val y.n; omega) req
  refine ⟨m, y', r, a1, ?_, a3, fun lHash M h => ?_, fun h => (a6 h).2⟩
  · rw [d3] at a2; exact a2 hct
  · obtain ⟨-, b2, b3, b4, -⟩ := a5 lHash M h
    exact ⟨b2, b3, b4⟩

/-- C33: a ciphertext above the modulus is refused. -/
theorem C33_dec_range (P : Padding) (e : Nat) (y : Priv) (hy : PrivOk e y) (ct : List Byte) (hct : val y.n < beNat ct)
    (hfit : beNat ct < 2 ^ (32 * (y.w1.length / 4))) (hb : 0 < y.bits) (req : Option Nat) :
    ∃ y' r, oaepDec P (decodeCt y ct) req = some (y', r) ∧ r.ok = false ∧ r.ss = List.replicate (req.getD 0) 0 := by
  have hbb := bytes_of_bits y.bits y.w2.length (val y.n) hy.lo hy.w hb
  have hw := hy.w1
  have hn : notAbove (words (decodeCt y ct).w1) (decodeCt y ct).n = false := by
    rw [notAbove_eq, decide_eq_false_iff_not]
    change ¬ val (words (loadW1 y.w1 ct)) ≤ val y.n
    rw [val_loadW1, Nat.mod_eq_of_lt hfit]; omega
  obtain ⟨r, r1, r2, r3, -⟩ := decFinish_fail (y.bits / 8) (loadW1 y.w1 ct) req (by rw [length_loadW1, hw]; omega)
  refine ⟨{ decodeCt y ct with status := -1 }, r, ?_, r2, r3⟩
  unfold oaepDec
  rw [if_neg (by simp [decodeCt]), if_pos (Or.inr (by rw [hn]; rfl))]
  change (decFinish (y.bits / 8) (-1) (loadW1 y.w1 ct) req).map _ = _
  rw [r1]; rfl

/-- C33, round trip: a ciphertext produced by `Enc` (any label, any seed, any secret length that fits) is decrypted by the
matching private key to the secret: by one call with a buffer, or by asking for the length first. -/
theorem C33_roundtrip (P : Padding) (hm : P.hmgf.xof = false → 0 < P.hmgf.hlen) (x : Pub) (hx : PubOk x) (y : Priv)
    (hy : PrivOk (val x.e) y) (hn : val y.n = val x.n) (hb : y.bits = x.bits) (h4 : y.w1.length % 4 = 0) (label : List Byte)
    (sslen : Nat) (rng : Nat → Nat → List Byte)
    (hr : ∀ i n, (rng i n).length = n) (hk : sslen + 2 * P.hmsg.hlen + 2 ≤ x.bits / 8) (ctlen : Nat) (hc : x.bits ≤ ctlen * 8) (n : Nat) :
    ∃ x1 x' ct, oaepSetLabel P x label = some x1 ∧ oaepEnc P x1 sslen rng = some (x', some (rng 0 sslen)) ∧ encodeCt x' ctlen = some ct ∧
      (∃ y' r, oaepDec P (decodeCt y ct) (some n) = some (y', r) ∧ r.ok = true ∧
        r.ss = (rng 0 sslen).take n ++ List.replicate (n - sslen) 0) ∧
      (∃ y' r, oaepDec P (decodeCt y ct) none = some (y', r) ∧ r.ok = true ∧ r.len = some (sslen : Int) ∧
        (0 < sslen → ∃ r2, oaepDec P y' (some sslen) = some (y', r2) ∧ r2.ok = true ∧ r2.ss = rng 0 sslen)) := by
  obtain ⟨x1, x', e1, e2, e3⟩ := C33_enc_label P hm x hx label (by rw [← hb]; exact hy.small) sslen rng hr hk
  obtain ⟨EM, hEM⟩ : ∃ EM, EM = oaepEncode P.hmgf.mgf P.hmsg.hlen (x.bits / 8) (P.hmsg.full label) (rng 0 sslen) (rng 1 P.hmsg.hlen) := ⟨_, rfl⟩
  simp only [← hEM] at e3
  have hl := length_oaepEncode P hm (x.bits / 8) (rng 0 sslen) (rng 1 P.hmsg.hlen) (P.hmsg.full label) (by rw [hr]; omega)
    (by simp [Hash.full]) (hr _ _)
  rw [← hEM] at hl
  obtain ⟨z0, hz⟩ : ∃ l, EM = 0x00 :: l := ⟨_, hEM⟩
  have hlt : beNat EM < val x.n := repr_lt EM x.bits _ _ hz (by rw [hl]; omega) hx.lo
  have hn0 : 0 < val x.n := by omega
  obtain ⟨ct, hct⟩ : ∃ ct, ct = beN ctlen (beNat EM ^ val x.e % val x.n) := ⟨_, rfl⟩
  have hcv : beNat ct = beNat EM ^ val x.e % val x.n := by
    rw [hct, beNat_beN]
    apply Nat.mod_eq_of_lt
    have h1 := Nat.mod_lt (beNat EM ^ val x.e) hn0
    have h2 : (2 : Nat) ^ x.bits ≤ 256 ^ ctlen := by rw [pow256]; exact Nat.pow_le_pow_right (by decide) (by omega)
    have := hx.hi
    omega
  have hcl : beNat ct < val y.n := by rw [hcv, hn]; exact Nat.mod_lt _ hn0
  obtain ⟨d1, d2, d3⟩ := (oaep_decode y (val x.e) hy ct (by omega)).resolve_right (by omega)
  -- the encoded message decodes
  have hmd : ∃ ms md, EM = 0x00 :: (ms ++ md) ∧ ms.length = P.hmsg.hlen ∧ OaepDecodes P.hmgf.mgf P.hmsg.hlen (x.bits / 8) EM (P.hmsg.full label) (rng 0 sslen) := by
    unfold oaepEncode at hEM
    simp only at hEM
    obtain ⟨DB, hDB⟩ : ∃ DB, DB = P.hmsg.full label ++ List.replicate (x.bits / 8 - (rng 0 sslen).length - 2 * P.hmsg.hlen - 2) 0 ++ [0x01] ++ rng 0 sslen := ⟨_, rfl⟩
    rw [← hDB] at hEM
    have hDl : DB.length = x.bits / 8 - P.hmsg.hlen - 1 := by
      rw [hDB]
      have := hr 0 sslen
      simp [Hash.full]; omega
    have hsl := hr 1 P.hmsg.hlen
    obtain ⟨md, hmd⟩ : ∃ md, md = Spec.Pkcs1.xorBytes DB (P.hmgf.mgf (rng 1 P.hmsg.hlen) (x.bits / 8 - P.hmsg.hlen - 1)) := ⟨_, rfl⟩
    rw [← hmd] at hEM
    have hms : (Spec.Pkcs1.xorBytes (rng 1 P.hmsg.hlen) (P.hmgf.mgf md P.hmsg.hlen)).length = P.hmsg.hlen := by
      rw [length_xorBytes _ _ (by rw [length_mgf _ hm, hsl])]; exact hsl
    refine ⟨_, md, hEM, hms, _, md, x.bits / 8 - (rng 0 sslen).length - 2 * P.hmsg.hlen - 2, hEM, hms, by simp [Hash.full], ?_⟩
    rw [xorBytes_self _ _ (by rw [length_mgf _ hm, hsl]), hmd, xorBytes_self _ _ (by rw [length_mgf _ hm, hDl]), hDB]
  obtain ⟨-, -, -, -, hdec⟩ := hmd
  -- decryption gives it back
  have key : ∀ req, ∃ y' r, oaepDec P (decodeCt y ct) req = some (y', r) ∧ y'.bits = y.bits ∧ y'.status = sslen ∧ r.ok = true ∧
      (req = none → r.len = some (sslen : Int)) ∧
      (∀ n, req = some n → r.ss = (rng 0 sslen).take n ++ List.replicate (n - sslen) 0) ∧
      ∃ A tail, y'.w1 = A ++ (rng 0 sslen ++ tail) ∧ A.length + sslen = y.bits / 8 := by
    intro req
    obtain ⟨m, y', r, a1, a2, a3, a4, a5, a6⟩ := oaepDec_spec P hm (val x.e) (decodeCt y ct) d1 d2 (by change _ ≤ y.bits / 8; omega)
      (by rw [d3]; change _ ≤ val y.n; omega) req
    have hmEM : m = beNat EM := by
      obtain ⟨M, f1, f2, f3, f4, f5⟩ := fastdec_val (val x.e) (decodeCt y ct) d1 (decodeCt y ct).w1 (decodeCt y ct).w2 rfl 0
      rw [d3] at a2 f4
      have hA := f4 m a1 (a2 hcl).symm
      have hB := f4 (beNat EM) (by change _ < val y.n; omega) (by change _ = _ % val y.n; rw [hcv, hn])
      omega
    have hbe : beN ((decodeCt y ct).bits / 8) m = EM := by
      change beN (y.bits / 8) m = EM
      rw [hmEM, hb, ← hl]; exact beN_beNat EM
    have hbb : (decodeCt y ct).bits = x.bits := hb
    have := a5 (P.hmsg.full label) (rng 0 sslen) (by rw [hbe, hbb]; exact hdec)
    obtain ⟨b1, b2, b3, b4, -, A, tail, b6, b7⟩ := this
    rw [hr] at b1 b3 b7
    simp only [hr] at b4
    exact ⟨y', r, a3, a4, b1, b2, b3, b4, A, tail, b6, b7⟩
  refine ⟨x1, x', ct, e1, e2, by rw [e3 ctlen hc, hct], ?_, ?_⟩
  · obtain ⟨y', r, k1, -, -, k2, -, k4, -⟩ := key (some n)
    exact ⟨y', r, k1, k2, k4 n rfl⟩
  · obtain ⟨y', r, k1, k1b, k1s, k2, k3, -, A, tail, k5, k6⟩ := key none
    refine ⟨y', r, k1, k2, k3 rfl, fun hpos => ?_⟩
    have hsm := hy.small
    obtain ⟨r2, q1, q2, q3, -⟩ := decFinish_ok (y.bits / 8) A (rng 0 sslen) tail (some sslen) (by rw [hr]; exact k6) (by rw [hr]; omega)
    refine ⟨r2, ?_, q2, ?_⟩
    · unfold oaepDec
      rw [if_pos (by rw [k1s]; omega), k1s, k1b, k5]
      rw [hr] at q1
      rw [q1]; rfl
    · rw [q3 sslen rfl, hr, List.take_of_length_le (by rw [hr])]; simp

example := C33_roundtrip toyPadding (by decide) toyPub toyPub_ok toyPriv toyPriv_ok rfl rfl (by decide) [0x6c] 5
  (fun i n => List.replicate n (BitVec.ofNat 8 (i + 40))) (by simp) (by decide) 12 (by decide) 8

/-- C33 (finding): with a label set, the length check is skipped: a secret one octet longer than the maximum is encoded over the
label hash and "succeeds". -/
theorem C33_label_skips_length_check :
    ∃ (P : Padding) (x : Pub) (sslen : Nat) (rng : Nat → Nat → List Byte), PubOk x ∧ (∀ i n, (rng i n).length = n) ∧
      ¬ (sslen + 2 * P.hmsg.hlen + 2 ≤ x.bits / 8) ∧
      ∃ x1 buf, oaepSetLabel P x [] = some x1 ∧
        oaepBlock P (x.bits / 8) (rng 0 sslen) (rng 1 P.hmsg.hlen) x1.w2 = some buf ∧
        (x1.status ≠ 2 ∧ oaepTooLong P.hmsg.hlen (x.bits / 8) sslen) = False := by
  refine ⟨toyPadding, toyPub, 10, fun _ n => List.replicate n 0x55, toyPub_ok, by simp, by decide, ?_⟩
  refine ⟨_, _, rfl, rfl, ?_⟩
  simp [oaepSetLabel]

/-- C33: the label test succeeds exactly when the decryption did not fail and the label hash found in the block is that of the
label. -/
theorem C33_testLabel (P : Padding) (y : Priv) (label lHash : List Byte) (hst : y.status = -1 ∨ (0 ≤ y.status ∧ y.status < 2 ^ 31))
    (hl : rdAt y.w1 (1 + P.hmsg.hlen) P.hmsg.hlen = some lHash) :
    ∃ y' b, oaepTestLabel P y label = some (y', b) ∧ (b = true ↔ y.status ≠ -1 ∧ lHash = P.hmsg.full label) := by
  unfold oaepTestLabel
  simp only [Option.bind_eq_bind]
  rw [hl, Option.bind_some]
  refine ⟨_, _, rfl, ?_⟩
  have hll : lHash.length = P.hmsg.hlen := by
    unfold rdAt at hl
    split at hl
    · cases hl; simp; omega
    · cases hl
  rw [labelBit_eq lHash (P.hmsg.digest label P.hmsg.hlen) (by rw [hll]; simp), beq_iff_eq]
  rw [show P.hmsg.full label = P.hmsg.digest label P.hmsg.hlen from rfl]
  rcases hst with h | ⟨h1, h2⟩
  · rw [h, errBit_neg]
    simp only [ne_eq, not_true_eq_false, false_and, iff_false]
    split <;> decide
  · rw [errBit_nonneg _ h1 h2]
    have : y.status ≠ -1 := by omega
    simp only [ne_eq, this, not_false_eq_true, true_and]
    split
    · rename_i h; simp [h]
    · rename_i h; simp [h]

/-- C33 (finding): a successful label test resets the status to 0, so the next `Dec` of the documented sequence (length, label test,
secret) runs the private-key operation again, on the decoded block instead of the ciphertext. -/
theorem C33_testLabel_resets (P : Padding) (y y' : Priv) (label : List Byte) (h : oaepTestLabel P y label = some (y', true)) :
    y' = { y with status := 0 } := by
  unfold oaepTestLabel at h
  simp only [Option.bind_eq_bind] at h
  obtain ⟨got, -, h⟩ := Option.bind_eq_some_iff.mp h
  simp only [Option.some.injEq, Prod.mk.injEq, beq_iff_eq] at h
  obtain ⟨h1, h2⟩ := h
  rw [← h1, h2]; rfl

/-! ## C34: PSS -/

/-- C34: the block the signer builds is the standard's encoding, the standard's check accepts it, and so does the code's own
check, for every hash function, salt and modulus bit length. -/
theorem C34_encoding (P : Padding) (hm : P.hmgf.xof = false → 0 < P.hmgf.hlen) (emBits : Nat) (msg salt buf : List Byte)
    (hs : salt.length = P.slen) (hk : P.hmsg.hlen + P.slen + 2 ≤ (emBits + 7) / 8) (hb : (emBits + 7) / 8 ≤ buf.length) :
    ∃ EM, EM = pssEncode P.hmsg.full P.hmgf.mgf P.hmsg.hlen emBits (P.hmsg.full msg) salt ∧ EM.length = (emBits + 7) / 8 ∧
      pssBuild P emBits msg salt buf = some (EM ++ buf.drop ((emBits + 7) / 8)) ∧
      PssConsistent P.hmsg.full P.hmgf.mgf P.hmsg.hlen P.slen emBits (P.hmsg.full msg) EM ∧
      ∀ tail, pssCheck P emBits (P.hmsg.full msg) (EM ++ tail) = some true := by
  have hl := length_pssEncode P hm emBits (P.hmsg.full msg) salt (by omega)
  have hcon : PssConsistent P.hmsg.full P.hmgf.mgf P.hmsg.hlen P.slen emBits (P.hmsg.full msg)
      (pssEncode P.hmsg.full P.hmgf.mgf P.hmsg.hlen emBits (P.hmsg.full msg) salt) := by
    refine ⟨hk, _, _, salt, rfl, hl, by simp [Hash.full], hs, clearTop_idem _ _, ?_, rfl⟩
    exact (pss_unmask P hm emBits _ salt hs hk).symm ▸ rfl
  refine ⟨_, rfl, hl, pssBuild_eq P hm emBits msg salt buf hs hk hb, hcon, fun tail => ?_⟩
  obtain ⟨b, b1, b2⟩ := pssCheck_iff P hm emBits (P.hmsg.full msg) _ tail hk hl
  rw [b1, b2.mpr hcon]

/-- C34: the salt is recovered: any decomposition of the encoding that passes the check has the signer's salt. -/
theorem C34_salt (P : Padding) (hm : P.hmgf.xof = false → 0 < P.hmgf.hlen) (emBits : Nat) (mHash salt : List Byte) (hs : salt.length = P.slen)
    (D H salt' : List Byte) (hk : P.hmsg.hlen + P.slen + 2 ≤ (emBits + 7) / 8) (hH : H.length = P.hmsg.hlen) (hs' : salt'.length = P.slen)
    (e : pssEncode P.hmsg.full P.hmgf.mgf P.hmsg.hlen emBits mHash salt = D ++ H ++ [0xbc])
    (hD : clearTop (8 * ((emBits + 7) / 8) - emBits) (Spec.Pkcs1.xorBytes D (P.hmgf.mgf H ((emBits + 7) / 8 - P.hmsg.hlen - 1)))
      = List.replicate ((emBits + 7) / 8 - P.hmsg.hlen - P.slen - 2) 0 ++ [0x01] ++ salt') : salt' = salt := by
  unfold pssEncode at e
  simp only at e
  have e1 := List.append_inj' e rfl
  have e2 := List.append_inj' e1.1 (by rw [hH]; simp [Hash.full])
  rw [← e2.1, ← e2.2, pss_unmask P hm emBits _ salt hs hk] at hD
  exact (List.append_inj' hD (by omega)).2.symm

example := C34_encoding toyPadding (by decide) 95 [0x61] [0x33] (List.replicate 16 0) rfl (by decide) (by decide)

/-- C34: signing.  For every matching key whose bit length is not 1 modulo 8: the signature is a number `s` below the modulus, written
big-endian, with `s^e mod n` the encoding of the message with the salt drawn; decoded and put through the public operation it yields
an encoded message that the standard's check accepts. -/
theorem C34_sign (P : Padding) (hm : P.hmgf.xof = false → 0 < P.hmgf.hlen) (e : Nat) (y : Priv) (hy : PrivOk e y) (h8 : y.bits % 8 ≠ 1)
    (msg : List Byte) (rng : Nat → Nat → List Byte) (hr : ∀ i n, (rng i n).length = n) (h4 : y.w2.length % 4 = 0)
    (hk : P.hmsg.hlen + P.slen + 2 ≤ (y.bits - 1 + 7) / 8) (siglen : Nat) (hs : (y.bits + 7) / 8 ≤ siglen) :
    ∃ y' sig, pssSign P y msg rng = some (y', true) ∧ encodeSig y' siglen = some (some sig) ∧
      sig.length = (y.bits + 7) / 8 ∧ beNat sig < val y.n ∧
      beN ((y.bits - 1 + 7) / 8) (beNat sig ^ e % val y.n)
        = pssEncode P.hmsg.full P.hmgf.mgf P.hmsg.hlen (y.bits - 1) (P.hmsg.full msg) (rng 0 P.slen) ∧
      PssConsistent P.hmsg.full P.hmgf.mgf P.hmsg.hlen P.slen (y.bits - 1) (P.hmsg.full msg)
        (beN ((y.bits - 1 + 7) / 8) (beNat sig ^ e % val y.n)) := by
  have hb : 0 < y.bits := by omega
  have hbb := bytes_of_bits y.bits y.w2.length (val y.n) hy.lo hy.w hb
  obtain ⟨EM, hEM, hl, hbuild, hcon, -⟩ := C34_encoding P hm (y.bits - 1) msg (rng 0 P.slen) y.w2 (hr _ _) hk (by omega)
  have hlt : beNat EM < val y.n := by
    have := pssEncode_lt P hm (y.bits - 1) (P.hmsg.full msg) (rng 0 P.slen) (hr _ _) hk
    rw [← hEM] at this
    exact Nat.lt_of_lt_of_le this hy.lo
  obtain ⟨S, s1, s2, s3⟩ := sign_tail e y hy EM (y.w2.drop ((y.bits - 1 + 7) / 8)) hlt hb hl (by simp; omega)
  have hsv : beNat (beN EM.length (val S)) = val S := by
    rw [beNat_beN]
    apply Nat.mod_eq_of_lt
    have h1 : (2 : Nat) ^ y.bits ≤ 256 ^ EM.length := by rw [pow256]; exact Nat.pow_le_pow_right (by decide) (by omega)
    have := hy.hi
    omega
  have hEb : beN ((y.bits - 1 + 7) / 8) (val S ^ e % val y.n) = EM := by
    rw [s2, ← hl]; exact beN_beNat EM
  refine ⟨{ y with status := 1, w2 := octets S, w1 := beN EM.length (val S) ++ (loadW1 y.w1 EM).drop EM.length }, beN EM.length (val S), ?_,
    encodeSig_full { y with status := 1, w2 := octets S, w1 := beN EM.length (val S) ++ (loadW1 y.w1 EM).drop EM.length } (val S) EM.length ((loadW1 y.w1 EM).drop EM.length) rfl hl ?_ siglen (by omega), ?_, ?_, ?_, ?_⟩
  · unfold pssSign
    simp only
    rw [if_neg (by omega), hbuild]
    simp only [Option.bind_eq_bind, Option.bind_some]
    simp only [Option.bind_eq_bind] at s3
    exact s3
  · change (y.bits + 7) / 8 = EM.length
    omega
  · rw [length_beN]; omega
  · rw [hsv]; exact s1
  · rw [hsv, hEb, hEM]
  · rw [hsv, hEb]; exact hcon

example := C34_sign toyPadding (by decide) 3 toyPriv toyPriv_ok (by decide) [0x61] (fun _ n => List.replicate n 0x11) (by simp) (by decide) (by decide) 12
  (by decide)

/-- C34 (finding): when the bit length of the modulus is 1 modulo 8 the octets returned are the `emLen` low octets of the signature
followed by a zero octet, so they never encode the signature. -/
theorem C34_bits_mod8_one (P : Padding) (hm : P.hmgf.xof = false → 0 < P.hmgf.hlen) (e : Nat) (y : Priv) (hy : PrivOk e y) (h8 : y.bits % 8 = 1)
    (he : 0 < e) (msg : List Byte) (rng : Nat → Nat → List Byte) (hr : ∀ i n, (rng i n).length = n) (h4 : y.w2.length % 4 = 0)
    (hk : P.hmsg.hlen + P.slen + 2 ≤ (y.bits - 1 + 7) / 8) (siglen : Nat) (hs : (y.bits + 7) / 8 ≤ siglen) :
    ∃ y' sig s, pssSign P y msg rng = some (y', true) ∧ encodeSig y' siglen = some (some sig) ∧
      s < val y.n ∧
      beN ((y.bits - 1 + 7) / 8) (s ^ e % val y.n)
        = pssEncode P.hmsg.full P.hmgf.mgf P.hmsg.hlen (y.bits - 1) (P.hmsg.full msg) (rng 0 P.slen) ∧
      beNat sig = 256 * (s % 256 ^ ((y.bits - 1 + 7) / 8)) ∧ beNat sig ≠ s := by
  have hb : 0 < y.bits := by omega
  have hbb := bytes_of_bits y.bits y.w2.length (val y.n) hy.lo hy.w hb
  obtain ⟨EM, hEM, hl, hbuild, hcon, -⟩ := C34_encoding P hm (y.bits - 1) msg (rng 0 P.slen) y.w2 (hr _ _) hk (by omega)
  have hlt : beNat EM < val y.n := by
    have := pssEncode_lt P hm (y.bits - 1) (P.hmsg.full msg) (rng 0 P.slen) (hr _ _) hk
    rw [← hEM] at this
    exact Nat.lt_of_lt_of_le this hy.lo
  have hpos : 0 < beNat EM := by
    rw [hEM]
    unfold pssEncode
    simp only
    rw [beNat_snoc]
    have : ((0xbc : BitVec 8)).toNat = 0xbc := rfl
    omega
  obtain ⟨S, s1, s2, s3⟩ := sign_tail e y hy EM (y.w2.drop ((y.bits - 1 + 7) / 8)) hlt hb hl (by simp; omega)
  have hSpos : 0 < val S := by
    rcases Nat.eq_zero_or_pos (val S) with h | h
    · rw [h, Nat.zero_pow he, Nat.zero_mod] at s2; omega
    · exact h
  have hw1 := hy.w1
  obtain ⟨T, hT⟩ := loadW1_drop y.w1 EM (by omega)
  have hEb : beN ((y.bits - 1 + 7) / 8) (val S ^ e % val y.n) = EM := by
    rw [s2, ← hl]; exact beN_beNat EM
  have hsig : beNat (beN EM.length (val S) ++ [0]) = 256 * (val S % 256 ^ EM.length) := by
    rw [beNat_snoc, beNat_beN]; rfl
  refine ⟨{ y with status := 1, w2 := octets S, w1 := beN EM.length (val S) ++ (loadW1 y.w1 EM).drop EM.length }, beN EM.length (val S) ++ [0], val S, ?_,
    encodeSig_one { y with status := 1, w2 := octets S, w1 := beN EM.length (val S) ++ (loadW1 y.w1 EM).drop EM.length } (val S) EM.length 0 T (by rw [hT]) ?_ siglen (by omega), s1, ?_, ?_, ?_⟩
  · unfold pssSign
    simp only
    rw [if_neg (by omega), hbuild]
    simp only [Option.bind_eq_bind, Option.bind_some]
    simp only [Option.bind_eq_bind] at s3
    exact s3
  · change (y.bits + 7) / 8 = EM.length + 1
    omega
  · rw [hEb, hEM]
  · rw [hsig, hl]
  · rw [hsig]
    have h1 : (256 : Nat) ^ EM.length % 255 = 1 := by
      rw [Nat.pow_mod]; simp
    have h2 : val S < 2 * 256 ^ EM.length := by
      have := hy.hi
      have h3 : (2 : Nat) ^ y.bits = 2 * 256 ^ EM.length := by
        rw [pow256, ← Nat.pow_succ']; congr 1; omega
      omega
    generalize 256 ^ EM.length = X at *
    by_cases h3 : val S < X
    · rw [Nat.mod_eq_of_lt h3]; omega
    · rw [show val S % X = val S - X by rw [Nat.mod_eq_sub_mod (by omega), Nat.mod_eq_of_lt (by omega)]]
      omega

/-! ## C46: RSASSA-PKCS1-v1_5 signing -/

/-- C46: the table of `DigestInfo` prefixes is the standard's: each prefix followed by a digest of the length given is the DER encoding of
`DigestInfo` for that hash function. -/
theorem C46_digestInfo (i : Nat) (hi : i < 7) (digest : List Byte) (hd : digest.length = (hashIds.getD i ([], 0)).2) :
    (hashOids.getD i ⟨[], 0⟩).pre ++ digest = digestInfo (hashIds.getD i ([], 0)).1 digest ∧
      (hashOids.getD i ⟨[], 0⟩).dlen = (hashIds.getD i ([], 0)).2 := by
  have : i = 0 ∨ i = 1 ∨ i = 2 ∨ i = 3 ∨ i = 4 ∨ i = 5 ∨ i = 6 := by omega
  rcases this with rfl | rfl | rfl | rfl | rfl | rfl | rfl <;>
    simp [hashIds] at hd <;>
    simp [hashOids, hashIds, digestInfo, tlv, Spec.Pkcs1.oid, oidArc, hd]

/-- C46: the signature is `s` below the modulus, big-endian, with `s^e mod n` the EMSA-PKCS1-v1_5 encoding of the `DigestInfo`
(keys whose bit length is not 1 modulo 8); too small a modulus, and a hash function outside the table, are refused. -/
theorem C46_sign (P : Padding) (o : HashOid) (e : Nat) (y : Priv) (hy : PrivOk e y) (h8 : y.bits % 8 ≠ 1) (msg : List Byte)
    (h4 : y.w2.length % 4 = 0) (hk : o.pre.length + o.dlen + 11 ≤ (y.bits - 1 + 7) / 8) (siglen : Nat) (hs : (y.bits + 7) / 8 ≤ siglen) :
    ∃ y' sig, v15Sign P (some o) y msg = some (y', true) ∧ encodeSig y' siglen = some (some sig) ∧
      sig.length = (y.bits + 7) / 8 ∧ beNat sig < val y.n ∧
      beN ((y.bits - 1 + 7) / 8) (beNat sig ^ e % val y.n) = emsaPkcs1 ((y.bits - 1 + 7) / 8) (o.pre ++ P.hmsg.digest msg o.dlen) := by
  have hb : 0 < y.bits := by omega
  have hbb := bytes_of_bits y.bits y.w2.length (val y.n) hy.lo hy.w hb
  have hbuild := v15Build_eq P o ((y.bits - 1 + 7) / 8) msg y.w2 hk (by omega)
  obtain ⟨EM, hEM⟩ : ∃ EM, EM = emsaPkcs1 ((y.bits - 1 + 7) / 8) (o.pre ++ P.hmsg.digest msg o.dlen) := ⟨_, rfl⟩
  rw [← hEM] at hbuild
  have hl : EM.length = (y.bits - 1 + 7) / 8 := by
    rw [hEM]; unfold emsaPkcs1; simp; omega
  have hlt : beNat EM < val y.n := by
    have hE0 : ∃ l, EM = 0x00 :: l := ⟨_, hEM⟩
    obtain ⟨l, hE0⟩ := hE0
    rw [hE0, List.length_cons] at hl
    rw [hE0, beNat_cons]
    have h1 := beNat_lt l
    rw [pow256] at h1
    have h2 : 2 ^ (8 * l.length) ≤ 2 ^ (y.bits - 1) := Nat.pow_le_pow_right (by decide) (by omega)
    have h3 := hy.lo
    simp only [show ((0x00 : BitVec 8)).toNat = 0 from rfl, Nat.zero_mul, Nat.zero_add]
    omega
  obtain ⟨S, s1, s2, s3⟩ := sign_tail e y hy EM (y.w2.drop ((y.bits - 1 + 7) / 8)) hlt hb hl (by simp; omega)
  have hsv : beNat (beN EM.length (val S)) = val S := by
    rw [beNat_beN]
    apply Nat.mod_eq_of_lt
    have h1 : (2 : Nat) ^ y.bits ≤ 256 ^ EM.length := by rw [pow256]; exact Nat.pow_le_pow_right (by decide) (by omega)
    have := hy.hi
    omega
  have hEb : beN ((y.bits - 1 + 7) / 8) (val S ^ e % val y.n) = EM := by
    rw [s2, ← hl]; exact beN_beNat EM
  refine ⟨{ y with status := 1, w2 := octets S, w1 := beN EM.length (val S) ++ (loadW1 y.w1 EM).drop EM.length }, beN EM.length (val S), ?_,
    encodeSig_full { y with status := 1, w2 := octets S, w1 := beN EM.length (val S) ++ (loadW1 y.w1 EM).drop EM.length } (val S) EM.length ((loadW1 y.w1 EM).drop EM.length) rfl hl ?_ siglen (by omega), ?_, ?_, ?_⟩
  · unfold v15Sign
    simp only
    rw [if_neg (by omega), hbuild]
    simp only [Option.bind_eq_bind, Option.bind_some]
    simp only [Option.bind_eq_bind] at s3
    exact s3
  · change (y.bits + 7) / 8 = EM.length
    omega
  · rw [length_beN]; omega
  · rw [hsv]; exact s1
  · rw [hsv, hEb, hEM]

theorem C46_refuse (P : Padding) (y : Priv) (msg : List Byte) :
    v15Sign P none y msg = some ({ y with status := -1 }, false) ∧
    ∀ o : HashOid, (y.bits - 1 + 7) / 8 < o.pre.length + o.dlen + 11 → v15Sign P (some o) y msg = some ({ y with status := -1 }, false) := by
  refine ⟨rfl, fun o h => ?_⟩
  unfold v15Sign
  simp only
  rw [if_pos h]

example := C46_sign toyPadding ⟨[], 1⟩ 3 toyPriv toyPriv_ok (by decide) [0x61] (by decide) (by decide) 12 (by decide)

/-! ## C35: RSAES-PKCS1-v1_5 -/

/-- C35: a secret that leaves no room for eight octets of padding is refused, whatever the generator. -/
theorem C35_enc_too_long (x : Pub) (sslen : Nat) (rng : Nat → Nat → List Byte) (fuel : Nat) (h : x.bits / 8 < sslen + 11) :
    es15Enc x sslen rng fuel = some ({ x with status := 0 }, none) := by
  unfold es15Enc
  simp only
  rw [if_pos (by omega)]

example : toyPub.bits / 8 < 2 + 11 := by decide

/-- C35: whenever the encoder finishes, whatever the generator returned, the block is `00 02 PS 00 M` with at least eight nonzero octets of
padding, `k` octets in all, and the context holds its RSA encryption. -/
theorem C35_enc (x : Pub) (hx : PubOk x) (sslen : Nat) (rng : Nat → Nat → List Byte) (hr : ∀ i n, (rng i n).length = n) (fuel : Nat)
    (hk : sslen + 11 ≤ x.bits / 8) (x' : Pub) (ss : List Byte) (h : es15Enc x sslen rng fuel = some (x', some ss)) :
    ∃ EM PS, EmePkcs1 EM PS ss ∧ EM.length = x.bits / 8 ∧ ss.length = sslen ∧ x'.status = 1 ∧
      ∀ ctlen, x.bits ≤ ctlen * 8 → encodeCt x' ctlen = some (beN ctlen (beNat EM ^ val x.e % val x.n)) := by
  obtain ⟨⟨out, s⟩, hblk⟩ : ∃ p, es15Block (x.bits / 8) sslen rng fuel x.w2 = some p := by
    unfold es15Enc at h
    simp only [Option.bind_eq_bind] at h
    rw [if_neg (by omega)] at h
    obtain ⟨p, hp, -⟩ := Option.bind_eq_some_iff.mp h
    exact ⟨p, hp⟩
  obtain ⟨C, w1, PS, e1, e2, e3, e4, e5, e6⟩ := es15Enc_spec x hx sslen rng hr fuel hk out s hblk
  rw [h] at e1
  simp only [Option.some.injEq, Prod.mk.injEq] at e1
  obtain ⟨rfl, rfl⟩ := e1
  refine ⟨_, PS, e2, e3, e4, rfl, fun ctlen hc => ?_⟩
  unfold encodeCt
  simp only
  rw [if_neg (by omega), words_octets, i2osp_beN, e6]

/-- C35: the encoder finishes when the generator returns no zero octet. -/
theorem C35_enc_live (x : Pub) (hx : PubOk x) (sslen : Nat) (rng : Nat → Nat → List Byte) (hr : ∀ i n, (rng i n).length = n)
    (hz : ∀ i n, ∀ b ∈ rng i n, b ≠ 0) (hk : sslen + 11 ≤ x.bits / 8) :
    ∃ x' ss, es15Enc x sslen rng (x.bits / 8) = some (x', some ss) := by
  have hb := bytes_of_bits x.bits x.w2.length (val x.n) hx.lo hx.fits (by omega)
  obtain ⟨⟨out, s⟩, hblk⟩ := Option.isSome_iff_exists.mp (es15Block_live (x.bits / 8) sslen rng hr hz (x.bits / 8) x.w2 hk (by omega) (Nat.le_refl _))
  obtain ⟨C, w1, PS, e1, -⟩ := es15Enc_spec x hx sslen rng hr (x.bits / 8) hk out s hblk
  exact ⟨_, _, e1⟩

/-- C35 (finding): zero octets are skipped, but the scan does not stop at the end of what was drawn before drawing again:
with a generator that returns only zeros the loop, on a buffer of zeros, runs past the end of the buffer, whatever its size. -/
theorem C35_zero_generator (fuel t m : Nat) (ht : 0 < t) :
    psLoop (fun _ n => List.replicate n 0) fuel 0 true 2 2 t ([0x00, 0x02] ++ List.replicate m 0) = none :=
  psLoop_zero fuel 0 true 2 2 t m (by omega) ht (by omega) _ _

/-- C35: decryption of an arbitrary ciphertext below the modulus: success with exactly the message if the block is
`00 02 PS 00 M` with at least eight nonzero padding octets, else failure and zeros. -/
theorem C35_dec (e : Nat) (y : Priv) (hy : PrivOk e y) (h4 : y.w1.length % 4 = 0)
    (hk : 2 ≤ y.bits / 8) (ct : List Byte) (hct : beNat ct < val y.n) (req : Option Nat) :
    ∃ m y' r, m < val y.n ∧ m ^ e % val y.n = beNat ct ∧ es15Dec (decodeCt y ct) req = some (y', r) ∧
      (∀ PS M, EmePkcs1 (beN (y.bits / 8) m) PS M →
        r.ok = true ∧ (req = none → r.len = some (M.length : Int)) ∧
        (∀ n, req = some n → r.ss = M.take n ++ List.replicate (n - M.length) 0)) ∧
      ((¬ ∃ PS M, EmePkcs1 (beN (y.bits / 8) m) PS M) →
        r.ok = false ∧ r.ss = List.replicate (req.getD 0) 0 ∧ r.len = if req = none then some (-1) else none) := by
  obtain ⟨d1, d2, d3⟩ := (oaep_decode y e hy ct (by omega)).resolve_right (by omega)
  obtain ⟨m, y', r, a1, a2, a3, a4, a5, a6⟩ := es15Dec_spec e (decodeCt y ct) d1 d2 hk
    (by rw [d3]; change _ ≤ val y.n; omega) req
  refine ⟨m, y', r, a1, ?_, a3, fun PS M h => ?_, fun h => (a6 h).2⟩
  · rw [d3] at a2; exact a2 hct
  · obtain ⟨-, b2, b3, b4, -⟩ := a5 PS M h
    exact ⟨b2, b3, b4⟩

/-- C35, round trip. -/
theorem C35_roundtrip (x : Pub) (hx : PubOk x) (y : Priv)
    (hy : PrivOk (val x.e) y) (hn : val y.n = val x.n) (hb : y.bits = x.bits) (h4 : y.w1.length % 4 = 0)
    (sslen : Nat) (rng : Nat → Nat → List Byte) (hr : ∀ i n, (rng i n).length = n) (fuel : Nat)
    (hk : sslen + 11 ≤ x.bits / 8) (x' : Pub) (ss : List Byte) (h : es15Enc x sslen rng fuel = some (x', some ss))
    (ctlen : Nat) (hc : x.bits ≤ ctlen * 8) (n : Nat) :
    ∃ ct, encodeCt x' ctlen = some ct ∧
      (∃ y' r, es15Dec (decodeCt y ct) (some n) = some (y', r) ∧ r.ok = true ∧ r.ss = ss.take n ++ List.replicate (n - sslen) 0) ∧
      (∃ y' r, es15Dec (decodeCt y ct) none = some (y', r) ∧ r.ok = true ∧ r.len = some (sslen : Int)) := by
  obtain ⟨EM, PS, c1, c2, c3, -, c5⟩ := C35_enc x hx sslen rng hr fuel hk x' ss h
  have hlt : beNat EM < val x.n := repr_lt EM x.bits _ _ c1.1 (by rw [c2]; omega) hx.lo
  have hn0 : 0 < val x.n := by omega
  obtain ⟨ct, hct⟩ : ∃ ct, ct = beN ctlen (beNat EM ^ val x.e % val x.n) := ⟨_, rfl⟩
  have hcv : beNat ct = beNat EM ^ val x.e % val x.n := by
    rw [hct, beNat_beN]
    apply Nat.mod_eq_of_lt
    have h1 := Nat.mod_lt (beNat EM ^ val x.e) hn0
    have h2 : (2 : Nat) ^ x.bits ≤ 256 ^ ctlen := by rw [pow256]; exact Nat.pow_le_pow_right (by decide) (by omega)
    have := hx.hi
    omega
  have hcl : beNat ct < val y.n := by rw [hcv, hn]; exact Nat.mod_lt _ hn0
  have key : ∀ req, ∃ y' r, es15Dec (decodeCt y ct) req = some (y', r) ∧ r.ok = true ∧ (req = none → r.len = some (sslen : Int)) ∧
      (∀ n, req = some n → r.ss = ss.take n ++ List.replicate (n - sslen) 0) := by
    intro req
    obtain ⟨m, y', r, a1, a2, a3, a4, -⟩ := C35_dec (val x.e) y hy h4 (by omega) ct hcl req
    have hmEM : m = beNat EM := by
      obtain ⟨d1, d2, d3⟩ := (oaep_decode y _ hy ct (by omega)).resolve_right (by omega)
      obtain ⟨M, f1, f2, f3, f4, f5⟩ := fastdec_val (val x.e) (decodeCt y ct) d1 (decodeCt y ct).w1 (decodeCt y ct).w2 rfl 0
      rw [d3] at f4
      have hA := f4 m a1 a2.symm
      have hB := f4 (beNat EM) (by change _ < val y.n; omega) (by change _ = _ % val y.n; rw [hcv, hn])
      omega
    have hbe : beN (y.bits / 8) m = EM := by
      rw [hmEM, hb, ← c2]; exact beN_beNat EM
    obtain ⟨b1, b2, b3⟩ := a4 PS ss (by rw [hbe]; exact c1)
    rw [c3] at b2
    simp only [c3] at b3
    exact ⟨y', r, a3, b1, b2, b3⟩
  refine ⟨ct, by rw [c5 ctlen hc, hct], ?_, ?_⟩
  · obtain ⟨y', r, k1, k2, -, k4⟩ := key (some n)
    exact ⟨y', r, k1, k2, k4 n rfl⟩
  · obtain ⟨y', r, k1, k2, k3, -⟩ := key none
    exact ⟨y', r, k1, k2, k3 rfl⟩

example : ∃ x' ss ct, es15Enc toyPub 1 (fun _ n => List.replicate n 0x77) 12 = some (x', some ss) ∧ encodeCt x' 12 = some ct := by
  obtain ⟨x', ss, h⟩ := C35_enc_live toyPub toyPub_ok 1 (fun _ n => List.replicate n 0x77) (by simp)
    (by intro i n b hb; rw [List.mem_replicate] at hb; rw [hb.2]; decide) (by decide)
  obtain ⟨ct, h2, -⟩ := C35_roundtrip toyPub toyPub_ok toyPriv toyPriv_ok rfl rfl (by decide) 1 _ (by simp) _ (by decide) x' ss h 12 (by decide) 1
  exact ⟨x', ss, ct, h, h2⟩

end Props
