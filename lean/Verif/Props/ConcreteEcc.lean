import Verif.Props.ConcreteSig
import Verif.Props.EccSig
import Verif.Props.Sm2

/-!
# C87, second part: ECDSA with SHA-2 and SM2 with SM3 from one party to the other

A key is generated, the public key is encoded and read by the other party, a message is signed, the signature is encoded, read and verified.  The hash functions are
the models of the library's, run on contexts in any former state; the conclusion is in terms of the standards' functions.
-/

namespace Props
open Vlong Ec Ecc Spec EcParam Fips180

theorem ecdsaVerify_congr (C : Curve) (c : Nat) (H H' : Pkcs1.Hash) (x : Ctx) (msg : List Byte) (hl : H.hlen = H'.hlen)
    (hd : ∀ t, H.digest msg t = H'.digest msg t) : ecdsaVerify C c H x msg = ecdsaVerify C c H' x msg := by
  have hs : slen C H = slen C H' := by unfold slen; rw [hl]
  unfold ecdsaVerify hmpVerify
  simp only [hs, hd]

theorem sm2Verify_congr (C : Curve) (c : Nat) (H H' : Pkcs1.Hash) (x : Ctx) (msg : List Byte) (hl : H.hlen = H'.hlen)
    (hd : ∀ t, H.digest (x.uinfo ++ msg) t = H'.digest (x.uinfo ++ msg) t) : sm2Verify C c H x msg = sm2Verify C c H' x msg := by
  have hs : slen C H = slen C H' := by unfold slen; rw [hl]
  unfold sm2Verify gmtVerify
  simp only [hs, hd]

theorem take_fitTo (d : List (BitVec 8)) (n : Nat) : fitTo d (min n d.length) = d.take n := by
  unfold fitTo
  apply List.ext_getElem
  · simp
  · intro i h1 h2
    simp at h1
    simp [List.getElem?_eq_getElem h1.2]

theorem keygen_export {C : Curve} {c p : Nat} [hp : Fact p.Prime] {a b : ZMod p} (hC : EccCurve C c p a b) {rng : Nat → List Byte}
    (hr : ∀ i, (rng i).length = C.plen) {G : (shortW a b).Point} (hG : Denotes c C.G G) (fuel : Nat) (x y x' : Ctx) (h : keygen C c rng fuel x = some y)
    (len : Nat) (hlen : len = 1 + C.plen * 2 ∨ len = 1 + C.plen) :
    ∃ enc, encodePublicKey C y len = some enc ∧ EncodesPoint C.plen enc (val y.d • G) ∧
      ∃ y', decodePublicKey C c x' enc = some (y', true) ∧ Denotes2 c y'.Q (val y.d • G) := by
  obtain ⟨j, -, hg, -, -, e1, e2, e3, e4⟩ := (C51_keygen hC hr hG fuel x).2 y h
  have ho := base_order hC hG
  rw [← e2] at e3 hg
  have hn : val C.n • (val y.d • G) = 0 := by
    rw [smul_comm, ← ho, addOrderOf_nsmul_eq_zero, smul_zero]
  obtain ⟨enc, g1, -, g2, g3⟩ := C50_roundtrip hC y e3 e4 (smul_ne hC ho hg.1 hg.2) hn len hlen x'
  exact ⟨enc, g1, g2, g3⟩

theorem decodeSig_uinfo (c : Nat) (x y : Ctx) (sig : List Byte) (ok : Bool) (h : ecdsaDecodeSignature c x sig = some (y, ok)) : y.uinfo = x.uinfo := by
  unfold ecdsaDecodeSignature at h
  split at h
  · simp at h
  · simp only [Option.some.injEq, Prod.mk.injEq] at h
    rw [← h.1]

theorem i2osp_own (v : List W) (n : Nat) : beN n (beNat (i2osp v n)) = i2osp v n := by
  have := beN_beNat (i2osp v n)
  rwa [(C06_i2osp v n).1] at this

section
variable {σ : Type} {O : Mac.HashOps σ} {F : List (BitVec 8) → List (BitVec 8)} {N : Nat} {ok : σ → Prop} (law : Mac.HashLaw O F N ok)
include law

/-- The digest that the signature schemes use is the beginning of the standard's. -/
theorem ops_digest {mem : σ} (hm : ok mem) (msg : List (BitVec 8)) (hl : msg.length < N) (n : Nat) :
    (opsHash O mem).digest msg (min n (opsHash O mem).hlen) = (F msg).take n := by
  have := (C87_hash_calls law mem mem hm hm [msg] (by simpa using hl) [] (min n O.L)).2
  simp only [List.flatten_cons, List.flatten_nil, List.append_nil] at this
  show (opsHash O mem).digest msg (min n O.L) = _
  rw [this, ← law.len msg, take_fitTo]

theorem ops_same {mem mem' : σ} (hm : ok mem) (hm' : ok mem') (msg : List (BitVec 8)) (hl : msg.length < N) (t : Nat) :
    (opsHash O mem).digest msg t = (opsHash O mem').digest msg t := by
  have h1 := (C87_hash_calls law mem mem hm hm [msg] (by simpa using hl) [] t).2
  have h2 := (C87_hash_calls law mem' mem hm' hm [msg] (by simpa using hl) [] t).2
  simp only [List.flatten_cons, List.flatten_nil, List.append_nil] at h1 h2
  rw [h1, h2]

theorem ecdsa_exchange {C : Curve} {c p : Nat} [hp : Fact p.Prime] {a b : ZMod p} (hC : EccCurve C c p a b) (hpl : C.plen ≤ 48)
    {mem mem' : σ} (hm : ok mem) (hm' : ok mem') {rng : Nat → List Byte} (hr : ∀ i, (rng i).length = C.plen) {G : (shortW a b).Point} (hG : Denotes c C.G G)
    (fuel : Nat) (x xa x' : Ctx) (hk : keygen C c rng fuel x = some xa) (len : Nat) (hlen : len = 1 + C.plen * 2 ∨ len = 1 + C.plen) :
    ∃ enc xb, encodePublicKey C xa len = some enc ∧ EncodesPoint C.plen enc (val xa.d • G) ∧ decodePublicKey C c x' enc = some (xb, true) ∧
      ∀ (msg : List Byte), msg.length < N → ∀ {rng' : Nat → List Byte}, (∀ i, (rng' i).length = C.plen) → ∀ fuel' y,
      ecdsaSign C c (opsHash O mem) xa msg rng' fuel' = some y → ∀ buf : List Byte, 104 ≤ buf.length →
      ∃ sig w, ecdsaEncodeSignature y buf = some (some sig) ∧ ecdsaDecodeSignature c xb sig = some (w, true) ∧
        ((ecdsaVerify C c (opsHash O mem') w msg).2 = true ↔ 1 ≤ val y.r ∧ val y.r < val C.n) ∧
        (1 ≤ val y.r → val y.r < val C.n → EcdsaValid (val C.n) G (val xa.d • G) (beNat ((F msg).take C.plen)) (val y.r) (val y.s)) := by
  obtain ⟨j, hj, hjr, -, hst, hdl, hd, -⟩ := (C51_keygen hC hr hG fuel x).2 xa hk
  obtain ⟨enc, he, hep, xb, hb, hQ⟩ := keygen_export hC hr hG fuel x xa x' hk len hlen
  refine ⟨enc, xb, he, hep, hb, fun msg hl rng' hr' fuel' y hs buf hbuf => ?_⟩
  have hd1 : 1 ≤ val xa.d := by rw [hd]; exact hjr.1
  have hd2 : val xa.d < val C.n := by rw [hd]; exact hjr.2
  have hst2 : xa.status ≠ 2 := by rw [hst]; decide
  obtain ⟨sig, w, h1, h2, h3⟩ := C54_sign_encode_verify hC hpl (opsHash O mem) xa y xb msg hst2 hr' hdl hd1 hd2 hG fuel' hs hQ buf hbuf
  rw [ecdsaVerify_congr C c (opsHash O mem) (opsHash O mem') w msg rfl (ops_same law hm hm' msg hl)] at h3
  refine ⟨sig, w, h1, h2, h3, fun r1 r2 => ?_⟩
  have h0 : val xa.d • G ≠ 0 := fun e => by
    have := addOrderOf_dvd_of_nsmul_eq_zero e
    rw [base_order hC hG] at this
    exact absurd (Nat.le_of_dvd (by omega) this) (by omega)
  obtain ⟨-, -, -, -, -, -, -, -, -, -, -, -, g1, g2, -⟩ := C53_sign hC (opsHash O mem) xa y msg hst2 hr' hdl hG fuel' hs
  have := C52_accepted_valid hC (opsHash O mem) { xb with status := 0, r := y.r, s := y.s } msg ⟨by show (0 : Int) ≠ 1; decide, by show (0 : Int) ≠ -1; decide⟩ hG hQ h0 g1 g2
    ((C53_sign_verify hC (opsHash O mem) xa y { xb with status := 0, r := y.r, s := y.s } msg hst2 hr' hdl hd1 hd2 hG fuel' hs
      ⟨by show (0 : Int) ≠ 1; decide, by show (0 : Int) ≠ -1; decide⟩ hQ rfl rfl).mpr ⟨r1, r2⟩)
  rw [ops_digest law hm msg hl] at this
  exact this

/-- The identity digest, from the public key as it is exported. -/
theorem sm2_identity {C : Curve} {c : Nat} {mem : σ} (hm : ok mem) (x : Ctx) (id X Y : List Byte) (hid : id.length < 8192) (hN : 2 + id.length + C.plen * 6 < N)
    (hX : i2osp x.Q.x C.plen = X) (hY : i2osp x.Q.y C.plen = Y) :
    (sm2SetZ C c (opsHash O mem) x id).uinfo = F (sm2Z C.plen id (val (sm2A C c)) (val C.b) (val C.G.x) (val C.G.y) (beNat X) (beNat Y)) := by
  rw [C59_identity_digest C c (opsHash O mem) x id hid rfl]
  have hz : sm2Z C.plen id (val (sm2A C c)) (val C.b) (val C.G.x) (val C.G.y) (val x.Q.x) (val x.Q.y) =
      sm2Z C.plen id (val (sm2A C c)) (val C.b) (val C.G.x) (val C.G.y) (beNat X) (beNat Y) := by
    unfold sm2Z
    rw [← hX, ← hY, i2osp_own, i2osp_own, Pkcs1.i2osp_beN, Pkcs1.i2osp_beN]
  rw [hz]
  have hl : (sm2Z C.plen id (val (sm2A C c)) (val C.b) (val C.G.x) (val C.G.y) (beNat X) (beNat Y)).length < N := by
    unfold sm2Z
    simp only [List.length_append, length_beN]
    omega
  have := (C87_hash_calls law mem mem hm hm [sm2Z C.plen id (val (sm2A C c)) (val C.b) (val C.G.x) (val C.G.y) (beNat X) (beNat Y)] (by simpa using hl) [] O.L).2
  simp only [List.flatten_cons, List.flatten_nil, List.append_nil] at this
  show (opsHash O mem).digest _ O.L = _
  rw [this, ← law.len, Mac.fitTo_self]

theorem sm2_exchange {C : Curve} {c p : Nat} [hp : Fact p.Prime] {a b : ZMod p} (hC : EccCurve C c p a b) (hpl : C.plen ≤ 48)
    {mem mem' : σ} (hm : ok mem) (hm' : ok mem') {rng : Nat → List Byte} (hr : ∀ i, (rng i).length = C.plen) {G : (shortW a b).Point} (hG : Denotes c C.G G)
    (fuel : Nat) (x xa x' : Ctx) (hk : sm2Keygen C c (opsHash O mem) rng fuel x = some xa) :
    ∃ X Y xb, X.length = C.plen ∧ Y.length = C.plen ∧ encodePublicKey C xa (1 + C.plen * 2) = some (4#8 :: (X ++ Y)) ∧
      EncodesPoint C.plen (4#8 :: (X ++ Y)) (val xa.d • G) ∧ sm2DecodePublicKey C c (opsHash O mem') x' (4#8 :: (X ++ Y)) = some (xb, true) ∧
      sm2Xctrl C c (opsHash O mem) xa true (some sm2DefaultId) = some xa ∧ sm2Xctrl C c (opsHash O mem') xb true (some sm2DefaultId) = some xb ∧
      ∀ (id msg : List Byte), id.length < 8192 → 2 + id.length + C.plen * 6 < N → O.L + msg.length < N → ∃ xi zi,
      sm2Xctrl C c (opsHash O mem) xa true (some id) = some xi ∧ sm2Xctrl C c (opsHash O mem') xb true (some id) = some zi ∧
      ∀ {rng' : Nat → List Byte}, (∀ i, (rng' i).length = C.plen) → ∀ fuel' y,
      sm2Sign C c (opsHash O mem) xi msg rng' fuel' = some y → val xa.d + 1 < val C.n →
      (∀ j < fuel', ∀ X Y hn, beNat (rng' j) • G = .some X Y hn → X ≠ 0) → ∀ buf : List Byte, 104 ≤ buf.length →
      ∃ sig w, ecdsaEncodeSignature y buf = some (some sig) ∧ ecdsaDecodeSignature c zi sig = some (w, true) ∧
        (sm2Verify C c (opsHash O mem') w msg).2 = true ∧
        Sm2Valid (val C.n) G (val xa.d • G) (beNat ((F (F (sm2Z C.plen id (val (sm2A C c)) (val C.b) (val C.G.x) (val C.G.y) (beNat X) (beNat Y)) ++ msg)).take C.plen))
          (val y.r) (val y.s) := by
  obtain ⟨w, hkg, rfl⟩ := (C59_default_identity (opsHash O mem) x).1 rng fuel xa hk
  obtain ⟨j, hj, hjr, -, hst, hdl, hd, -⟩ := (C51_keygen hC hr hG fuel x).2 w hkg
  obtain ⟨enc, he, hep, wb, hb, hQ⟩ := keygen_export hC hr hG fuel x w x' hkg (1 + C.plen * 2) (.inl rfl)
  have he' := he
  unfold encodePublicKey pointEncode at he'
  rw [if_pos rfl, Option.some.injEq] at he'
  have hre := C50_reencode hC x' wb enc hb
  have hlen : enc.length = 1 + C.plen * 2 := by
    rw [← he']
    simp only [List.length_cons, List.length_append, (C06_i2osp _ _).1]
    omega
  rw [hlen, ← he'] at hre
  unfold encodePublicKey pointEncode at hre
  rw [if_pos rfl] at hre
  simp only [Option.some.injEq, List.cons.injEq, true_and] at hre
  obtain ⟨h1, h2⟩ := List.append_inj hre (by rw [(C06_i2osp _ _).1, (C06_i2osp _ _).1])
  have hdec : sm2DecodePublicKey C c (opsHash O mem') x' enc = some (sm2SetZ C c (opsHash O mem') wb sm2DefaultId, true) := by
    unfold sm2DecodePublicKey
    rw [hb]; rfl
  rw [← he'] at hep hdec
  refine ⟨i2osp w.Q.x C.plen, i2osp w.Q.y C.plen, sm2SetZ C c (opsHash O mem') wb sm2DefaultId, (C06_i2osp _ _).1, (C06_i2osp _ _).1, ?_, hep, hdec, rfl, rfl,
    fun id msg hid hN hmsg => ⟨sm2SetZ C c (opsHash O mem) w id, sm2SetZ C c (opsHash O mem') wb id, rfl, rfl, ?_⟩⟩
  · rw [he']; exact he
  intro rng' hr' fuel' y hs hd2 hX0 buf hbuf
  have u1 := sm2_identity law hm (c := c) w id _ _ hid hN rfl rfl
  have u2 := sm2_identity law hm' (c := c) wb id _ _ hid hN h1 h2
  have hdl' : (sm2SetZ C c (opsHash O mem) w id).d.length = c := hdl
  have hd1 : 1 ≤ val (sm2SetZ C c (opsHash O mem) w id).d := by show 1 ≤ val w.d; rw [hd]; exact hjr.1
  have hd2' : val (sm2SetZ C c (opsHash O mem) w id).d + 1 < val C.n := hd2
  have hst3 : (sm2SetZ C c (opsHash O mem) w id).status ≠ 3 := by show w.status ≠ 3; rw [hst]; decide
  obtain ⟨_, _, _, _, _, _, -, -, -, -, -, -, -, -, e4, e5, -, -, -, e6, -, -, -, e7, -⟩ := C58_sign hC (opsHash O mem) _ y msg hst3 hr' hdl' hd2' hG fuel' hs
  have hp48 : 2 ^ (8 * C.plen) ≤ 2 ^ 384 := Nat.pow_le_pow_right (by norm_num) (by omega)
  have hplt := hC.plt
  have hnp := hC.np
  have hn0 : 0 < val C.n := by omega
  have b1 : val y.r < 2 ^ 384 := lt_of_lt_of_le (lt_trans (lt_trans (by rw [e6]; exact Nat.mod_lt _ hn0) hnp) hplt) hp48
  have b2 : val y.s < 2 ^ 384 := lt_of_lt_of_le (lt_trans (lt_trans e7 hnp) hplt) hp48
  have hsl : ecdsaSignatureLength y = some (some (Der.intSize y.r + 2 + (Der.intSize y.s + 2) + 2)) := by
    unfold ecdsaSignatureLength
    rw [encodeDss_none b1 b2]
    simp
  have s1 := intSize_small b1
  have s2 := intSize_small b2
  obtain ⟨sig, z, g1, -, g2, g3, g4, g5, g6⟩ := C54_roundtrip c y (sm2SetZ C c (opsHash O mem') wb id) b1 b2 e4 e5 buf _ hsl (by omega)
  have hu : z.uinfo = (sm2SetZ C c (opsHash O mem) w id).uinfo := by rw [decodeSig_uinfo c _ z sig true g2, u1, u2]
  obtain ⟨v1, v2⟩ := C58_sign_verify hC (opsHash O mem) _ y z msg hst3 hr' hdl' hd1 hd2' hG fuel' hs (by rw [g6]; decide) (by rw [g5]; exact hQ) hu g3 g4 hX0
  have hl : ((sm2SetZ C c (opsHash O mem) w id).uinfo ++ msg).length < N := by
    rw [u1, List.length_append, law.len]; exact hmsg
  rw [ops_digest law hm _ hl, u1] at v2
  refine ⟨sig, z, g1, g2, ?_, v2⟩
  rw [← sm2Verify_congr C c (opsHash O mem) (opsHash O mem') z msg rfl (ops_same law hm hm' _ (by rw [hu]; exact hl))]
  exact v1

end

/-! ## The library's instances -/

theorem sha256_law : Mac.HashLaw (mdOps algSha256) Spec.Sha.sha256 (2 ^ 61) (fun s => s.msg.length = 64) := by
  rw [← dig_sha256]
  exact md_law algSha256 (.inl rfl) (fun h => by simp [algSha256, length_out32])

theorem sha384_law : Mac.HashLaw (mdOps algSha384) Spec.Sha.sha384 (2 ^ 61) (fun s => s.msg.length = 128) := by
  rw [← dig_sha384]
  exact md_law algSha384 (.inr rfl) (fun h => by simp [algSha384, length_out64])

theorem sm3_law : Mac.HashLaw (mdOps algSm3) Spec.Sha.sm3 (2 ^ 61) (fun s => s.msg.length = 64) := by
  rw [← dig_sm3]
  exact md_law algSm3 (.inl rfl) (fun h => by simp [algSm3, length_out32])

/-- C87: ECDSA on secp256r1 with SHA256, from one party to the other: the generated key is exported (`len`: uncompressed or compressed) and read, the message
signed, the signature encoded into a buffer of 104 octets or more, read and verified.  The verifier accepts if and only if `1 ≤ r < n` (see C53), and then the signature is
valid in the sense of FIPS 186 for the number of the SHA256 digest.  Both hash contexts may hold anything. -/
theorem C87_ecdsa_p256_sha256 {mem mem' : MD.Ctx (List (BitVec 32))} (hm : mem.msg.length = 64) (hm' : mem'.msg.length = 64)
    {rng : Nat → List Byte} (hr : ∀ i, (rng i).length = 32) {G : (shortW (-3 : ZMod q256) ((b256 : Nat) : ZMod q256)).Point} (hG : Denotes 11 secp256r1.G G)
    (fuel : Nat) (x xa x' : Ctx) (hk : keygen secp256r1 11 rng fuel x = some xa) (len : Nat) (hlen : len = 1 + 32 * 2 ∨ len = 1 + 32) :
    ∃ enc xb, encodePublicKey secp256r1 xa len = some enc ∧ EncodesPoint 32 enc (val xa.d • G) ∧ decodePublicKey secp256r1 11 x' enc = some (xb, true) ∧
      ∀ (msg : List Byte), msg.length < 2 ^ 61 → ∀ {rng' : Nat → List Byte}, (∀ i, (rng' i).length = 32) → ∀ fuel' y,
      ecdsaSign secp256r1 11 (opsHash (mdOps algSha256) mem) xa msg rng' fuel' = some y → ∀ buf : List Byte, 104 ≤ buf.length →
      ∃ sig w, ecdsaEncodeSignature y buf = some (some sig) ∧ ecdsaDecodeSignature 11 xb sig = some (w, true) ∧
        ((ecdsaVerify secp256r1 11 (opsHash (mdOps algSha256) mem') w msg).2 = true ↔ 1 ≤ val y.r ∧ val y.r < val secp256r1.n) ∧
        (1 ≤ val y.r → val y.r < val secp256r1.n → EcdsaValid (val secp256r1.n) G (val xa.d • G) (beNat (Spec.Sha.sha256 msg)) (val y.r) (val y.s)) := by
  have h := ecdsa_exchange sha256_law eccCurve256 (by decide) hm hm' hr hG fuel x xa x' hk len hlen
  have l : ∀ m, (Spec.Sha.sha256 m).take 32 = Spec.Sha.sha256 m := fun m => List.take_of_length_le (le_of_eq (sha256_law.len m))
  change ∃ enc xb, _ ∧ EncodesPoint 32 enc _ ∧ _ at h
  obtain ⟨enc, xb, h1, h2, h3, h4⟩ := h
  refine ⟨enc, xb, h1, h2, h3, fun msg hl rng' hr' fuel' y hs buf hb => ?_⟩
  obtain ⟨sig, w, g1, g2, g3, g4⟩ := h4 msg hl hr' fuel' y hs buf hb
  refine ⟨sig, w, g1, g2, g3, fun r1 r2 => ?_⟩
  rw [← l msg]
  exact g4 r1 r2

/-- C87: ECDSA on secp384r1 with SHA384, from one party to the other: the generated key is exported (`len`: uncompressed or compressed) and read, the message
signed, the signature encoded into a buffer of 104 octets or more, read and verified.  The verifier accepts if and only if `1 ≤ r < n` (see C53), and then the signature is
valid in the sense of FIPS 186 for the number of the SHA384 digest.  Both hash contexts may hold anything. -/
theorem C87_ecdsa_p384_sha384 {mem mem' : MD.Ctx (List (BitVec 64))} (hm : mem.msg.length = 128) (hm' : mem'.msg.length = 128)
    {rng : Nat → List Byte} (hr : ∀ i, (rng i).length = 48) {G : (shortW (-3 : ZMod q384) ((b384 : Nat) : ZMod q384)).Point} (hG : Denotes 15 secp384r1.G G)
    (fuel : Nat) (x xa x' : Ctx) (hk : keygen secp384r1 15 rng fuel x = some xa) (len : Nat) (hlen : len = 1 + 48 * 2 ∨ len = 1 + 48) :
    ∃ enc xb, encodePublicKey secp384r1 xa len = some enc ∧ EncodesPoint 48 enc (val xa.d • G) ∧ decodePublicKey secp384r1 15 x' enc = some (xb, true) ∧
      ∀ (msg : List Byte), msg.length < 2 ^ 61 → ∀ {rng' : Nat → List Byte}, (∀ i, (rng' i).length = 48) → ∀ fuel' y,
      ecdsaSign secp384r1 15 (opsHash (mdOps algSha384) mem) xa msg rng' fuel' = some y → ∀ buf : List Byte, 104 ≤ buf.length →
      ∃ sig w, ecdsaEncodeSignature y buf = some (some sig) ∧ ecdsaDecodeSignature 15 xb sig = some (w, true) ∧
        ((ecdsaVerify secp384r1 15 (opsHash (mdOps algSha384) mem') w msg).2 = true ↔ 1 ≤ val y.r ∧ val y.r < val secp384r1.n) ∧
        (1 ≤ val y.r → val y.r < val secp384r1.n → EcdsaValid (val secp384r1.n) G (val xa.d • G) (beNat (Spec.Sha.sha384 msg)) (val y.r) (val y.s)) := by
  have h := ecdsa_exchange sha384_law eccCurve384 (by decide) hm hm' hr hG fuel x xa x' hk len hlen
  have l : ∀ m, (Spec.Sha.sha384 m).take 48 = Spec.Sha.sha384 m := fun m => List.take_of_length_le (le_of_eq (sha384_law.len m))
  change ∃ enc xb, _ ∧ EncodesPoint 48 enc _ ∧ _ at h
  obtain ⟨enc, xb, h1, h2, h3, h4⟩ := h
  refine ⟨enc, xb, h1, h2, h3, fun msg hl rng' hr' fuel' y hs buf hb => ?_⟩
  obtain ⟨sig, w, g1, g2, g3, g4⟩ := h4 msg hl hr' fuel' y hs buf hb
  refine ⟨sig, w, g1, g2, g3, fun r1 r2 => ?_⟩
  rw [← l msg]
  exact g4 r1 r2

/-- C87: SM2 with SM3, from one party to the other, with any identity of less than 8192 octets set on both sides (or with the default one: setting it changes
nothing).  The verifier accepts, and the signature is valid in the sense of GM/T 0003.2 for the SM3 digest of `Z ‖ message`, where `Z` is the SM3 digest of the
identity, the published curve and the exported public key.  Excepted are the private key `n - 1` (see C58) and scalars whose point has the `x`-coordinate zero. -/
theorem C87_sm2_sm3 {mem mem' : MD.Ctx (List (BitVec 32))} (hm : mem.msg.length = 64) (hm' : mem'.msg.length = 64)
    {rng : Nat → List Byte} (hr : ∀ i, (rng i).length = 32) {G : (shortW (-3 : ZMod qSM2) ((bSM2 : Nat) : ZMod qSM2)).Point} (hG : Denotes 11 curveSM2.G G)
    (fuel : Nat) (x xa x' : Ctx) (hk : sm2Keygen curveSM2 11 (opsHash (mdOps algSm3) mem) rng fuel x = some xa) :
    ∃ X Y xb, X.length = 32 ∧ Y.length = 32 ∧ encodePublicKey curveSM2 xa 65 = some (4#8 :: (X ++ Y)) ∧
      EncodesPoint 32 (4#8 :: (X ++ Y)) (val xa.d • G) ∧ sm2DecodePublicKey curveSM2 11 (opsHash (mdOps algSm3) mem') x' (4#8 :: (X ++ Y)) = some (xb, true) ∧
      sm2Xctrl curveSM2 11 (opsHash (mdOps algSm3) mem) xa true (some sm2DefaultId) = some xa ∧
      sm2Xctrl curveSM2 11 (opsHash (mdOps algSm3) mem') xb true (some sm2DefaultId) = some xb ∧
      ∀ (id msg : List Byte), id.length < 8192 → msg.length < 2 ^ 60 → ∃ xi zi,
      sm2Xctrl curveSM2 11 (opsHash (mdOps algSm3) mem) xa true (some id) = some xi ∧ sm2Xctrl curveSM2 11 (opsHash (mdOps algSm3) mem') xb true (some id) = some zi ∧
      ∀ {rng' : Nat → List Byte}, (∀ i, (rng' i).length = 32) → ∀ fuel' y,
      sm2Sign curveSM2 11 (opsHash (mdOps algSm3) mem) xi msg rng' fuel' = some y → val xa.d + 1 < val curveSM2.n →
      (∀ j < fuel', ∀ X Y hn, beNat (rng' j) • G = .some X Y hn → X ≠ 0) → ∀ buf : List Byte, 104 ≤ buf.length →
      ∃ sig w, ecdsaEncodeSignature y buf = some (some sig) ∧ ecdsaDecodeSignature 11 zi sig = some (w, true) ∧
        (sm2Verify curveSM2 11 (opsHash (mdOps algSm3) mem') w msg).2 = true ∧
        Sm2Valid (val curveSM2.n) G (val xa.d • G)
          (beNat (Spec.Sha.sm3 (Spec.Sha.sm3 (sm2Z 32 id (qSM2 - 3) bSM2 gxSM2 gySM2 (beNat X) (beNat Y)) ++ msg))) (val y.r) (val y.s) := by
  have h := sm2_exchange sm3_law eccCurveSM2 (by decide) hm hm' hr hG fuel x xa x' hk
  have l : ∀ m, (Spec.Sha.sm3 m).take 32 = Spec.Sha.sm3 m := fun m => List.take_of_length_le (le_of_eq (sm3_law.len m))
  obtain ⟨X, Y, xb, h1, h2, h3, h4, h5, h6, h7, h8⟩ := h
  refine ⟨X, Y, xb, h1, h2, h3, h4, h5, h6, h7, fun id msg hid hl => ?_⟩
  have hpl : curveSM2.plen = 32 := rfl
  have hL : (mdOps algSm3).L = 32 := rfl
  have p60 : (2 : Nat) ^ 61 = 2 * 2 ^ 60 := by norm_num
  have p13 : (100000 : Nat) < 2 ^ 60 := by norm_num
  obtain ⟨xi, zi, g1, g2, g3⟩ := h8 id msg hid (by rw [hpl]; omega) (by rw [hL]; omega)
  refine ⟨xi, zi, g1, g2, fun {rng'} hr' fuel' y hs hd hX buf hb => ?_⟩
  obtain ⟨sig, w, k1, k2, k3, k4⟩ := g3 hr' fuel' y hs hd hX buf hb
  refine ⟨sig, w, k1, k2, k3, ?_⟩
  obtain ⟨⟨n1, n2, n3, n4⟩, -⟩ := C59_curve_numbers
  rw [hpl, n1, n2, n3, n4, l] at k4
  exact k4

/-- The exchange can take place: the key `5`, the message `abc`, the scalar `1`, hash contexts of zeros. -/
example : ∃ (xa y : Ctx) (mem : MD.Ctx (List (BitVec 32))), mem.msg.length = 64 ∧
    keygen secp256r1 11 (fun _ => beN 32 5) 1 ⟨0, [], [], xyzInf 11, xyzInf 11, [], [], [], []⟩ = some xa ∧
    ecdsaSign secp256r1 11 (opsHash (mdOps algSha256) mem) xa [0x61, 0x62, 0x63] (fun _ => beN 32 1) 1 = some y := by
  obtain ⟨G, h1, -⟩ := C40_base_point.1
  obtain ⟨mem, hm⟩ : ∃ mem : MD.Ctx (List (BitVec 32)), mem.msg.length = 64 := ⟨MD.init algSha256 (List.replicate 64 9), rfl⟩
  have h5v : beNat (beN 32 5) = 5 := by decide +kernel
  have h1v : beNat (beN 32 1) = 1 := by decide +kernel
  have hk := C51_keygen eccCurve256 (rng := fun _ => beN 32 5) (fun _ => length_beN _ _) h1 1 ⟨0, [], [], xyzInf 11, xyzInf 11, [], [], [], []⟩
  cases hx : keygen secp256r1 11 (fun _ => beN 32 5) 1 ⟨0, [], [], xyzInf 11, xyzInf 11, [], [], [], []⟩ with
  | none => exact absurd (hk.1.mp hx 0 (by decide)) (by rw [h5v]; decide +kernel)
  | some xa =>
    obtain ⟨j, -, -, -, g1, g2, g3, -⟩ := hk.2 xa hx
    rw [h5v] at g3
    cases hs : ecdsaSign secp256r1 11 (opsHash (mdOps algSha256) mem) xa [0x61, 0x62, 0x63] (fun _ => beN 32 1) 1 with
    | some y => exact ⟨xa, y, mem, hm, rfl, hs⟩
    | none =>
      exfalso
      refine C53_sign_none eccCurve256 _ xa _ (by rw [g1]; decide) (rng := fun _ => beN 32 1) (fun _ => length_beN _ _) g2 h1 1 hs 0 (by decide) ?_
      rw [h1v, g3, ops_digest sha256_law hm _ (by norm_num)]
      refine ⟨⟨le_rfl, by decide +kernel⟩, ?_⟩
      rw [one_nsmul]
      have hc := h1.2.2
      rcases G with _ | ⟨X, Y, hn⟩
      · exact absurd hc.2.2 (by rw [show val secp256r1.G.z = 1 by decide +kernel]; simp)
      · have hX : X = ((gx256 : Nat) : ZMod q256) := by
          have := hc.2.1
          rw [show val secp256r1.G.z = 1 by decide +kernel, show val secp256r1.G.x = gx256 by decide +kernel] at this
          rw [this]; simp
        refine ⟨X, Y, hn, rfl, ?_, ?_⟩
        · rw [hX, Ne, ZMod.natCast_eq_zero_iff]; decide +kernel
        · have hv : beNat ((Spec.Sha.sha256 [0x61, 0x62, 0x63]).take secp256r1.plen) = 0xba7816bf8f01cfea414140de5dae2223b00361a396177a9cb410ff61f20015ad := by
            have hl : (Spec.Sha.sha256 [0x61, 0x62, 0x63]).length = 32 := sha256_law.len _
            have ht : (Spec.Sha.sha256 [0x61, 0x62, 0x63]).take secp256r1.plen = fitTo (Spec.Sha.sha256 [0x61, 0x62, 0x63]) 32 := by
              rw [← take_fitTo, hl]; rfl
            have := C68_sha256 (List.replicate 64 9) rfl [[0x61, 0x62], [0x63]] (by decide) 32
            rw [ht, show [0x61, 0x62, 0x63] = [[0x61, 0x62], [(0x63 : BitVec 8)]].flatten from rfl, ← this]
            decide +kernel
          rw [hv, hX, ZMod.val_natCast, ← Nat.cast_mul, ← Nat.cast_add, Ne, ZMod.natCast_eq_zero_iff]
          decide +kernel

end Props
