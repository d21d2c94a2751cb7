import Verif.Lemmas.EdDsaSig

/-!
# Properties C60 to C63: EdDSA

The statements are about a curve context `C` with `SigOk` and a base point with `BaseOk`; `C60_suites` gives both for Ed25519 and
Ed448.  `plen C` is 32 and 57, `C.pbits` 255 and 448.
-/

namespace Props
open Vlong Spec Ec EdParam EdDsa

/-- C60: the two suites. -/
theorem C60_suites :
    (SigOk ed25519 11 qEd25519 ((aEd25519 : Nat) : ZMod qEd25519) ((dEd25519 : Nat) : ZMod qEd25519) ∧
      (∃ B : EdPoint ((aEd25519 : Nat) : ZMod qEd25519) ((dEd25519 : Nat) : ZMod qEd25519), BaseOk ed25519 11 B) ∧
      plen ed25519 = 32 ∧ ed25519.pbits = 255) ∧
    (SigOk ed448 17 qEd448 ((aEd448 : Nat) : ZMod qEd448) ((dEd448 : Nat) : ZMod qEd448) ∧
      (∃ B : EdPoint ((aEd448 : Nat) : ZMod qEd448) ((dEd448 : Nat) : ZMod qEd448), BaseOk ed448 17 B) ∧
      plen ed448 = 57 ∧ ed448.pbits = 448) := by
  obtain ⟨⟨B, h1, -, -, h2⟩, B', h1', -, -, h2'⟩ := C40_ed_base_point
  exact ⟨⟨sigOk25519, ⟨B, edDenotes_iff.mp h1, h2⟩, by decide, by decide⟩,
    sigOk448, ⟨B', edDenotes_iff.mp h1', h2'⟩, by decide, by decide⟩

section
variable {C : EdCurve} {c p : Nat} [hp : Fact p.Prime] {a d : ZMod p} (hC : SigOk C c p a d) [hE : EdComplete a d]
include hC

/-- C60: a decoded point is the point the octets name. -/
theorem C60_decode {buf : List Byte} (hl : buf.length = plen C) {P : Xytz} (h : pointDec C c buf = some P) :
    ∃ Q : EdPoint a d, EdNames (plen C) C.pbits buf Q ∧ val P.x = Q.x.val ∧ ((val P.y : Nat) : ZMod p) = Q.y ∧
      val P.y < 2 ^ C.pbits ∧ ((val P.t : Nat) : ZMod p) = Q.x * Q.y ∧ val P.z = 1 := by
  obtain ⟨Q, hA, h1, h2, h3⟩ := (pointDec_spec hC hl).1 P h
  refine ⟨Q, ⟨hl, h2, h3⟩, hA.x.2, hA.y.res, ?_, hA.t.res, ?_⟩
  · rw [h1]; exact Nat.mod_lt _ (by positivity)
  · have h2 := three hC
    rw [Ecc.val_of_rep hA.z one_ne_zero, ZMod.val_one_eq_one_mod, Nat.mod_eq_of_lt (by omega)]

/-- C60: octets are accepted if and only if they name a point of the curve. -/
theorem C60_accepts_iff {buf : List Byte} (hl : buf.length = plen C) :
    (pointDec C c buf).isSome = true ↔ ∃ Q : EdPoint a d, EdNames (plen C) C.pbits buf Q := by
  constructor
  · intro h
    obtain ⟨P, hP⟩ := Option.isSome_iff_exists.mp h
    obtain ⟨Q, hQ, -⟩ := C60_decode hC hl hP
    exact ⟨Q, hQ⟩
  · rintro ⟨Q, -, h1, h2⟩
    cases h : pointDec C c buf with
    | some P => rfl
    | none => exact absurd h2 ((pointDec_spec hC hl).2 h Q h1)

/-- C60: octets name at most one point. -/
theorem C60_names_unique {buf : List Byte} {Q Q' : EdPoint a d} (h : EdNames (plen C) C.pbits buf Q)
    (h' : EdNames (plen C) C.pbits buf Q') : Q = Q' := by
  have hy : Q.y = Q'.y := h.2.1.trans h'.2.1.symm
  have hon := Q'.on
  rw [← hy] at hon
  exact EdPoint.ext (same_parity (odd hC) (x_unique Q.on hon) (h.2.2.trans h'.2.2.symm)) hy

omit hE in
theorem encode_val (Q : EdPoint a d) : leNat (edEncode (plen C) Q) = Q.y.val + 2 ^ (8 * plen C - 1) * (Q.x.val % 2) ∧
    Q.y.val < 2 ^ C.pbits ∧ C.pbits ≤ 8 * plen C - 1 := by
  have hylt : Q.y.val < 2 ^ C.pbits := (ZMod.val_lt _).trans hC.plt
  have hpl := plen_eq C
  refine ⟨?_, hylt, by omega⟩
  unfold edEncode
  rw [leNat_leN]
  apply Nat.mod_eq_of_lt
  have e1 : 2 ^ C.pbits ≤ 2 ^ (8 * plen C - 1) := Nat.pow_le_pow_right (by norm_num) (by omega)
  have e2 : 256 ^ plen C = 2 * 2 ^ (8 * plen C - 1) := by
    rw [show (256 : Nat) = 2 ^ 8 by norm_num, ← Nat.pow_mul, ← pow_succ']; congr 1; omega
  rw [e2]
  have : Q.x.val % 2 < 2 := Nat.mod_lt _ (by norm_num)
  generalize Q.x.val % 2 = m at *
  interval_cases m <;> omega

omit hE in
theorem encode_parts (Q : EdPoint a d) : leNat (edEncode (plen C) Q) % 2 ^ C.pbits = Q.y.val ∧
    leNat (edEncode (plen C) Q) / 2 ^ (8 * plen C - 1) = Q.x.val % 2 := by
  obtain ⟨h1, h2, h3⟩ := encode_val hC Q
  rw [h1]
  constructor
  · obtain ⟨k, hk⟩ := pow_dvd_pow 2 h3
    rw [hk, mul_assoc, Nat.add_mul_mod_self_left, Nat.mod_eq_of_lt h2]
  · rw [Nat.add_mul_div_left _ _ (by positivity), Nat.div_eq_of_lt (h2.trans_le (Nat.pow_le_pow_right (by norm_num) h3)),
      Nat.zero_add]

omit hE in
/-- C60: the encoding of a point names it. -/
theorem C60_encode_names (Q : EdPoint a d) : EdNames (plen C) C.pbits (edEncode (plen C) Q) Q := by
  obtain ⟨h1, h2⟩ := encode_parts hC Q
  refine ⟨by simp [edEncode, leN], ?_, h2.symm⟩
  rw [h1]; simp

/-- C60: decoding the encoding of any point of the curve gives that point. -/
theorem C60_roundtrip (Q : EdPoint a d) : ∃ P, pointDec C c (edEncode (plen C) Q) = some P ∧ val P.x = Q.x.val ∧
    val P.y = Q.y.val ∧ pointEnc C P = edEncode (plen C) Q := by
  have hl : (edEncode (plen C) Q).length = plen C := by simp [edEncode, leN]
  obtain ⟨P, hP⟩ := Option.isSome_iff_exists.mp ((C60_accepts_iff hC hl).mpr ⟨Q, C60_encode_names hC Q⟩)
  obtain ⟨Q', hA, h1, h2, h3⟩ := (pointDec_spec hC hl).1 P hP
  obtain rfl := C60_names_unique hC ⟨hl, h2, h3⟩ (C60_encode_names hC Q)
  have hy : val P.y = Q'.y.val := by rw [h1, (encode_parts hC Q').1]
  exact ⟨P, hP, hA.x.2, hy, pointEnc_exact hC hA.x.2 hy⟩

/-- C60: different points have different encodings. -/
theorem C60_encode_inj {Q Q' : EdPoint a d} (h : edEncode (plen C) Q = edEncode (plen C) Q') : Q = Q' :=
  C60_names_unique hC (C60_encode_names hC Q) (h ▸ C60_encode_names hC Q')

/-- C60: decoding and encoding gives the octets back, with the bits between `y` and the sign cleared. -/
theorem C60_reencode {buf : List Byte} (hl : buf.length = plen C) {P : Xytz} (h : pointDec C c buf = some P) :
    pointEnc C P = edTrim (plen C) C.pbits buf := by
  obtain ⟨Q, hA, h1, h2, h3⟩ := (pointDec_spec hC hl).1 P h
  obtain ⟨e1, e2⟩ := pointEnc_val C P
  have hpl := plen_eq C
  unfold edTrim
  apply leNat_inj
  · rw [e1]; simp [leN]
  · rw [e2, leNat_leN, hA.x.2, h1, h3, Nat.mod_mod]
    symm
    apply Nat.mod_eq_of_lt
    have hlt := (par_val C buf hl).2
    have e3 : 2 ^ C.pbits ≤ 2 ^ (8 * plen C - 1) := Nat.pow_le_pow_right (by norm_num) (by omega)
    have e4 : 256 ^ plen C = 2 * 2 ^ (8 * plen C - 1) := by
      rw [show (256 : Nat) = 2 ^ 8 by norm_num, ← Nat.pow_mul, ← pow_succ']; congr 1; omega
    have e5 : leNat buf % 2 ^ C.pbits < 2 ^ C.pbits := Nat.mod_lt _ (by positivity)
    rw [e4]
    generalize leNat buf / 2 ^ (8 * plen C - 1) = m at *
    interval_cases m <;> omega

omit hE in
theorem trim_encode (Q : EdPoint a d) : edTrim (plen C) C.pbits (edEncode (plen C) Q) = edEncode (plen C) Q := by
  obtain ⟨h1, h2⟩ := encode_parts hC Q
  unfold edTrim
  rw [h1, h2]; rfl

end

/-- C60: for Ed25519 nothing is cleared; for Ed448 nothing is cleared if the seven bits are zero. -/
theorem C60_trim (buf : List Byte) : (buf.length = 32 → edTrim 32 255 buf = buf) ∧
    (buf.length = 57 → leNat buf % 2 ^ 455 < 2 ^ 448 → edTrim 57 448 buf = buf) := by
  have key : ∀ b n, buf.length = b → 1 ≤ b → leNat buf % 2 ^ (8 * b - 1) < 2 ^ n → n ≤ 8 * b - 1 → edTrim b n buf = buf := by
    intro b n hl hb hlt hn
    have hdm := Nat.mod_add_div (leNat buf) (2 ^ (8 * b - 1))
    have hmod : leNat buf % 2 ^ n = leNat buf % 2 ^ (8 * b - 1) := by
      rw [← Nat.mod_mod_of_dvd (leNat buf) (pow_dvd_pow 2 hn), Nat.mod_eq_of_lt hlt]
    unfold edTrim
    rw [hmod, hdm]
    apply leNat_inj
    · rw [hl]; simp [leN]
    · rw [leNat_leN, ← hl, Nat.mod_eq_of_lt (leNat_lt _)]
  exact ⟨fun h => key 32 255 h (by norm_num) (Nat.mod_lt _ (by positivity)) (by norm_num),
    fun h h2 => key 57 448 h (by norm_num) h2 (by norm_num)⟩


section
variable {C : EdCurve} {c p : Nat} [hp : Fact p.Prime] {a d : ZMod p} (hC : SigOk C c p a d) [hE : EdComplete a d]
  {B : EdPoint a d} (hB : BaseOk C c B)
include hC hB

theorem reload_spec (H : Pkcs1.Hash) (x : Ctx) :
    val (privkeyReload C c H x).s = edScalar (plen C) (H.digest x.sk (plen C * 2)) ∧ (privkeyReload C c H x).s ≠ [] ∧
    (privkeyReload C c H x).prefix_ = (H.digest x.sk (plen C * 2)).drop (plen C) ∧
    Norm c (privkeyReload C c H x).A (edScalar (plen C) (H.digest x.sk (plen C * 2)) • B) := by
  obtain ⟨h1, h2⟩ := clamp_spec hC (H.digest x.sk (plen C * 2)) (Pkcs1.length_digest _ _ _)
  obtain ⟨d1, d2⟩ := C06_declsb c ((clamp C (H.digest x.sk (plen C * 2))).take (plen C))
  have hc := hC.ok.fld.cpos
  rw [h1, Nat.mod_eq_of_lt ((scalar_lt hC _).trans_le (Nat.pow_le_pow_right (by norm_num) hC.room))] at d2
  have hs : (privkeyReload C c H x).s = decLSB c ((clamp C (H.digest x.sk (plen C * 2))).take (plen C)) := rfl
  refine ⟨by rw [hs, d2], ?_, h2, ?_⟩
  · rw [hs]; intro h; rw [h] at d1; simp at d1; omega
  · rw [← d2]; exact scaleB hC hB _

/-- C61: a private key is loaded exactly if it has the right length, and is exported unchanged. -/
theorem C61_private_roundtrip (H : Pkcs1.Hash) (x : Ctx) (enc : List Byte) :
    (decodePrivateKey C c H x enc = none ↔ enc.length ≠ plen C) ∧
    ∀ y, decodePrivateKey C c H x enc = some y → (encodePrivateKey C y (plen C) = some enc) ∧
      (∀ len, len ≠ plen C → encodePrivateKey C y len = none ∧ encodePublicKey C y len = none) := by
  unfold decodePrivateKey
  constructor
  · by_cases h : enc.length = plen C <;> simp [h]
  · intro y hy
    by_cases h : enc.length = plen C
    · rw [if_neg (by simpa using h)] at hy
      obtain rfl := Option.some.inj hy
      refine ⟨by unfold encodePrivateKey; rw [if_neg (by simp)]; rfl, fun len hl => ⟨?_, ?_⟩⟩
      · unfold encodePrivateKey; rw [if_pos hl]
      · unfold encodePublicKey; rw [if_pos hl.symm]
    · rw [if_pos (by simpa using h)] at hy
      simp at hy

omit hE hC hB in
/-- C61: key generation is loading the octets drawn. -/
theorem C61_keygen (H : Pkcs1.Hash) (x : Ctx) (rnd : List Byte) (hl : rnd.length = plen C) :
    decodePrivateKey C c H x rnd = some (keygen C c H rnd x) := by
  unfold decodePrivateKey
  rw [if_neg (by simpa using hl)]
  rfl

/-- C61: the public key of a loaded private key is the encoding of `[s] B` for the pruned scalar `s` (for Ed448 unless the scalar
is a multiple of the order of the base point). -/
theorem C61_public_key (H : Pkcs1.Hash) (x y : Ctx) (sk : List Byte) (h : decodePrivateKey C c H x sk = some y)
    (hs : plen C = 32 ∨ edScalar (plen C) (H.digest sk (plen C * 2)) % val C.L ≠ 0) :
    encodePublicKey C y (plen C) = some (edEncode (plen C) (edScalar (plen C) (H.digest sk (plen C * 2)) • B)) := by
  unfold decodePrivateKey at h
  by_cases hl : sk.length = plen C
  · rw [if_neg (by simpa using hl)] at h
    obtain rfl := Option.some.inj h
    have hs' : edScalar (plen C) (H.digest sk (plen C * 2)) % val C.L ≠ 0 := by
      rcases hs with hs | hs
      · exact scalar25519_ne hC hs _
      · exact hs
    obtain ⟨-, -, -, hA⟩ := reload_spec hC hB H { ctxInit C x with sk := sk }
    obtain ⟨hx, hy⟩ := coords_ne hC hB hs'
    unfold encodePublicKey
    rw [if_neg (by simp), pointEnc_norm hC hA hx hy]
  · rw [if_pos (by simpa using hl)] at h
    simp at h

omit hB in
/-- C61: a public key is accepted exactly if it names a point. -/
theorem C61_decode_public (x : Ctx) (enc : List Byte) :
    (decodePublicKey C c x enc = none ↔ enc.length ≠ plen C) ∧
    (∀ y ok, decodePublicKey C c x enc = some (y, ok) →
      (ok = true ↔ ∃ Q : EdPoint a d, EdNames (plen C) C.pbits enc Q) ∧
      (ok = true → y.status = 0 ∧ y.ctxstr = [] ∧ encodePublicKey C y (plen C) = some (edTrim (plen C) C.pbits enc)) ∧
      (ok = false → y.status = -1)) := by
  unfold decodePublicKey
  by_cases hl : enc.length = plen C
  · rw [if_neg (by simpa using hl)]
    constructor
    · constructor
      · intro h; split at h <;> simp at h
      · intro h; exact absurd hl h
    · intro y ok h
      have hi := C60_accepts_iff hC hl
      rw [← hi]
      cases hp : pointDec C c enc with
      | none =>
        rw [hp] at h
        simp only [Option.some.injEq, Prod.mk.injEq] at h
        obtain ⟨rfl, rfl⟩ := h
        simp
      | some P =>
        rw [hp] at h
        simp only [Option.some.injEq, Prod.mk.injEq] at h
        obtain ⟨rfl, rfl⟩ := h
        refine ⟨by simp, fun _ => ⟨rfl, rfl, ?_⟩, by simp⟩
        unfold encodePublicKey
        rw [if_neg (by simp)]
        exact congrArg some (C60_reencode hC hl hp)
  · rw [if_pos (by simpa using hl)]
    exact ⟨by simp [hl], by simp⟩

/-- C61: the exported public key is accepted by the other side, as the point `[s] B`. -/
theorem C61_export_accepted (H : Pkcs1.Hash) (x y z : Ctx) (sk pk : List Byte) (h : decodePrivateKey C c H x sk = some y)
    (hs : plen C = 32 ∨ edScalar (plen C) (H.digest sk (plen C * 2)) % val C.L ≠ 0)
    (hpk : encodePublicKey C y (plen C) = some pk) : ∃ w, decodePublicKey C c z pk = some (w, true) ∧
      EdNames (plen C) C.pbits pk (edScalar (plen C) (H.digest sk (plen C * 2)) • B) := by
  rw [C61_public_key hC hB H x y sk h hs] at hpk
  obtain rfl := Option.some.inj hpk
  have hn := C60_encode_names hC (edScalar (plen C) (H.digest sk (plen C * 2)) • B)
  obtain ⟨h1, h2⟩ := C61_decode_public hC z (edEncode (plen C) (edScalar (plen C) (H.digest sk (plen C * 2)) • B))
  cases hd : decodePublicKey C c z (edEncode (plen C) (edScalar (plen C) (H.digest sk (plen C * 2)) • B)) with
  | none => exact absurd hn.1 (h1.mp hd)
  | some r =>
    obtain ⟨w, ok⟩ := r
    obtain rfl := (h2 w ok hd).1.mpr ⟨_, hn⟩
    exact ⟨w, rfl, hn⟩

/-- C62: what the signing functions output, for a context with a loaded private key `sk`, any context string, any flag (0: the
message itself, 1: prehashed) and any message. -/
theorem C62_sign_octets (H : Pkcs1.Hash) (x y : Ctx) (sk : List Byte) (h : decodePrivateKey C c H x sk = some y)
    (hs : plen C = 32 ∨ edScalar (plen C) (H.digest sk (plen C * 2)) % val C.L ≠ 0) (ctx : List Byte) (st : Int) (g : List Byte)
    (flags : Byte) (em : List Byte) :
    encodeSignature C (rfcSign C c H { y with ctxstr := ctx, status := st, hmsg := g } flags em) (plen C * 2) =
      some (edSign (plen C) (val C.L) B (fun m => H.digest m (plen C * 2)) (edDom (plen C) flags ctx)
        ((H.digest sk (plen C * 2)).drop (plen C)) (edEncode (plen C) (edScalar (plen C) (H.digest sk (plen C * 2)) • B))
        (edScalar (plen C) (H.digest sk (plen C * 2))) em) := by
  have hpub := C61_public_key hC hB H x y sk h hs
  unfold decodePrivateKey at h
  by_cases hl : sk.length = plen C
  · rw [if_neg (by simpa using hl)] at h
    obtain rfl := Option.some.inj h
    obtain ⟨h1, h2, h3, -⟩ := reload_spec hC hB H { ctxInit C x with sk := sk }
    unfold encodePublicKey at hpub
    rw [if_neg (by simp)] at hpub
    have hpub' := Option.some.inj hpub
    have := rfcSign_spec hC hB H { privkeyReload C c H { ctxInit C x with sk := sk } with ctxstr := ctx, status := st, hmsg := g }
      h2 flags em
    rw [this]
    simp only
    rw [h1, h3, hpub']
  · rw [if_pos (by simpa using hl)] at h
    simp at h

/-- C62: `EdDSA_Sign` outputs the RFC 8032 signature. -/
theorem C62_sign (H : Pkcs1.Hash) (x y : Ctx) (sk : List Byte) (h : decodePrivateKey C c H x sk = some y)
    (hs : plen C = 32 ∨ edScalar (plen C) (H.digest sk (plen C * 2)) % val C.L ≠ 0) (ctx msg : List Byte) :
    encodeSignature C (sign C c H { y with ctxstr := ctx } msg) (plen C * 2) =
      some (edSign (plen C) (val C.L) B (fun m => H.digest m (plen C * 2)) (edDom (plen C) 0 ctx)
        ((H.digest sk (plen C * 2)).drop (plen C)) (edEncode (plen C) (edScalar (plen C) (H.digest sk (plen C * 2)) • B))
        (edScalar (plen C) (H.digest sk (plen C * 2))) msg) :=
  C62_sign_octets hC hB H x y sk h hs ctx 0 y.hmsg 0 msg

theorem foldl_update (x : Ctx) (chunks : List (List Byte)) :
    chunks.foldl update x = { x with hmsg := x.hmsg ++ chunks.flatten } := by
  induction chunks generalizing x with
  | nil => simp
  | cons m ms ih => rw [List.foldl_cons, ih]; simp [update]

/-- C62: incremental signing outputs the signature of the 64-octet prehash of all the chunks, with the prehash flag. -/
theorem C62_sign_incremental (H : Pkcs1.Hash) (x y : Ctx) (sk : List Byte) (h : decodePrivateKey C c H x sk = some y)
    (hs : plen C = 32 ∨ edScalar (plen C) (H.digest sk (plen C * 2)) % val C.L ≠ 0) (ctx : List Byte) (chunks : List (List Byte)) :
    encodeSignature C (incSignFinal C c H (chunks.foldl update (incInit { y with ctxstr := ctx }))) (plen C * 2) =
      some (edSign (plen C) (val C.L) B (fun m => H.digest m (plen C * 2)) (edDom (plen C) 1 ctx)
        ((H.digest sk (plen C * 2)).drop (plen C)) (edEncode (plen C) (edScalar (plen C) (H.digest sk (plen C * 2)) • B))
        (edScalar (plen C) (H.digest sk (plen C * 2))) (H.digest chunks.flatten 64)) := by
  rw [foldl_update hC hB]
  exact C62_sign_octets hC hB H x y sk h hs ctx 0 _ 1 _

end


section
variable {C : EdCurve} {c p : Nat} [hp : Fact p.Prime] {a d : ZMod p} (hC : SigOk C c p a d) [hE : EdComplete a d]
include hC

theorem sigParts {sig : List Byte} (hl : sig.length = 2 * plen C) :
    (sig.take (plen C)).length = plen C ∧ val (decLSB c (sig.drop (plen C))) = leNat (sig.drop (plen C)) := by
  refine ⟨by rw [List.length_take]; omega, ?_⟩
  rw [(C06_declsb c _).2]
  apply Nat.mod_eq_of_lt
  refine (leNat_lt _).trans_le ?_
  rw [show (256 : Nat) = 2 ^ 8 by norm_num, ← Nat.pow_mul]
  apply Nat.pow_le_pow_right (by norm_num)
  have := hC.room
  rw [List.length_drop]; omega

/-- C62: a signature is taken in exactly if it has twice the length of a point, its first half names a point and its second half is
a number below the order; otherwise the outcome is already "invalid". -/
theorem C62_decode_signature (x : Ctx) (sig : List Byte) :
    ((decodeSignature C c x sig).2 = true ↔ sig.length = 2 * plen C ∧ leNat (sig.drop (plen C)) < val C.L ∧
      ∃ R : EdPoint a d, EdNames (plen C) C.pbits (sig.take (plen C)) R) ∧
    ((decodeSignature C c x sig).2 = false → (decodeSignature C c x sig).1.status = -1) := by
  unfold decodeSignature
  by_cases hl : sig.length = 2 * plen C
  · rw [if_neg (by omega)]
    obtain ⟨h1, h2⟩ := sigParts hC hl
    have hi := C60_accepts_iff hC h1
    rw [← hi]
    cases hp : pointDec C c (sig.take (plen C)) with
    | none => simp
    | some R =>
      simp only [Option.isSome_some, and_true]
      have hcmp : cmpvShifted (decLSB c (sig.drop (plen C))) C.L 0 = 2 ↔ leNat (sig.drop (plen C)) < val C.L := by
        rw [Ecc.cmp0, Ecc.cmpRes_two, h2]
      by_cases h : leNat (sig.drop (plen C)) < val C.L
      · rw [if_neg (by rw [ne_eq, not_not]; exact hcmp.mpr h)]
        simp [hl, h]
      · rw [if_pos (fun e => h (hcmp.mp e))]
        simp [h]
  · rw [if_pos (by omega)]
    simp [hl]

theorem decodeSignature_ok (x : Ctx) (sig : List Byte) (h : (decodeSignature C c x sig).2 = true) :
    ∃ (P : Xytz) (R : EdPoint a d), EdNames (plen C) C.pbits (sig.take (plen C)) R ∧ EPtK 2 c P R ∧
      pointEnc C P = edTrim (plen C) C.pbits (sig.take (plen C)) ∧
      (decodeSignature C c x sig).1 = { x with status := 0, R := P, r := decLSB c (sig.drop (plen C)) } := by
  obtain ⟨hl, hS, -⟩ := (C62_decode_signature hC x sig).1.mp h
  obtain ⟨h1, h2⟩ := sigParts hC hl
  unfold decodeSignature at h ⊢
  rw [if_neg (by omega)] at h ⊢
  cases hp : pointDec C c (sig.take (plen C)) with
  | none => rw [hp] at h; simp at h
  | some P =>
    obtain ⟨R, hA, -, e2, e3⟩ := (pointDec_spec hC h1).1 P hp
    refine ⟨P, R, ⟨h1, e2, e3⟩, hA.toE (by norm_num), C60_reencode hC h1 hp, ?_⟩
    simp only
    rw [if_neg]
    rw [ne_eq, not_not, Ecc.cmp0, Ecc.cmpRes_two, h2]
    exact hS

theorem decodePublicKey_ok (x y : Ctx) (pk : List Byte) (h : decodePublicKey C c x pk = some (y, true)) :
    ∃ Q : EdPoint a d, EdNames (plen C) C.pbits pk Q ∧ EPtK 2 c y.A Q ∧ pointEnc C y.A = edTrim (plen C) C.pbits pk ∧ y.status = 0 := by
  unfold decodePublicKey at h
  by_cases hl : pk.length = plen C
  · rw [if_neg (by simpa using hl)] at h
    cases hp : pointDec C c pk with
    | none => rw [hp] at h; simp at h
    | some P =>
      rw [hp] at h
      simp only [Option.some.injEq, Prod.mk.injEq, and_true] at h
      subst h
      obtain ⟨R, hA, -, e2, e3⟩ := (pointDec_spec hC hl).1 P hp
      exact ⟨R, ⟨hl, e2, e3⟩, hA.toE (by norm_num), C60_reencode hC hl hp, rfl⟩
  · rw [if_pos (by simpa using hl)] at h
    simp at h

variable {B : EdPoint a d} (hB : BaseOk C c B)
include hB

theorem verify_core (H : Pkcs1.Hash) (x : Ctx) (pk sig : List Byte) {Q : EdPoint a d} (hA : EPtK 2 c x.A Q)
    (hpk : pointEnc C x.A = edTrim (plen C) C.pbits pk) (hsig : (decodeSignature C c x sig).2 = true)
    (st : Int) (g : List Byte) (flags : Byte) (em : List Byte) :
    ((rfcVerify C c H { (decodeSignature C c x sig).1 with status := st, hmsg := g } flags em).2 = true →
      EdValid (plen C) C.pbits (val C.L) B (fun m => H.digest m (plen C * 2)) (edDom (plen C) flags x.ctxstr) pk Q em sig) ∧
    (EdValid (plen C) C.pbits (val C.L) B (fun m => H.digest m (plen C * 2)) (edDom (plen C) flags x.ctxstr) pk Q em sig →
      leNat (sig.drop (plen C)) ≠ 0 →
      (rfcVerify C c H { (decodeSignature C c x sig).1 with status := st, hmsg := g } flags em).2 = true) := by
  obtain ⟨hl, hS, -⟩ := (C62_decode_signature hC x sig).1.mp hsig
  obtain ⟨h1, h2⟩ := sigParts hC hl
  obtain ⟨P, R, hn, hR, hP, hx⟩ := decodeSignature_ok hC x sig hsig
  rw [hx]
  obtain ⟨v1, v2⟩ := rfcVerify_spec hC hB H { x with status := st, R := P, r := decLSB c (sig.drop (plen C)), hmsg := g } flags em hA hR
  simp only at v1 v2
  rw [h2, hP, hpk] at v1 v2
  constructor
  · intro h
    exact ⟨hl, hS, R, hn, v1 h⟩
  · rintro ⟨-, -, R', hn', he⟩ h0
    obtain rfl := C60_names_unique hC hn hn'
    exact v2 (by rw [Nat.mod_eq_of_lt hS]; exact h0) he

/-- C62: verification after loading a public key, any context string (`EdDSA_Verify_Xctrl`) and a signature.  Accepted signatures are
valid; valid signatures are accepted unless their number is zero. -/
theorem C62_verify (H : Pkcs1.Hash) (x y : Ctx) (pk : List Byte) (h : decodePublicKey C c x pk = some (y, true)) :
    ∃ Q : EdPoint a d, EdNames (plen C) C.pbits pk Q ∧ ∀ ctx sig msg : List Byte,
      ((verify C c H (decodeSignature C c { y with ctxstr := ctx } sig).1 msg).2 = true →
        EdValid (plen C) C.pbits (val C.L) B (fun m => H.digest m (plen C * 2)) (edDom (plen C) 0 ctx) pk Q msg sig) ∧
      (EdValid (plen C) C.pbits (val C.L) B (fun m => H.digest m (plen C * 2)) (edDom (plen C) 0 ctx) pk Q msg sig →
        leNat (sig.drop (plen C)) ≠ 0 → (verify C c H (decodeSignature C c { y with ctxstr := ctx } sig).1 msg).2 = true) := by
  obtain ⟨Q, hn, hA, hpk, hst⟩ := decodePublicKey_ok hC x y pk h
  refine ⟨Q, hn, fun ctx sig msg => ?_⟩
  obtain ⟨d1, d2⟩ := C62_decode_signature hC { y with ctxstr := ctx } sig
  by_cases hd : (decodeSignature C c { y with ctxstr := ctx } sig).2 = true
  · obtain ⟨P, R, -, -, -, hx⟩ := decodeSignature_ok hC { y with ctxstr := ctx } sig hd
    have hs0 : (decodeSignature C c { y with ctxstr := ctx } sig).1.status = 0 := by rw [hx]
    have hv : verify C c H (decodeSignature C c { y with ctxstr := ctx } sig).1 msg =
        rfcVerify C c H (decodeSignature C c { y with ctxstr := ctx } sig).1 0 msg := by
      unfold verify
      rw [hs0, if_neg (by norm_num), if_neg (by norm_num)]
    rw [hv]
    exact verify_core hC hB H { y with ctxstr := ctx } pk sig hA hpk hd
      (decodeSignature C c { y with ctxstr := ctx } sig).1.status (decodeSignature C c { y with ctxstr := ctx } sig).1.hmsg 0 msg
  · have hf : (decodeSignature C c { y with ctxstr := ctx } sig).2 = false := by simpa using hd
    have hs := d2 hf
    have hv : verify C c H (decodeSignature C c { y with ctxstr := ctx } sig).1 msg =
        ((decodeSignature C c { y with ctxstr := ctx } sig).1, false) := by
      unfold verify
      rw [hs, if_neg (by norm_num), if_pos rfl]
    rw [hv]
    refine ⟨fun h => by simp at h, ?_⟩
    rintro ⟨e1, e2, R, e3, -⟩ -
    exact absurd (d1.mpr ⟨e1, e2, R, e3⟩) hd

/-- C62: incremental verification of an accepted signature string, over the 64-octet prehash of all the chunks. -/
theorem C62_verify_incremental (H : Pkcs1.Hash) (x y : Ctx) (pk : List Byte) (h : decodePublicKey C c x pk = some (y, true)) :
    ∃ Q : EdPoint a d, EdNames (plen C) C.pbits pk Q ∧ ∀ (ctx sig : List Byte) (chunks : List (List Byte)),
      (decodeSignature C c { y with ctxstr := ctx } sig).2 = true →
      ((incVerifyFinal C c H (chunks.foldl update (incInit (decodeSignature C c { y with ctxstr := ctx } sig).1))).2 = true →
        EdValid (plen C) C.pbits (val C.L) B (fun m => H.digest m (plen C * 2)) (edDom (plen C) 1 ctx) pk Q
          (H.digest chunks.flatten 64) sig) ∧
      (EdValid (plen C) C.pbits (val C.L) B (fun m => H.digest m (plen C * 2)) (edDom (plen C) 1 ctx) pk Q
          (H.digest chunks.flatten 64) sig → leNat (sig.drop (plen C)) ≠ 0 →
        (incVerifyFinal C c H (chunks.foldl update (incInit (decodeSignature C c { y with ctxstr := ctx } sig).1))).2 = true) := by
  obtain ⟨Q, hn, hA, hpk, hst⟩ := decodePublicKey_ok hC x y pk h
  refine ⟨Q, hn, fun ctx sig chunks hd => ?_⟩
  rw [foldl_update hC hB]
  exact verify_core hC hB H { y with ctxstr := ctx } pk sig hA hpk hd 0 chunks.flatten 1 (H.digest chunks.flatten 64)

omit hC hB in
/-- The RFC 8032 signature satisfies the RFC 8032 verification equation. -/
theorem edSign_valid {C : EdCurve} {c : Nat} (hC : SigOk C c p a d) {B : EdPoint a d} (hB : BaseOk C c B)
    (H : List Byte → List Byte) (dom pre msg : List Byte) (s : Nat) :
    EdValid (plen C) C.pbits (val C.L) B H dom (edEncode (plen C) (s • B)) (s • B) msg
      (edSign (plen C) (val C.L) B H dom pre (edEncode (plen C) (s • B)) s msg) := by
  have hL := hC.L2
  unfold edSign
  simp only
  generalize hr : leNat (H (dom ++ pre ++ msg)) % val C.L = r
  have hle : (edEncode (plen C) (r • B)).length = plen C := by simp [edEncode, leN]
  generalize hk : leNat (H (dom ++ edEncode (plen C) (r • B) ++ edEncode (plen C) (s • B) ++ msg)) % val C.L = k
  have hSlt : (r + k * s) % val C.L < val C.L := Nat.mod_lt _ (by omega)
  have ht : (edEncode (plen C) (r • B) ++ leN (plen C) ((r + k * s) % val C.L)).take (plen C) = edEncode (plen C) (r • B) := by
    rw [List.take_append_of_le_length (by omega), List.take_of_length_le (by omega)]
  have hdr : (edEncode (plen C) (r • B) ++ leN (plen C) ((r + k * s) % val C.L)).drop (plen C) =
      leN (plen C) ((r + k * s) % val C.L) := by
    rw [List.drop_append_of_le_length (by omega), List.drop_of_length_le (by omega), List.nil_append]
  have hS : leNat (leN (plen C) ((r + k * s) % val C.L)) = (r + k * s) % val C.L := by
    rw [leNat_leN]
    apply Nat.mod_eq_of_lt
    have h1 := hC.Lp
    have h2 := hC.plt
    have hpl := plen_eq C
    have : 2 ^ C.pbits ≤ 256 ^ plen C := by
      rw [show (256 : Nat) = 2 ^ 8 by norm_num, ← Nat.pow_mul]
      exact Nat.pow_le_pow_right (by norm_num) (by omega)
    omega
  refine ⟨?_, ?_, r • B, ?_, ?_⟩
  · rw [List.length_append, hle]; simp [leN]; omega
  · rw [hdr, hS]; exact hSlt
  · rw [ht]; exact C60_encode_names hC _
  · rw [hdr, hS, ht, trim_encode hC, trim_encode hC, hk, smul_mod hC hB, add_smul, mul_smul]

/-- C62: signatures made by the signing function are accepted by the verifying function (Ed448: unless the secret scalar is a multiple
of the order; and unless the number in the signature is zero). -/
theorem C62_sign_verify (H : Pkcs1.Hash) (x y z w : Ctx) (sk pk sig ctx msg : List Byte)
    (hsk : decodePrivateKey C c H x sk = some y)
    (hs : plen C = 32 ∨ edScalar (plen C) (H.digest sk (plen C * 2)) % val C.L ≠ 0)
    (hpk : encodePublicKey C y (plen C) = some pk)
    (hsig : encodeSignature C (sign C c H { y with ctxstr := ctx } msg) (plen C * 2) = some sig)
    (hw : decodePublicKey C c z pk = some (w, true)) (h0 : leNat (sig.drop (plen C)) ≠ 0) :
    (verify C c H (decodeSignature C c { w with ctxstr := ctx } sig).1 msg).2 = true := by
  rw [C62_sign hC hB H x y sk hsk hs] at hsig
  rw [C61_public_key hC hB H x y sk hsk hs] at hpk
  obtain rfl := Option.some.inj hpk
  obtain rfl := Option.some.inj hsig
  obtain ⟨Q, hn, hv⟩ := C62_verify hC hB H z w _ hw
  obtain rfl := C60_names_unique hC hn (C60_encode_names hC _)
  exact (hv ctx _ msg).2 (edSign_valid hC hB _ _ _ _ _) h0

/-- C62: the same for the incremental functions, however the message is cut on either side. -/
theorem C62_sign_verify_incremental (H : Pkcs1.Hash) (x y z w : Ctx) (sk pk sig ctx : List Byte) (chunks chunks' : List (List Byte))
    (hch : chunks.flatten = chunks'.flatten) (hsk : decodePrivateKey C c H x sk = some y)
    (hs : plen C = 32 ∨ edScalar (plen C) (H.digest sk (plen C * 2)) % val C.L ≠ 0)
    (hpk : encodePublicKey C y (plen C) = some pk)
    (hsig : encodeSignature C (incSignFinal C c H (chunks.foldl update (incInit { y with ctxstr := ctx }))) (plen C * 2) = some sig)
    (hw : decodePublicKey C c z pk = some (w, true)) (h0 : leNat (sig.drop (plen C)) ≠ 0) :
    (incVerifyFinal C c H (chunks'.foldl update (incInit (decodeSignature C c { w with ctxstr := ctx } sig).1))).2 = true := by
  rw [C62_sign_incremental hC hB H x y sk hsk hs] at hsig
  rw [C61_public_key hC hB H x y sk hsk hs] at hpk
  obtain rfl := Option.some.inj hpk
  obtain rfl := Option.some.inj hsig
  obtain ⟨Q, hn, hv⟩ := C62_verify_incremental hC hB H z w _ hw
  obtain rfl := C60_names_unique hC hn (C60_encode_names hC _)
  have hval := edSign_valid hC hB (fun m => H.digest m (plen C * 2)) (edDom (plen C) 1 ctx)
    ((H.digest sk (plen C * 2)).drop (plen C)) (H.digest chunks.flatten 64) (edScalar (plen C) (H.digest sk (plen C * 2)))
  have hd := (C62_decode_signature hC { w with ctxstr := ctx } _).1.mpr ⟨hval.1, hval.2.1, hval.2.2.imp fun _ h => h.1⟩
  have := (hv ctx _ chunks' hd).2
  rw [← hch] at this
  exact this hval h0

end


/-- C62: a buffer of less than two points is refused; a larger one gets the same octets at its start. -/
theorem C62_encode_lengths (C : EdCurve) (x : Ctx) (len : Nat) :
    (encodeSignature C x len = none ↔ len < 2 * plen C) ∧
    (2 * plen C ≤ len → encodeSignature C x len = encodeSignature C x (plen C * 2) ∧
      ∀ sig, encodeSignature C x len = some sig → sig.length = 2 * plen C) := by
  unfold encodeSignature
  constructor
  · by_cases h : len < plen C * 2
    · rw [if_pos h]; simp; omega
    · rw [if_neg h]; simp; omega
  · intro h
    rw [if_neg (by omega), if_neg (by omega)]
    refine ⟨rfl, fun sig hs => ?_⟩
    obtain rfl := Option.some.inj hs
    rw [List.length_append, (pointEnc_val C x.R).1, (C06_enclsb _ _).1]; omega

/-! ## C63: state of a context -/

/-- C63: the outcome of a verification is kept: whatever is verified next with the same context, in one call or by finishing an
incremental one, has the same outcome and changes nothing. -/
theorem C63_outcome_cached (C : EdCurve) (c : Nat) (H : Pkcs1.Hash) (x : Ctx) (flags : Byte) (em msg : List Byte) :
    let y := (rfcVerify C c H x flags em).1
    let b := (rfcVerify C c H x flags em).2
    verify C c H y msg = (y, b) ∧ incVerifyFinal C c H y = (y, b) := by
  unfold rfcVerify
  simp only
  split <;> exact ⟨by simp [verify], by simp [incVerifyFinal]⟩

/-- C63: signing changes neither the key nor the context string; it can be repeated. -/
theorem C63_sign_keeps_key (C : EdCurve) (c : Nat) (H : Pkcs1.Hash) (x : Ctx) (flags : Byte) (em : List Byte) :
    let y := rfcSign C c H x flags em
    y.sk = x.sk ∧ y.prefix_ = x.prefix_ ∧ y.s = x.s ∧ y.A = x.A ∧ y.ctxstr = x.ctxstr ∧ y.status = x.status :=
  ⟨rfl, rfl, rfl, rfl, rfl, rfl⟩

/-- C63: signing is deterministic: a second signature of the message is the first one. -/
theorem C63_sign_repeats (C : EdCurve) (c : Nat) (H : Pkcs1.Hash) (x : Ctx) (msg msg' : List Byte) :
    sign C c H (sign C c H x msg') msg = sign C c H x msg := rfl

/-- C63: verification keeps the public key and the context string. -/
theorem C63_verify_keeps_public (C : EdCurve) (c : Nat) (H : Pkcs1.Hash) (x : Ctx) (flags : Byte) (em : List Byte) :
    let y := (rfcVerify C c H x flags em).1
    y.A = x.A ∧ y.ctxstr = x.ctxstr ∧ y.r = x.r := by
  unfold rfcVerify
  simp only
  split <;> exact ⟨rfl, rfl, rfl⟩

/-- C63: the context string has at most 255 octets; other commands and missing buffers are refused. -/
theorem C63_context_string (x y : Ctx) (cmd : Bool) (buf : Option (List Byte)) :
    xctrl x cmd buf = some y ↔ cmd = true ∧ ∃ b, buf = some b ∧ b.length ≤ 255 ∧ y = { x with ctxstr := b } := by
  unfold xctrl
  cases cmd <;> cases buf <;> simp
  rename_i b
  by_cases h : 255 < b.length
  · simp [h]
  · simp [h, eq_comm]

theorem ascii_len : (ascii "SigEd25519 no Ed25519 collisions").length = 32 ∧ (ascii "SigEd448").length = 8 := by decide +kernel

/-- C63: the octets hashed in front of a message determine the flag and the context string (of at most 255 octets), whatever
follows; for Ed25519 if both sides have a flag or a context. -/
theorem C63_domain_separation (b : Nat) (f f' : Byte) (ctx ctx' m m' : List Byte) (h1 : ctx.length ≤ 255) (h2 : ctx'.length ≤ 255)
    (hd : b = 32 → ¬ (f = 0 ∧ ctx = []) ∧ ¬ (f' = 0 ∧ ctx' = [])) (h : edDom b f ctx ++ m = edDom b f' ctx' ++ m') :
    f = f' ∧ ctx = ctx' ∧ m = m' := by
  have key : ∀ s : List Byte, s ++ [f, BitVec.ofNat 8 ctx.length] ++ ctx ++ m = s ++ [f', BitVec.ofNat 8 ctx'.length] ++ ctx' ++ m' →
      f = f' ∧ ctx = ctx' ∧ m = m' := by
    intro s h
    simp only [List.append_assoc, List.append_cancel_left_eq, List.cons_append, List.nil_append, List.cons.injEq] at h
    obtain ⟨e1, e2, e3⟩ := h
    have e4 := congrArg BitVec.toNat e2
    rw [BitVec.toNat_ofNat, BitVec.toNat_ofNat, Nat.mod_eq_of_lt (by omega), Nat.mod_eq_of_lt (by omega)] at e4
    exact ⟨e1, List.append_inj e3 e4⟩
  unfold edDom at h
  by_cases hb : b = 32
  · obtain ⟨d1, d2⟩ := hd hb
    rw [if_pos hb, if_pos hb, if_neg d1, if_neg d2] at h
    exact key _ h
  · rw [if_neg hb, if_neg hb] at h
    exact key _ h

/-- C63: the domain string of Ed25519ctx and Ed25519ph names no point, so that the octets hashed when a plain Ed25519 signature is
verified never begin with it. -/
theorem C63_no_collision :
    (¬ ∃ Q : EdPoint ((aEd25519 : Nat) : ZMod qEd25519) ((dEd25519 : Nat) : ZMod qEd25519),
      EdNames 32 255 (ascii "SigEd25519 no Ed25519 collisions") Q) ∧
    pointDec ed25519 11 (ascii "SigEd25519 no Ed25519 collisions") = none := by
  have h1 : ¬ ∃ Q : EdPoint ((aEd25519 : Nat) : ZMod qEd25519) ((dEd25519 : Nat) : ZMod qEd25519),
      EdNames 32 255 (ascii "SigEd25519 no Ed25519 collisions") Q := by
    rintro ⟨Q, -, hy, -⟩
    generalize hY : leNat (ascii "SigEd25519 no Ed25519 collisions") % 2 ^ 255 = Y at hy
    have hns := EcCheck.nonsquare_of_check (p := qEd25519)
      (d := ((Y ^ 2 + (qEd25519 - 1)) * (dEd25519 * Y ^ 2 + 1)) % qEd25519) (by rw [← hY]; decide +kernel)
    apply hns
    have hon := Q.on
    unfold OnEd at hon
    rw [hy] at hon
    generalize Q.x = X at hon
    rw [C40_ed_curves.1.2.2.2.1] at hon
    have e1 : (((qEd25519 - 1 : Nat)) : ZMod qEd25519) = -1 := by
      rw [Nat.cast_sub (by decide +kernel), ZMod.natCast_self, Nat.cast_one, zero_sub]
    refine ⟨(((dEd25519 : Nat) : ZMod qEd25519) * (Y : ZMod qEd25519) ^ 2 + 1) * X, ?_⟩
    rw [ZMod.natCast_mod, Nat.cast_mul, Nat.cast_add, Nat.cast_add, e1, Nat.cast_mul, Nat.cast_pow, Nat.cast_one]
    generalize ((dEd25519 : Nat) : ZMod qEd25519) = D at *
    linear_combination (D * (Y : ZMod qEd25519) ^ 2 + 1) * hon
  refine ⟨h1, ?_⟩
  have hi := C60_accepts_iff sigOk25519 (buf := ascii "SigEd25519 no Ed25519 collisions") ascii_len.1
  cases h : pointDec ed25519 11 (ascii "SigEd25519 no Ed25519 collisions") with
  | none => rfl
  | some P => rw [h] at hi; exact absurd (hi.mp rfl) h1

/-- C63 fails for the private key: a verification with a context that holds one leaves the exported private key a function of the
signature, not of the key. -/
theorem C63_verify_overwrites_private_key (C : EdCurve) (c : Nat) (H : Pkcs1.Hash) (x : Ctx) (flags : Byte) (em : List Byte) :
    ∃ l, ∀ sk : List Byte, encodePrivateKey C (rfcVerify C c H { x with sk := sk } flags em).1 (plen C) = some l ∧
      (l ≠ sk → encodePrivateKey C (rfcVerify C c H { x with sk := sk } flags em).1 (plen C) ≠ some sk) := by
  refine ⟨pointEnc C (canon C c (edScaleAccumulate C c x.R x.A (scalarOf C c (H.digest (domain C x.ctxstr flags ++ pointEnc C x.R ++
    pointEnc C x.A ++ em) (plen C * 2))))), fun sk => ?_⟩
  have : encodePrivateKey C (rfcVerify C c H { x with sk := sk } flags em).1 (plen C) =
      some (pointEnc C (canon C c (edScaleAccumulate C c x.R x.A (scalarOf C c (H.digest (domain C x.ctxstr flags ++ pointEnc C x.R ++
        pointEnc C x.A ++ em) (plen C * 2)))))) := by
    unfold encodePrivateKey
    rw [if_neg (by simp)]
    unfold rfcVerify
    simp only
    split <;> rfl
  rw [this]
  exact ⟨rfl, fun h e => h (Option.some.inj e)⟩

/-- C63 fails for a refused signature followed by an incremental verification: the initialiser clears the refusal, and the signature
that was in the context before is verified. -/
theorem C63_refusal_forgotten (C : EdCurve) (c : Nat) (H : Pkcs1.Hash) (x : Ctx) (sig : List Byte) (hl : sig.length ≠ 2 * plen C)
    (chunks : List (List Byte)) :
    (decodeSignature C c x sig).2 = false ∧ (decodeSignature C c x sig).1.status = -1 ∧
    incVerifyFinal C c H (chunks.foldl update (incInit (decodeSignature C c x sig).1)) =
      incVerifyFinal C c H (chunks.foldl update (incInit x)) := by
  unfold decodeSignature
  rw [if_pos (by omega)]
  exact ⟨rfl, rfl, rfl⟩

section
variable {C : EdCurve} {c p : Nat} [hp : Fact p.Prime] {a d : ZMod p} (hC : SigOk C c p a d) [hE : EdComplete a d]
  {B : EdPoint a d} (hB : BaseOk C c B)
include hC hB

/-- C63 fails for a repeated incremental verification without decoding the signature again: the first one replaces the point of the
signature by `[S] B`, and the second succeeds only if a multiple of the public key given by a hash is the neutral element. -/
theorem C63_second_incremental (H : Pkcs1.Hash) (x : Ctx) (flags : Byte) (em : List Byte) {A : EdPoint a d} (hA : EPtK 2 c x.A A)
    (chunks : List (List Byte)) :
    let y := (rfcVerify C c H x flags em).1
    (incVerifyFinal C c H (chunks.foldl update (incInit y))).2 = true →
      (leNat (H.digest (edDom (plen C) 1 x.ctxstr ++ pointEnc C y.R ++ pointEnc C x.A ++ H.digest chunks.flatten 64) (plen C * 2)) %
        val C.L) • A = 0 := by
  intro y h
  have e1 : y.A = x.A ∧ y.ctxstr = x.ctxstr ∧ y.r = x.r := C63_verify_keeps_public C c H x flags em
  have e2 : y.R = canon C c (edScaleAccumulate C c (xytzInf c) C.B x.r) := by
    show (rfcVerify C c H x flags em).1.R = _
    unfold rfcVerify
    simp only
    split <;> rfl
  rw [foldl_update hC hB] at h
  have hR : EPtK 2 c y.R (val x.r • B) := by rw [e2]; exact (scaleB hC hB x.r).toE.mono (by norm_num)
  have hv : incVerifyFinal C c H { incInit y with hmsg := (incInit y).hmsg ++ chunks.flatten } =
      rfcVerify C c H { incInit y with hmsg := chunks.flatten } 1 (H.digest chunks.flatten 64) := rfl
  rw [hv] at h
  have := (rfcVerify_spec hC hB H { incInit y with hmsg := chunks.flatten } 1 (H.digest chunks.flatten 64)
    (A := A) (R := val x.r • B) (by show EPtK 2 c y.A A; rw [e1.1]; exact hA) hR).1 h
  have h2 : val x.r • B = val x.r • B + (leNat (H.digest (edDom (plen C) 1 x.ctxstr ++ pointEnc C y.R ++ pointEnc C x.A ++
      H.digest chunks.flatten 64) (plen C * 2)) % val C.L) • A := by
    rw [← e1.1, ← e1.2.1]
    conv_lhs => rw [← e1.2.2]
    exact this
  exact (left_eq_add.mp h2)

end

/-! ## Deviations from RFC 8032 in decoding -/

theorem zero_names (C : EdCurve) {c p : Nat} [Fact p.Prime] {a d : ZMod p} (hC : SigOk C c p a d) [EdComplete a d] (N : Nat)
    (hy : ((N % 2 ^ C.pbits : Nat) : ZMod p) = 1) (hN : N < 2 ^ (8 * plen C - 1)) :
    EdNames (plen C) C.pbits (leN (plen C) N) (0 : EdPoint a d) := by
  have hpl := plen_eq C
  have h256 : 2 ^ (8 * plen C - 1) ≤ 256 ^ plen C := by
    rw [show (256 : Nat) = 2 ^ 8 by norm_num, ← Nat.pow_mul]
    exact Nat.pow_le_pow_right (by norm_num) (by omega)
  refine ⟨by simp [leN], ?_, ?_⟩
  · rw [leNat_leN, Nat.mod_eq_of_lt (a := N) (b := 256 ^ plen C) (hN.trans_le h256), hy]; rfl
  · rw [leNat_leN, Nat.mod_eq_of_lt (a := N) (b := 256 ^ plen C) (hN.trans_le h256), Nat.div_eq_of_lt hN, EdPoint.zero_x]; simp

/-- C60: unlike RFC 8032, `y` may exceed the field: Ed25519 has two octet strings for the neutral element, both accepted. -/
theorem C60_noncanonical_accepted : ∃ b b' : List Byte, b.length = 32 ∧ b'.length = 32 ∧ b ≠ b' ∧
    (pointDec ed25519 11 b).isSome = true ∧ (pointDec ed25519 11 b').isSome = true ∧
    EdNames 32 255 b (0 : EdPoint ((aEd25519 : Nat) : ZMod qEd25519) ((dEd25519 : Nat) : ZMod qEd25519)) ∧
    EdNames 32 255 b' (0 : EdPoint ((aEd25519 : Nat) : ZMod qEd25519) ((dEd25519 : Nat) : ZMod qEd25519)) := by
  have h1 := zero_names ed25519 sigOk25519 1 (by rw [show 1 % 2 ^ ed25519.pbits = 1 by decide +kernel, Nat.cast_one]) (by decide +kernel)
  have h2 := zero_names ed25519 sigOk25519 (qEd25519 + 1)
    (by rw [show (qEd25519 + 1) % 2 ^ ed25519.pbits = qEd25519 + 1 by decide +kernel, Nat.cast_add, ZMod.natCast_self, Nat.cast_one,
      zero_add]) (by decide +kernel)
  exact ⟨leN 32 1, leN 32 (qEd25519 + 1), by simp [leN], by simp [leN], by decide +kernel,
    (C60_accepts_iff sigOk25519 (by simp [leN]; rfl)).mpr ⟨0, h1⟩, (C60_accepts_iff sigOk25519 (by simp [leN]; rfl)).mpr ⟨0, h2⟩, h1, h2⟩

/-- C60: unlike RFC 8032, for Ed448 the low seven bits of the last octet are ignored. -/
theorem C60_ed448_bits_ignored : ∃ b b' : List Byte, b.length = 57 ∧ b'.length = 57 ∧ b ≠ b' ∧ 2 ^ 448 ≤ leNat b' ∧
    (pointDec ed448 17 b).isSome = true ∧ (pointDec ed448 17 b').isSome = true ∧
    EdNames 57 448 b (0 : EdPoint ((aEd448 : Nat) : ZMod qEd448) ((dEd448 : Nat) : ZMod qEd448)) ∧
    EdNames 57 448 b' (0 : EdPoint ((aEd448 : Nat) : ZMod qEd448) ((dEd448 : Nat) : ZMod qEd448)) := by
  have h1 := zero_names ed448 sigOk448 1 (by rw [show 1 % 2 ^ ed448.pbits = 1 by decide +kernel, Nat.cast_one]) (by decide +kernel)
  have h2 := zero_names ed448 sigOk448 (2 ^ 448 + 1)
    (by rw [show (2 ^ 448 + 1) % 2 ^ ed448.pbits = 1 by decide +kernel, Nat.cast_one]) (by decide +kernel)
  exact ⟨leN 57 1, leN 57 (2 ^ 448 + 1), by simp [leN], by simp [leN], by decide +kernel, by decide +kernel,
    (C60_accepts_iff sigOk448 (by simp [leN]; rfl)).mpr ⟨0, h1⟩, (C60_accepts_iff sigOk448 (by simp [leN]; rfl)).mpr ⟨0, h2⟩, h1, h2⟩

/-! ## The premises of the theorems are met -/

/-- The hash function whose every octet is one; a 32-octet private key; a message.  The key is loaded, exported, imported, used to sign
and to verify: the premises of `C61_public_key`, `C61_export_accepted`, `C62_sign_verify` and `C62_sign_verify_incremental` hold. -/
example : ∃ (H : Pkcs1.Hash) (x y w : Ctx) (sk pk sig sig' : List Byte), decodePrivateKey ed25519 11 H x sk = some y ∧
    encodePublicKey ed25519 y (plen ed25519) = some pk ∧ decodePublicKey ed25519 11 x pk = some (w, true) ∧
    encodeSignature ed25519 (sign ed25519 11 H { y with ctxstr := [7] } [1, 2]) (plen ed25519 * 2) = some sig ∧
    leNat (sig.drop (plen ed25519)) ≠ 0 ∧
    encodeSignature ed25519 (incSignFinal ed25519 11 H ([[1], [2]].foldl update (incInit { y with ctxstr := [7] }))) (plen ed25519 * 2) =
      some sig' ∧ leNat (sig'.drop (plen ed25519)) ≠ 0 ∧
    (verify ed25519 11 H (decodeSignature ed25519 11 { w with ctxstr := [7] } sig).1 [1, 2]).2 = true ∧
    (incVerifyFinal ed25519 11 H ([[], [1, 2]].foldl update (incInit (decodeSignature ed25519 11 { w with ctxstr := [7] } sig').1))).2 =
      true := by
  obtain ⟨B, hB⟩ := C60_suites.1.2.1
  have hC := sigOk25519
  obtain ⟨H, hH⟩ : ∃ H : Pkcs1.Hash, H = ⟨64, false, fun _ _ => 1⟩ := ⟨_, rfl⟩
  obtain ⟨x, -⟩ : ∃ x : Ctx, x = ⟨0, [], [], [], [], xytzInf 11, [], xytzInf 11, []⟩ := ⟨_, rfl⟩
  have hd : ∀ m, H.digest m 64 = List.replicate 64 1 := by
    intro m; rw [hH]; simp [Pkcs1.Hash.digest]
  have hl : (List.replicate 32 (5 : Byte)).length = plen ed25519 := rfl
  have hpl : plen ed25519 = 32 := rfl
  have hs : plen ed25519 = 32 ∨ edScalar (plen ed25519) (H.digest (List.replicate 32 (5 : Byte)) (plen ed25519 * 2)) % val ed25519.L ≠ 0 :=
    Or.inl rfl
  have hsk := C61_keygen (C := ed25519) (c := 11) H x _ hl
  have hpk := C61_public_key hC hB H x _ _ hsk hs
  obtain ⟨w, hw, -⟩ := C61_export_accepted hC hB H x _ x _ _ hsk hs hpk
  have hsig := C62_sign hC hB H x _ _ hsk hs [7] [1, 2]
  have hsig' := C62_sign_incremental hC hB H x _ _ hsk hs [7] [[1], [2]]
  have hS : ∀ dom pre A msg, leNat ((edSign (plen ed25519) (val ed25519.L) B (fun m => H.digest m (plen ed25519 * 2)) dom pre A
      (edScalar (plen ed25519) (H.digest (List.replicate 32 (5 : Byte)) (plen ed25519 * 2))) msg).drop (plen ed25519)) ≠ 0 := by
    intro dom pre A msg
    unfold edSign
    simp only
    rw [List.drop_left' (by simp [edEncode, leN]), leNat_leN, show plen ed25519 * 2 = 64 from rfl, hd, hd, hd]
    decide +kernel
  exact ⟨H, x, _, w, _, _, _, _, hsk, hpk, hw, hsig, hS _ _ _ _, hsig', hS _ _ _ _,
    C62_sign_verify hC hB H x _ x w _ _ _ [7] [1, 2] hsk hs hpk hsig hw (hS _ _ _ _),
    C62_sign_verify_incremental hC hB H x _ x w _ _ _ [7] [[1], [2]] [[], [1, 2]] rfl hsk hs hpk hsig' hw (hS _ _ _ _)⟩

/-- Two flags and two context strings that meet the premises of `C63_domain_separation`, for both curves. -/
example : edDom 32 0 [1, 2] ≠ edDom 32 1 [] ∧ edDom 57 0 [] ≠ edDom 57 0 [0] := by decide +kernel

/-- A context string of 255 octets is taken, one of 256 is not. -/
example (x : Ctx) : (xctrl x true (some (List.replicate 255 0))).isSome = true ∧ xctrl x true (some (List.replicate 256 0)) = none := by
  constructor <;> (unfold xctrl; rw [if_pos rfl]; simp only [List.length_replicate]; rfl)

end Props
