import Verif.Model.EcdhSession
import Verif.Spec.EcdhSession
import Verif.Props.Ecdh

/-!
# C97: ECDH key encapsulation contexts over whole histories of calls
-/

namespace Props
open Vlong Ec Ecc Spec EcParam

/-- What a call is: keys and ciphertexts are valid ones, ciphertexts in the long form (C56: compressed ones are not stored rightly), the
scalar of an encapsulation is the first acceptable draw, buffers for secrets are no longer than a coordinate, buffers for points have
one of the two lengths. -/
inductive EcdhReads (C : Curve) {p : Nat} [Fact p.Prime] (a b : ZMod p) : EcdhCall → EcdhOp (shortW a b).Point → Prop
  | takePrivate {enc : List Byte} (hl : enc.length = C.plen) (h1 : 1 ≤ beNat enc) (h2 : beNat enc < val C.n) :
      EcdhReads C a b (.takePrivate enc) (.takePrivate (beNat enc))
  | takePublic {enc : List Byte} {Q : (shortW a b).Point} (h : EncodesPoint C.plen enc Q) (hn : val C.n • Q = 0) :
      EcdhReads C a b (.takePublic enc) (.takePublic Q)
  | encap {n : Nat} {rng : Nat → List Byte} {fuel j : Nat} (hn : n ≤ C.plen) (hr : ∀ i, (rng i).length = C.plen) (hj : j < fuel)
      (h1 : 1 ≤ beNat (rng j)) (h2 : beNat (rng j) < val C.n) (h3 : ∀ i < j, ¬ (1 ≤ beNat (rng i) ∧ beNat (rng i) < val C.n)) :
      EcdhReads C a b (.encap n rng fuel) (.encap n (beNat (rng j)))
  | takeCt {ct : List Byte} {R : (shortW a b).Point} (h : EncodesPoint C.plen ct R) (hl : ct.length = 1 + C.plen * 2)
      (hn : val C.n • R = 0) : EcdhReads C a b (.takeCt ct) (.takeCt R)
  | decap {n : Nat} (hn : n ≤ C.plen) : EcdhReads C a b (.decap n) (.decap n)
  | writeCt {len : Nat} (h : len = 1 + C.plen * 2 ∨ len = 1 + C.plen) : EcdhReads C a b (.writeCt len) (.writeCt len)
  | writePublic {len : Nat} (h : len = 1 + C.plen * 2 ∨ len = 1 + C.plen) : EcdhReads C a b (.writePublic len) (.writePublic len)

/-- What the answers are. -/
def EcdhHolds (plen : Nat) {p : Nat} [Fact p.Prime] {a b : ZMod p} : EcdhAnswer (shortW a b).Point → EcdhOut → Prop
  | .secret n S, o => ∃ full, IsEcdhSecret plen S full ∧ o = .kem (.secret (full.take n))
  | .point len R, o => ∃ e, e.length = len ∧ EncodesPoint plen e R ∧ o = .octets e

theorem length_octetsOf (v : List W) : (octetsOf v).length = 4 * v.length := by
  induction v with
  | nil => rfl
  | cons w l ih => rw [octetsOf, List.flatMap_cons, List.length_append]; simp only [octetsOf] at ih; rw [ih]; simp; omega

section
variable {C : Curve} {c p : Nat} [hp : Fact p.Prime] {a b : ZMod p} (hC : EccCurve C c p a b)

/-- What the members of the context are. -/
structure EcdhInv (C : Curve) (c : Nat) {p : Nat} [Fact p.Prime] {a b : ZMod p} (σ : EcdhTold (shortW a b).Point) (x : Ctx) : Prop where
  dl : x.d.length = c
  kl : x.k.length = c
  sk : ∀ d, σ.sk = some d → val x.d = d ∧ 1 ≤ d ∧ d < val C.n
  pub : ∀ Q o, σ.pub = some (Q, o) → Denotes2 c x.Q Q ∧ Q ≠ 0 ∧ val C.n • Q = 0 ∧ (o = true → Denotes c x.Q Q ∧ val x.Q.z = 1)
  ct : ∀ R o, σ.ct = some (R, o) → Denotes2 c x.R R ∧ R ≠ 0 ∧ val C.n • R = 0 ∧ (o = true → Denotes c x.R R ∧ val x.R.z = 1)

theorem encodes_ne {enc : List Byte} {Q : (shortW a b).Point} (h : EncodesPoint C.plen enc Q) : Q ≠ 0 := by
  obtain ⟨x, y, hh, rfl, -⟩ := h
  exact WeierstrassCurve.Affine.Point.some_ne_zero _

theorem encodes_len {enc : List Byte} {Q : (shortW a b).Point} (h : EncodesPoint C.plen enc Q) : 1 + C.plen ≤ enc.length := by
  obtain ⟨x, y, hh, -, ⟨X, Y, h1, h2, rfl, -⟩ | ⟨t, X, h1, rfl, -⟩⟩ := h <;> simp <;> omega

include hC

theorem ecdh_secret {S : (shortW a b).Point} {v n : Nat} {m : List Byte} (hn : n ≤ C.plen)
    (h : ∃ X Y h, S = .some X Y h ∧ v ≤ p ∧ (v : ZMod p) = X ∧ (X ≠ 0 → v = X.val)) :
    EcdhHolds C.plen (.secret n S) (.kem (.secret ((beN C.plen v ++ m).take n))) := by
  obtain ⟨X, Y, hh, rfl, h1, h2, h3⟩ := h
  have hv : beNat (beN C.plen v) = v := by
    rw [beNat_beN, Nat.mod_eq_of_lt]
    have := hC.plt
    rw [show (256 : Nat) = 2 ^ 8 from rfl, ← pow_mul]; omega
  refine ⟨beN C.plen v, ⟨length_beN _ _, X, Y, hh, rfl, ?_, ?_, ?_⟩, ?_⟩
  · rw [hv]; exact h2
  · rw [hv]; exact h1
  · rw [hv]; exact h3
  · rw [List.take_append_of_le_length (by rw [length_beN]; exact hn)]

theorem enc_k_length {x y : Ctx} {n fuel : Nat} {rng : Nat → List Byte} {o : KemOut} (hr : ∀ i, (rng i).length = C.plen)
    (h : ecdhEnc C c x n rng fuel = some (y, o)) : y.k.length = c := by
  unfold ecdhEnc at h
  cases e : encLoop C c x.Q rng fuel 0 with
  | none => rw [e] at h; cases h
  | some kR =>
    obtain ⟨k, R⟩ := kR
    obtain ⟨j, -, -, hk, -⟩ := (encLoop_spec hC x.Q hr fuel 0).2 k R e
    rw [e] at h
    simp only at h
    split at h <;> (simp only [Option.some.injEq, Prod.mk.injEq] at h; rw [← h.1]; exact hk)

theorem ecdh_run (hA : AliasOk C c) {G : (shortW a b).Point} (hG : Denotes c C.G G) {calls : List EcdhCall}
    {ops : List (EcdhOp (shortW a b).Point)} (hR : List.Forall₂ (EcdhReads C a b) calls ops) : ∀ (σ : EcdhTold (shortW a b).Point) (x : Ctx)
    (ans : List (EcdhAnswer (shortW a b).Point)), EcdhInv C c σ x → ecdhSession G σ ops = some ans →
    ∃ outs, ecdhRun C c x calls = some outs ∧ List.Forall₂ (EcdhHolds C.plen) ans outs := by
  have ho := base_order hC hG
  have hGn : val C.n • G = 0 := by rw [← ho]; exact addOrderOf_nsmul_eq_zero G
  have hpl := plen_le4 hC
  induction hR with
  | nil =>
    intro σ x ans I hs
    cases hs
    exact ⟨[], rfl, .nil⟩
  | @cons call op calls ops hc hR ih =>
    intro σ x ans I hs
    cases hc with
    | @takePrivate enc hl h1 h2 =>
      obtain ⟨g1, g2⟩ := C51_decode_private hC hG x enc
      cases hd : decodePrivateKey C c x enc with
      | none => exact absurd hd (g1.mpr ⟨hl, h1, h2⟩)
      | some y =>
        obtain ⟨-, e1, e2, e3, e4⟩ := g2 y hd
        have ek : y.k = x.k ∧ y.R = x.R := by
          unfold decodePrivateKey at hd
          split at hd
          · cases hd
          · cases hd; exact ⟨rfl, rfl⟩
        simp only [ecdhRun, hd]
        refine ih _ y ans ⟨e1, by rw [ek.1]; exact I.kl, ?_, ?_, by rw [ek.2]; exact I.ct⟩ hs
        · intro d h; cases h; exact ⟨e2, h1, h2⟩
        · intro Q o h; cases h
          exact ⟨Denotes2.of e3, smul_ne hC ho h1 h2, by rw [← mul_nsmul', mul_nsmul, hGn, nsmul_zero], fun _ => ⟨e3, e4⟩⟩
    | @takePublic enc Q h hn =>
      obtain ⟨y, ok, e1, -, e2, e3⟩ := C50_decode hC x enc (encodes_len h)
      have hok := e2.mpr ⟨Q, h, hn⟩
      subst hok
      have ek : y.k = x.k ∧ y.R = x.R ∧ y.d = x.d := by
        unfold decodePublicKey at e1
        split at e1
        · cases e1
        · cases e1
        · cases e1; exact ⟨rfl, rfl, rfl⟩
      simp only [ecdhRun, e1]
      refine ih _ y ans ⟨by rw [ek.2.2]; exact I.dl, by rw [ek.1]; exact I.kl, by rw [ek.2.2]; exact I.sk, ?_, by rw [ek.2.1]; exact I.ct⟩ hs
      intro Q' o hh; cases hh
      exact ⟨(e3 rfl Q h).1, encodes_ne h, hn, fun hh => by cases hh⟩
    | @encap n rng fuel j hn hr hj h1 h2 h3 =>
      simp only [ecdhSession] at hs
      split at hs
      · rename_i Q o hQ
        rw [Option.map_eq_some_iff] at hs
        obtain ⟨ans', g1, rfl⟩ := hs
        obtain ⟨i1, i2, i3, i4⟩ := I.pub Q o hQ
        obtain ⟨f1, f2⟩ := C55_enc hC x n hr fuel hG i1 i2 i3 I.dl
        cases he : ecdhEnc C c x n rng fuel with
        | none => exact absurd ⟨h1, h2⟩ (f1.mp he j hj)
        | some yo =>
          obtain ⟨y, out⟩ := yo
          obtain ⟨j', -, k1, k2, k3, k4, k5, -, X, Y, hns, v, l1, l2, l3, l4, l5, l6, -⟩ := f2 y out he
          have hjj : j' = j := by
            rcases lt_trichotomy j' j with e | e | e
            · exact absurd k1 (h3 j' e)
            · exact e
            · exact absurd ⟨h1, h2⟩ (k2 j e)
          subst hjj
          have hdl : y.d.length = c := by
            have := congrArg List.length l5
            rw [length_octetsOf, List.length_append, length_beN, List.length_drop, length_octetsOf, I.dl] at this
            omega
          obtain ⟨outs, r1, r2⟩ := ih _ y ans' ⟨hdl, enc_k_length hC hr he, (fun _ hh => by cases hh), by rw [k5]; exact I.pub,
            (fun R o hh => by
              cases hh
              exact ⟨Denotes2.of k3, smul_ne hC ho h1 h2, by rw [← mul_nsmul', mul_nsmul, hGn, nsmul_zero], fun _ => ⟨k3, k4⟩⟩)⟩ g1
          refine ⟨.kem out :: outs, by simp only [ecdhRun, he, r1, Option.map_some], .cons ?_ r2⟩
          rw [l6 (by omega)]
          exact ecdh_secret hC hn ⟨X, Y, hns, l1, l2, l3, l4⟩
      · cases hs
    | @takeCt ct R h hl hn =>
      obtain ⟨y, ok, e1, -, e2, e3, e4, e5, e6⟩ := C55_decode_ciphertext hC hA x ct (by omega)
      have hok := e5.mpr ⟨R, h⟩
      subst hok
      simp only [ecdhRun, e1]
      refine ih _ y ans ⟨by rw [e2]; exact I.dl, by rw [e3]; exact I.kl, by rw [e2]; exact I.sk, by rw [e4]; exact I.pub, ?_⟩ hs
      intro R' o hh; cases hh
      exact ⟨e6 rfl hl R h, encodes_ne h, hn, fun hh => by cases hh⟩
    | @decap n hn =>
      simp only [ecdhSession] at hs
      split at hs
      · rename_i d R o hsk hct
        rw [Option.map_eq_some_iff] at hs
        obtain ⟨ans', g1, rfl⟩ := hs
        obtain ⟨i1, i2, i3, -⟩ := I.ct R o hct
        obtain ⟨s1, s2, s3⟩ := I.sk d hsk
        obtain ⟨d1, d2, -, d3, -, X, Y, hns, v, l1, l2, l3, l4, l5, -⟩ := C55_dec hC x n i1 i2 i3 (by rw [s1]; exact s2) (by rw [s1]; exact s3) I.kl
        obtain ⟨outs, r1, r2⟩ := ih _ _ ans' ⟨by rw [d1]; exact I.dl, d3, by rw [d1]; exact I.sk, by rw [d2]; exact I.pub,
          (fun _ _ hh => by cases hh)⟩ g1
        refine ⟨.kem (ecdhDec C c x n).2 :: outs, by simp only [ecdhRun, r1, Option.map_some], .cons ?_ r2⟩
        rw [l5 (by omega)]
        rw [s1] at l1
        exact ecdh_secret hC hn ⟨X, Y, hns, l1, l2, l3, l4⟩
      · cases hs
    | @writeCt len h =>
      simp only [ecdhSession] at hs
      split at hs
      · rename_i R hct
        rw [Option.map_eq_some_iff] at hs
        obtain ⟨ans', g1, rfl⟩ := hs
        obtain ⟨-, i2, -, i4⟩ := I.ct R true hct
        obtain ⟨e, e1, e2, e3⟩ := encode_ok hC (i4 rfl).1 (i4 rfl).2 i2 len h
        obtain ⟨outs, r1, r2⟩ := ih σ x ans' I g1
        exact ⟨.octets e :: outs, by simp only [ecdhRun, ecdhEncodeCiphertext, e1, r1, Option.map_some], .cons ⟨e, e2, e3, rfl⟩ r2⟩
      · cases hs
    | @writePublic len h =>
      simp only [ecdhSession] at hs
      split at hs
      · rename_i Q hpub
        rw [Option.map_eq_some_iff] at hs
        obtain ⟨ans', g1, rfl⟩ := hs
        obtain ⟨-, i2, -, i4⟩ := I.pub Q true hpub
        obtain ⟨e, e1, e2, e3⟩ := encode_ok hC (i4 rfl).1 (i4 rfl).2 i2 len h
        obtain ⟨outs, r1, r2⟩ := ih σ x ans' I g1
        exact ⟨.octets e :: outs, by simp only [ecdhRun, encodePublicKey, e1, r1, Option.map_some], .cons ⟨e, e2, e3, rfl⟩ r2⟩
      · cases hs

/-- C97: on one ECDH context, from any initial contents: for every history of valid calls in which each call has been given what it
needs, every call succeeds and gives the answer of the history. -/
theorem C97_history (hA : AliasOk C c) {G : (shortW a b).Point} (hG : Denotes c C.G G) {calls : List EcdhCall}
    {ops : List (EcdhOp (shortW a b).Point)} (hR : List.Forall₂ (EcdhReads C a b) calls ops) {ans : List (EcdhAnswer (shortW a b).Point)}
    (hs : ecdhSession G ⟨none, none, none⟩ ops = some ans) (x : Ctx) (hd : x.d.length = c) (hk : x.k.length = c) :
    ∃ outs, ecdhRun C c x calls = some outs ∧ List.Forall₂ (EcdhHolds C.plen) ans outs :=
  ecdh_run hC hA hG hR _ x ans ⟨hd, hk, (fun _ h => by cases h), (fun _ _ h => by cases h), (fun _ _ h => by cases h)⟩ hs

end

/-- C97 on the three curves of the library. -/
theorem C97_curves {calls : List EcdhCall} (x : Ctx) :
    (∀ (G : (shortW (-3 : ZMod q256) ((b256 : Nat) : ZMod q256)).Point) ops ans, Denotes 11 secp256r1.G G →
      List.Forall₂ (EcdhReads secp256r1 (-3 : ZMod q256) ((b256 : Nat) : ZMod q256)) calls ops →
      ecdhSession G ⟨none, none, none⟩ ops = some ans → x.d.length = 11 → x.k.length = 11 →
      ∃ outs, ecdhRun secp256r1 11 x calls = some outs ∧ List.Forall₂ (EcdhHolds 32) ans outs) ∧
    (∀ (G : (shortW (-3 : ZMod q384) ((b384 : Nat) : ZMod q384)).Point) ops ans, Denotes 15 secp384r1.G G →
      List.Forall₂ (EcdhReads secp384r1 (-3 : ZMod q384) ((b384 : Nat) : ZMod q384)) calls ops →
      ecdhSession G ⟨none, none, none⟩ ops = some ans → x.d.length = 15 → x.k.length = 15 →
      ∃ outs, ecdhRun secp384r1 15 x calls = some outs ∧ List.Forall₂ (EcdhHolds 48) ans outs) ∧
    (∀ (G : (shortW (-3 : ZMod qSM2) ((bSM2 : Nat) : ZMod qSM2)).Point) ops ans, Denotes 11 curveSM2.G G →
      List.Forall₂ (EcdhReads curveSM2 (-3 : ZMod qSM2) ((bSM2 : Nat) : ZMod qSM2)) calls ops →
      ecdhSession G ⟨none, none, none⟩ ops = some ans → x.d.length = 11 → x.k.length = 11 →
      ∃ outs, ecdhRun curveSM2 11 x calls = some outs ∧ List.Forall₂ (EcdhHolds 32) ans outs) :=
  ⟨fun _ _ _ hG hR hs hd hk => C97_history eccCurve256 alias256 hG hR hs x hd hk,
    fun _ _ _ hG hR hs hd hk => C97_history eccCurve384 alias384 hG hR hs x hd hk,
    fun _ _ _ hG hR hs hd hk => C97_history eccCurveSM2 aliasSM2 hG hR hs x hd hk⟩

/-- A history: a private key and its public key, a ciphertext opened, another one opened, a public key taken, a secret encapsulated, its
ciphertext written, a private key taken and that ciphertext opened. -/
example : ∃ (G : (shortW (-3 : ZMod qSM2) ((bSM2 : Nat) : ZMod qSM2)).Point) (ct : List Byte), Denotes 11 curveSM2.G G ∧
    List.Forall₂ (EcdhReads curveSM2 (-3 : ZMod qSM2) ((bSM2 : Nat) : ZMod qSM2))
      [.takePrivate (beN 32 5), .writePublic 33, .takeCt ct, .decap 32, .takeCt ct, .decap 16, .takePublic ct, .encap 32 (fun _ => beN 32 7) 1,
        .writeCt 65, .takePrivate (beN 32 5), .decap 32]
      [.takePrivate 5, .writePublic 33, .takeCt G, .decap 32, .takeCt G, .decap 16, .takePublic G, .encap 32 7, .writeCt 65, .takePrivate 5,
        .decap 32] ∧
    ecdhSession G ⟨none, none, none⟩ [.takePrivate 5, .writePublic 33, .takeCt G, .decap 32, .takeCt G, .decap 16, .takePublic G, .encap 32 7,
        .writeCt 65, .takePrivate 5, .decap 32] =
      some [.point 33 (5 • G), .secret 32 (5 • G), .secret 16 (5 • G), .secret 32 (7 • G), .point 65 (7 • G), .secret 32 (5 • 7 • G)] := by
  obtain ⟨G, hG, -⟩ := C40_base_point.2.2
  have hord := base_order eccCurveSM2 hG
  have hn : val curveSM2.n • G = 0 := by rw [← hord]; exact addOrderOf_nsmul_eq_zero G
  have henc : EncodesPoint curveSM2.plen (4#8 :: (beN 32 gxSM2 ++ beN 32 gySM2)) G := by
    have hc := hG.2.2
    rcases G with _ | ⟨X, Y, hns⟩
    · exact absurd hc.2.2 (by rw [show val curveSM2.G.z = 1 by decide +kernel]; simp)
    · have hx := hc.2.1
      have hy := hc.2.2
      rw [show val curveSM2.G.z = 1 by decide +kernel, show val curveSM2.G.x = gxSM2 by decide +kernel] at hx
      rw [show val curveSM2.G.z = 1 by decide +kernel, show val curveSM2.G.y = gySM2 by decide +kernel] at hy
      refine ⟨X, Y, hns, rfl, Or.inl ⟨_, _, length_beN _ _, length_beN _ _, rfl, ?_, ?_⟩⟩
      · rw [beNat_beN, Nat.mod_eq_of_lt (by decide +kernel), hx]; simp
      · rw [beNat_beN, Nat.mod_eq_of_lt (by decide +kernel), hy]; simp
  have hlen : (4#8 :: (beN 32 gxSM2 ++ beN 32 gySM2)).length = 1 + curveSM2.plen * 2 := by
    rw [List.length_cons, List.length_append, length_beN, length_beN]; decide
  have hk : EcdhReads curveSM2 (-3 : ZMod qSM2) ((bSM2 : Nat) : ZMod qSM2) (.takePrivate (beN 32 5)) (.takePrivate 5) := by
    have := EcdhReads.takePrivate (C := curveSM2) (a := (-3 : ZMod qSM2)) (b := ((bSM2 : Nat) : ZMod qSM2)) (enc := beN 32 5) (length_beN _ _)
      (by decide +kernel) (by decide +kernel)
    rwa [show beNat (beN 32 5) = 5 by decide +kernel] at this
  have he : EcdhReads curveSM2 (-3 : ZMod qSM2) ((bSM2 : Nat) : ZMod qSM2) (.encap 32 (fun _ => beN 32 7) 1) (.encap 32 7) := by
    have := EcdhReads.encap (C := curveSM2) (a := (-3 : ZMod qSM2)) (b := ((bSM2 : Nat) : ZMod qSM2)) (n := 32) (rng := fun _ => beN 32 7)
      (fuel := 1) (j := 0) (by decide) (fun _ => length_beN _ _) (by decide) (by decide +kernel) (by decide +kernel) (fun i hi => by omega)
    rwa [show beNat (beN 32 7) = 7 by decide +kernel] at this
  exact ⟨G, _, hG, .cons hk (.cons (.writePublic (Or.inr (by decide))) (.cons (.takeCt henc hlen hn) (.cons (.decap (by decide))
    (.cons (.takeCt henc hlen hn) (.cons (.decap (by decide)) (.cons (.takePublic henc hn) (.cons he
    (.cons (.writeCt (Or.inl (by decide))) (.cons hk (.cons (.decap (by decide)) .nil)))))))))), rfl⟩

end Props
