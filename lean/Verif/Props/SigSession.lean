import Verif.Spec.SigSession
import Verif.Model.SigSession
import Verif.Props.EccSig

/-!
# ECDSA contexts over histories of calls: C93
-/

namespace Props
open Vlong Ec Ecc Spec EcParam

/-- What the octets of a call mean: the key octets encode a point of order dividing `n`, the signature starts with the DER encoding
of two numbers that fit the context (something may follow). -/
inductive Reads (C : Curve) (c : Nat) {p : Nat} [Fact p.Prime] {a b : ZMod p} : EcdsaCall → SigOp (shortW a b).Point → Prop
  | key {enc : List Byte} {Q : (shortW a b).Point} (h : EncodesPoint C.plen enc Q) (hn : val C.n • Q = 0) : Reads C c (.key enc) (.key Q)
  | load {r s : Nat} {enc : List Byte} (rest : List Byte) (h : IsDerSig r s enc) (hr : r < 2 ^ (32 * c)) (hs : s < 2 ^ (32 * c)) :
      Reads C c (.load (enc ++ rest)) (.load r s)
  | verify (m : List Byte) : Reads C c (.verify m) (.verify m)
  | start : Reads C c .start .start
  | feed (d : List Byte) : Reads C c (.feed d) (.feed d)
  | final : Reads C c .final .final

section
variable {C : Curve} {c p : Nat} [hp : Fact p.Prime] {a b : ZMod p} (hC : EccCurve C c p a b)

open Classical in
/-- The question asked: is `(r, s)` an accepted signature of the message under `Q`. -/
noncomputable def ecdsaAnswer (C : Curve) (H : Pkcs1.Hash) {p : Nat} [Fact p.Prime] {a b : ZMod p} (G : (shortW a b).Point)
    (Q : (shortW a b).Point) (r s : Nat) (m : List Byte) : Bool :=
  decide (EcdsaAccepted (val C.n) G Q (beNat (H.digest m (min C.plen H.hlen))) r s)

theorem ecdsaAnswer_iff (H : Pkcs1.Hash) (G Q : (shortW a b).Point) (r s : Nat) (m : List Byte) : ecdsaAnswer C H G Q r s m = true ↔
    EcdsaAccepted (val C.n) G Q (beNat (H.digest m (min C.plen H.hlen))) r s := by
  unfold ecdsaAnswer
  simp

/-- The context holds what it has been told. -/
structure Holds (c : Nat) (x : Ctx) (σ : SigState (shortW a b).Point) : Prop where
  key : Denotes2 c x.Q σ.key
  k0 : σ.key ≠ 0
  rl : x.r.length = c
  sl : x.s.length = c
  r : val x.r = σ.r
  s : val x.s = σ.s
  v1 : σ.verdict = some true → x.status = 1
  v2 : σ.verdict = some false → x.status = -1
  v3 : σ.verdict = none → x.status ≠ 1 ∧ x.status ≠ -1
  m : ∀ m, σ.msg = some m → x.hmsg = m

theorem enc_ne {plen : Nat} {enc : List Byte} {Q : (shortW a b).Point} (h : EncodesPoint plen enc Q) : Q ≠ 0 := by
  obtain ⟨X, Y, h, rfl, -⟩ := h
  exact WeierstrassCurve.Affine.Point.some_ne_zero _

theorem enc_len {plen : Nat} {enc : List Byte} {Q : (shortW a b).Point} (h : EncodesPoint plen enc Q) : 1 + plen ≤ enc.length := by
  obtain ⟨X, Y, h, rfl, h | h⟩ := h
  · obtain ⟨A, B, h1, h2, rfl, -⟩ := h
    simp; omega
  · obtain ⟨t, A, h1, rfl, -⟩ := h
    simp; omega

include hC

theorem fresh_answer (H : Pkcs1.Hash) {G : (shortW a b).Point} (hG : Denotes c C.G G) {x : Ctx} {σ : SigState (shortW a b).Point}
    (h : Holds c x σ) (hv : σ.verdict = none) (m : List Byte) :
    (ecdsaVerify C c H x m).2 = ecdsaAnswer C H G σ.key σ.r σ.s m ∧
      Holds c (ecdsaVerify C c H x m).1 { σ with verdict := some (ecdsaAnswer C H G σ.key σ.r σ.s m), msg := none } := by
  obtain ⟨g1, g2, g3, g4, g5⟩ := C52_verify hC H x m (h.v3 hv) hG h.key h.k0 h.rl h.sl
  have e : (ecdsaVerify C c H x m).2 = ecdsaAnswer C H G σ.key σ.r σ.s m := by
    rw [Bool.eq_iff_iff]
    rw [ecdsaAnswer_iff, ← h.r, ← h.s]
    constructor
    · intro ha
      refine ⟨C52_accepted_valid hC H x m (h.v3 hv) hG h.key h.k0 h.rl h.sl ha, ?_⟩
      obtain ⟨-, k2, -, -, X, Y, hn, k5, k6⟩ := g1.mp ha
      intro X' Y' hn' k'
      rw [k5] at k'
      obtain ⟨rfl, -⟩ := WeierstrassCurve.Affine.Point.some.inj k'
      omega
    · intro ⟨ha, hb⟩
      exact C52_valid_accepted hC H x m (h.v3 hv) hG h.key h.k0 h.rl h.sl ha hb
  refine ⟨e, ?_⟩
  rw [← e]
  refine ⟨by rw [g5]; exact h.key, h.k0, by rw [g3]; exact h.rl, by rw [g4]; exact h.sl, by rw [g3]; exact h.r,
    by rw [g4]; exact h.s, ?_, ?_, ?_, ?_⟩
  · intro hh
    rw [g2, Option.some.inj hh]; rfl
  · intro hh
    rw [g2, Option.some.inj hh]; rfl
  · intro hh; cases hh
  · intro m' hh; cases hh

theorem run_session (H : Pkcs1.Hash) {G : (shortW a b).Point} (hG : Denotes c C.G G) {calls : List EcdsaCall}
    {ops : List (SigOp (shortW a b).Point)} (hR : List.Forall₂ (Reads C c) calls ops) : ∀ (x : Ctx) (σ : SigState (shortW a b).Point),
    Holds c x σ → ∀ ans, sigSession (ecdsaAnswer C H G) σ ops = some ans → ecdsaRun C c H x calls = some ans := by
  induction hR with
  | nil => intro x σ h ans hs; simpa [sigSession, ecdsaRun] using hs
  | @cons call op calls ops hc hR ih =>
    intro x σ h ans hs
    cases hc with
    | @key enc Q hk hn =>
      obtain ⟨y, ok, g1, g2, g3, g4⟩ := C50_decode hC x enc (enc_len hk)
      have hok : ok = true := g3.mpr ⟨Q, hk, hn⟩
      subst hok
      have hy : y = { x with status := 0, Q := y.Q } := by
        unfold decodePublicKey at g1
        split at g1 <;> simp_all
        rw [← g1]
      simp only [sigSession] at hs
      simp only [ecdsaRun, g1]
      refine ih y _ ?_ ans hs
      refine ⟨(g4 rfl Q hk).1, enc_ne hk, by rw [hy]; exact h.rl, by rw [hy]; exact h.sl, by rw [hy]; exact h.r, by rw [hy]; exact h.s,
        (fun hh => by cases hh), (fun hh => by cases hh), (fun _ => by rw [g2]; decide), ?_⟩
      rw [hy]; exact h.m
    | @load r s enc rest hd hr hs' =>
      obtain ⟨y, g1, g2, -, g4, g5, g6, g7, g8⟩ := C54_decode c x hd rest
      have hm : y.hmsg = x.hmsg := by
        unfold ecdsaDecodeSignature at g1
        split at g1 <;> simp_all
        rw [← g1.1]
      simp only [sigSession] at hs
      simp only [ecdsaRun, g1]
      refine ih y _ ?_ ans hs
      exact ⟨by rw [g4]; exact h.key, h.k0, g5, g6, by rw [g7, Nat.mod_eq_of_lt hr], by rw [g8, Nat.mod_eq_of_lt hs'],
        (fun hh => by cases hh), (fun hh => by cases hh), (fun _ => by rw [g2]; decide), by rw [hm]; exact h.m⟩
    | verify m =>
      cases hv : σ.verdict with
      | none =>
        obtain ⟨g1, g2⟩ := fresh_answer hC H hG h hv m
        simp only [sigSession, hv, Option.map_eq_some_iff] at hs
        obtain ⟨ans', k1, rfl⟩ := hs
        simp only [ecdsaRun, ih _ _ g2 ans' k1, g1, Option.map_some]
      | some v =>
        have hc : ecdsaVerify C c H x m = (x, v) := by
          cases v
          · exact (C52_outcome_cached H x m).2 (h.v2 hv)
          · exact (C52_outcome_cached H x m).1 (h.v1 hv)
        simp only [sigSession, hv, Option.map_eq_some_iff] at hs
        obtain ⟨ans', k1, rfl⟩ := hs
        simp only [ecdsaRun, hc, ih _ _ h ans' k1, Option.map_some]
    | start =>
      simp only [sigSession] at hs
      simp only [ecdsaRun]
      refine ih _ _ ?_ ans hs
      exact ⟨h.key, h.k0, h.rl, h.sl, h.r, h.s, (fun hh => by cases hh), (fun hh => by cases hh), (fun _ => by simp [ecdsaIncInit]),
        fun m hm => Option.some.inj hm⟩
    | feed d =>
      cases hm : σ.msg with
      | none => simp [sigSession, hm] at hs
      | some m =>
        simp only [sigSession, hm] at hs
        simp only [ecdsaRun]
        refine ih _ _ ?_ ans hs
        refine ⟨h.key, h.k0, h.rl, h.sl, h.r, h.s, h.v1, h.v2, h.v3, fun m' hm' => ?_⟩
        rw [← Option.some.inj hm', ← h.m m hm]; rfl
    | final =>
      cases hv : σ.verdict with
      | none =>
        cases hm : σ.msg with
        | none => simp [sigSession, hv, hm] at hs
        | some m =>
          have hf : ecdsaIncVerifyFinal C c H x = ecdsaVerify C c H x m := by
            unfold ecdsaIncVerifyFinal ecdsaVerify
            rw [← h.m m hm]
          obtain ⟨g1, g2⟩ := fresh_answer hC H hG h hv m
          simp only [sigSession, hv, hm, Option.map_eq_some_iff] at hs
          obtain ⟨ans', k1, rfl⟩ := hs
          simp only [ecdsaRun, hf, ih _ _ g2 ans' k1, g1, Option.map_some]
      | some v =>
        have hc : ecdsaIncVerifyFinal C c H x = (x, v) := by
          unfold ecdsaIncVerifyFinal
          cases v
          · rw [if_neg (by rw [h.v2 hv]; decide), if_pos (h.v2 hv)]
          · rw [if_pos (h.v1 hv)]
        simp only [sigSession, hv, Option.map_eq_some_iff] at hs
        obtain ⟨ans', k1, rfl⟩ := hs
        simp only [ecdsaRun, hc, ih _ _ h ans' k1, Option.map_some]

/-- C93: a verification context, from any initial contents, takes a key and a signature; then, for every further history of keys,
signatures, messages in memory and messages in pieces, in any order: every verification answers whether the last signature is one of
its message under the last key, or repeats the verdict given since. -/
theorem C93_verifier (H : Pkcs1.Hash) {G : (shortW a b).Point} (hG : Denotes c C.G G) (x : Ctx) {Q : (shortW a b).Point} {r s : Nat}
    {call₁ call₂ : EcdsaCall} (h₁ : Reads C c call₁ (.key Q)) (h₂ : Reads C c call₂ (.load (K := (shortW a b).Point) r s))
    {calls : List EcdsaCall} {ops : List (SigOp (shortW a b).Point)} (hR : List.Forall₂ (Reads C c) calls ops) (ans : List Bool)
    (hs : sigSession (ecdsaAnswer C H G) ⟨Q, r, s, none, none⟩ ops = some ans) :
    ecdsaRun C c H x (call₁ :: call₂ :: calls) = some ans := by
  cases h₁ with
  | @key enc _ hk hn =>
    cases h₂ with
    | @load _ _ senc rest hd hr hs' =>
      obtain ⟨y, ok, g1, g2, g3, g4⟩ := C50_decode hC x enc (enc_len hk)
      have hok : ok = true := g3.mpr ⟨Q, hk, hn⟩
      subst hok
      obtain ⟨z, k1, k2, -, k4, k5, k6, k7, k8⟩ := C54_decode c y hd rest
      simp only [ecdsaRun, g1, k1]
      refine run_session hC H hG hR z _ ?_ ans hs
      exact ⟨by rw [k4]; exact (g4 rfl Q hk).1, enc_ne hk, k5, k6, by rw [k7, Nat.mod_eq_of_lt hr], by rw [k8, Nat.mod_eq_of_lt hs'],
        (fun hh => by cases hh), (fun hh => by cases hh), (fun _ => by rw [k2]; decide), (fun m hm => by cases hm)⟩

/-- What a signing call is, but for the bound on the number of draws. -/
inductive SignReads : EcdsaSignCall → SignOp (Nat → List Byte) → Prop
  | sign (m : List Byte) (rng : Nat → List Byte) (fuel : Nat) : SignReads (.sign m rng fuel) (.sign m rng)
  | start : SignReads .start .start
  | feed (d : List Byte) : SignReads (.feed d) (.feed d)
  | final (rng : Nat → List Byte) (fuel : Nat) : SignReads (.final rng fuel) (.final rng)

theorem signer_aux (H : Pkcs1.Hash) {G : (shortW a b).Point} (hG : Denotes c C.G G) {calls : List EcdsaSignCall}
    {ops : List (SignOp (Nat → List Byte))} (hR : List.Forall₂ SignReads calls ops) : ∀ (x : Ctx) (om : Option (List Byte)),
    x.d.length = c → x.status ≠ 2 → (∀ m, om = some m → x.hmsg = m) → ∀ ms outs, signedMessages om ops = some ms →
    (∀ mt ∈ ms, ∀ i, (mt.2 i).length = C.plen) → ecdsaSignRun C c H x calls = some outs →
    List.Forall₂ (fun mt o => ∃ j, EcdsaMade (val C.n) G (val x.d) (beNat (H.digest mt.1 (min C.plen H.hlen))) (beNat (mt.2 j))
      (val o.1) (val o.2)) ms outs := by
  induction hR with
  | nil =>
    intro x om hd hst hm ms outs h1 h2 h3
    cases om <;> simp_all [signedMessages, ecdsaSignRun]
  | @cons call op calls ops hc hR ih =>
    intro x om hd hst hm ms outs h1 h2 h3
    have made : ∀ (m : List Byte) (rng : Nat → List Byte) (fuel : Nat) (x' y : Ctx), x'.d = x.d → x'.status ≠ 2 →
        (∀ i, (rng i).length = C.plen) → ecdsaSign C c H x' m rng fuel = some y → (y.d = x.d ∧ y.status = 1) ∧
        ∃ j, EcdsaMade (val C.n) G (val x.d) (beNat (H.digest m (min C.plen H.hlen))) (beNat (rng j)) (val y.r) (val y.s) := by
      intro m rng fuel x' y e0 e1 hr e2
      obtain ⟨j, -, X, Y, hn, k1, k2, k3, -, k4, k5, -, -, -, k6, k7, -, k8, k9, k10⟩ :=
        C53_sign hC H x' y m e1 hr (by rw [e0]; exact hd) hG fuel e2
      rw [e0] at k10 k5
      exact ⟨⟨k5, k4⟩, j, k2, k3, k8, k9, X, Y, hn, k1, k7, k6, k10⟩
    cases hc with
    | sign m rng fuel =>
      have h1' : (signedMessages none ops).map ((m, rng) :: ·) = some ms := by
        cases om <;> exact h1
      rw [Option.map_eq_some_iff] at h1'
      obtain ⟨ms', g1, rfl⟩ := h1'
      simp only [ecdsaSignRun] at h3
      split at h3
      · cases h3
      · rename_i y hy
        rw [Option.map_eq_some_iff] at h3
        obtain ⟨outs', g2, rfl⟩ := h3
        obtain ⟨⟨e1, e2⟩, e3⟩ := made m rng fuel x y rfl hst (h2 (m, rng) (by simp)) hy
        refine .cons e3 ?_
        rw [← e1]
        exact ih y none (by rw [e1]; exact hd) (by rw [e2]; decide) (by simp) ms' outs' g1 (fun mt hmt => h2 mt (by simp [hmt])) g2
    | start =>
      have h1' : signedMessages (some []) ops = some ms := by
        cases om <;> exact h1
      exact ih (ecdsaIncInit x) (some []) hd (by simp [ecdsaIncInit]) (fun m hm => Option.some.inj hm) ms outs h1' h2 h3
    | feed d =>
      cases om with
      | none => cases h1
      | some m =>
        refine ih (ecdsaUpdate x d) (some (m ++ d)) hd hst ?_ ms outs h1 h2 h3
        intro m' hm'
        rw [← Option.some.inj hm', ← hm m rfl]; rfl
    | final rng fuel =>
      cases om with
      | none => cases h1
      | some m =>
        simp only [signedMessages, Option.map_eq_some_iff] at h1
        obtain ⟨ms', g1, rfl⟩ := h1
        simp only [ecdsaSignRun] at h3
        split at h3
        · cases h3
        · rename_i y hy
          rw [Option.map_eq_some_iff] at h3
          obtain ⟨outs', g2, rfl⟩ := h3
          have hy' : ecdsaSign C c H { x with status := 0 } m rng fuel = some y := by
            rw [← hy]
            unfold ecdsaSign ecdsaIncSignFinal
            rw [← hm m rfl]
            simp
          obtain ⟨⟨e1, e2⟩, e3⟩ := made m rng fuel { x with status := 0 } y rfl (by simp) (h2 (m, rng) (by simp)) hy'
          refine .cons e3 ?_
          rw [← e1]
          exact ih y none (by rw [e1]; exact hd) (by rw [e2]; decide) (by simp) ms' outs' g1 (fun mt hmt => h2 mt (by simp [hmt])) g2

/-- C93: a signing context with a private key `d`: for every history of messages in memory and in pieces that ends, every
signature is made from its own message, the key the context had at the start, and one of the draws of its own call. -/
theorem C93_signer (H : Pkcs1.Hash) {G : (shortW a b).Point} (hG : Denotes c C.G G) (x : Ctx) (hd : x.d.length = c)
    (hst : x.status ≠ 2) {calls : List EcdsaSignCall} {ops : List (SignOp (Nat → List Byte))}
    (hR : List.Forall₂ SignReads calls ops) {ms : List (List Byte × (Nat → List Byte))} (hm : signedMessages none ops = some ms)
    (hr : ∀ mt ∈ ms, ∀ i, (mt.2 i).length = C.plen) {outs : List (List W × List W)} (h : ecdsaSignRun C c H x calls = some outs) :
    List.Forall₂ (fun mt o => ∃ j, EcdsaMade (val C.n) G (val x.d) (beNat (H.digest mt.1 (min C.plen H.hlen))) (beNat (mt.2 j))
      (val o.1) (val o.2)) ms outs :=
  signer_aux hC H hG hR x none hd hst (by simp) ms outs hm hr h

omit hC in
/-- C93: what is made is valid: for a signature made with the private key `d` whose `r` is in `1..n-1`, every verification by a
context that was told it and the key `d G` says yes. -/
theorem C93_made_accepted (hC : EccCurve C c p a b) {G : (shortW a b).Point} (hG : Denotes c C.G G) {d e k r s : Nat}
    (h : EcdsaMade (val C.n) G d e k r s) (hr : 1 ≤ r) (hrn : r < val C.n) : EcdsaAccepted (val C.n) G (d • G) e r s := by
  obtain ⟨h1, h2, h3, h4, X, Y, hn, h5, h6, h7, h8⟩ := h
  have hnp := hC.np
  have hpt : ecdsaPoint (val C.n) G (d • G) e r s = .some X Y hn := by
    rw [← h5]
    exact point_of_sign hC (base_order hC hG) h1 h2 h3 h4 h8
  have hXv : X.val = r := by
    rw [← h6, ZMod.val_natCast, Nat.mod_eq_of_lt (by omega)]
  refine ⟨⟨hr, hrn, h3, h4, X, Y, hn, hpt, by rw [hXv, Nat.mod_eq_of_lt hrn]⟩, ?_⟩
  intro X' Y' hn' k'
  rw [hpt] at k'
  obtain ⟨rfl, -⟩ := WeierstrassCurve.Affine.Point.some.inj k'
  omega

omit hC hp in
/-- C93: a context that has just signed says yes to every message. -/
theorem C93_signer_accepts_everything (H : Pkcs1.Hash) (x y : Ctx) (msg : List Byte) (rng : Nat → List Byte) (fuel : Nat)
    (h : ecdsaSign C c H x msg rng fuel = some y) (msgs : List (List Byte)) :
    ecdsaRun C c H y (msgs.map .verify) = some (msgs.map fun _ => true) := by
  have hy : y.status = 1 := by
    unfold ecdsaSign hmpSign at h
    simp only at h
    split at h
    · cases h
    · rw [← Option.some.inj h]
  induction msgs with
  | nil => rfl
  | cons m l ih => simp only [List.map_cons, ecdsaRun, (C52_outcome_cached H y m).1 hy, ih, Option.map_some]

omit hC hp in
/-- C93: octets that do not begin with the tag of a sequence are refused as a signature, but the context then forgets its verdict and
keeps the old numbers: the next verification is one of the old signature. -/
theorem C93_refused_signature (H : Pkcs1.Hash) (x : Ctx) (sig : List Byte) {tag : BitVec 32} {len : BitVec 64} {w : List Byte}
    (h : Der.getHdr sig = .ok tag len w) (ht : tag ≠ 0x80000010#32) (calls : List EcdsaCall) :
    ecdsaDecodeSignature c x sig = some ({ x with status := 0 }, false) ∧
      ecdsaRun C c H x (.load sig :: calls) = ecdsaRun C c H { x with status := 0 } calls := by
  have e : ecdsaDecodeSignature c x sig = some ({ x with status := 0 }, false) := by
    unfold ecdsaDecodeSignature decodeDss
    rw [h]
    simp [ht]
  exact ⟨e, by simp only [ecdsaRun, e]⟩

end

/-- A history of a verifier: the base point as key, the signature `(5, 200)`, a message in memory, another, one in pieces that is
followed by a new signature before it ends, and a last one in memory. -/
example : ∃ (G Q : (shortW (-3 : ZMod q256) ((b256 : Nat) : ZMod q256)).Point) (enc : List Byte), Denotes 11 secp256r1.G G ∧
    Reads secp256r1 11 (.key enc) (.key Q) ∧
    Reads secp256r1 11 (.load [0x30, 7, 2, 1, 5, 2, 2, 0, 200, 77]) (.load (K := (shortW (-3 : ZMod q256) ((b256 : Nat) : ZMod q256)).Point) 5 200) ∧
    ∀ (H : Pkcs1.Hash) (m m' : List Byte), let v := ecdsaAnswer secp256r1 H G Q 5 200
      sigSession (ecdsaAnswer secp256r1 H G) ⟨Q, 5, 200, none, none⟩
        [.verify m, .verify m', .start, .feed m, .feed m', .load 5 200, .final, .final, .verify m] =
        some [v m, v m, v (m ++ m'), v (m ++ m'), v (m ++ m')] := by
  obtain ⟨G, hG, -⟩ := C40_base_point.1
  obtain ⟨hns, hn⟩ := bigpoint
  have hder : IsDerSig 5 200 [0x30, 7, 2, 1, 5, 2, 2, 0, 200] :=
    ⟨[2, 1, 5], [2, 2, 0, 200], ⟨[5], ⟨5, [], rfl, by decide, Or.inl rfl⟩, by decide, by decide, rfl⟩,
      ⟨[0, 200], ⟨0, [200], rfl, by decide, Or.inr (Or.inr ⟨200, [], rfl, by decide⟩)⟩, by decide, by decide, rfl⟩, by decide, rfl⟩
  refine ⟨G, _, 4#8 :: (beN 32 115792089210356248762697446949407573529996955224135760342422259061068512044372 ++
    beN 32 32706189264453802455814072046653030381229678745603722161528888200092968145471), hG,
    .key ⟨_, _, hns, rfl, Or.inl ⟨_, _, length_beN _ _, length_beN _ _, rfl, ?_, ?_⟩⟩
      (by rw [show val secp256r1.n = n256 by decide +kernel]; exact hn), .load [77] hder (by decide +kernel) (by decide +kernel), fun H m m' => rfl⟩
  · rw [beNat_beN, Nat.mod_eq_of_lt (by decide +kernel)]
  · rw [beNat_beN, Nat.mod_eq_of_lt (by decide +kernel)]

theorem run_instance (C : Curve) (c : Nat) (H : Pkcs1.Hash) (x : Ctx) (h : x.status = 0) (rng : Nat → List Byte) (fuel : Nat)
    (h4 : ecdsaSign C c H x [] rng fuel ≠ none) :
    ∃ outs, ecdsaSignRun C c H x [.start, .feed [], .final rng fuel] = some outs ∧ outs.length = 1 := by
  have e := C53_incremental (C := C) (c := c) H x [[]] rng fuel
  rw [show ({ x with status := 0 } : Ctx) = x by rw [← h], List.flatten_cons, List.flatten_nil, List.append_nil, List.foldl_cons,
    List.foldl_nil] at e
  cases hy : ecdsaSign C c H x [] rng fuel with
  | none => exact absurd hy h4
  | some y =>
    rw [hy] at e
    exact ⟨[(y.r, y.s)], by simp [ecdsaSignRun, e], rfl⟩

/-- A history of a signer that ends. -/
example : ∃ (H : Pkcs1.Hash) (x : Ctx) (G : (shortW (-3 : ZMod q256) ((b256 : Nat) : ZMod q256)).Point) (rng : Nat → List Byte),
    Denotes 11 secp256r1.G G ∧ x.d.length = 11 ∧ x.status ≠ 2 ∧ (∀ i, (rng i).length = secp256r1.plen) ∧
    List.Forall₂ SignReads [.start, .feed [], .final rng 1] [.start, .feed [], .final rng] ∧
    signedMessages none [.start, .feed [], .final rng] = some [([], rng)] ∧
    ∃ outs, ecdsaSignRun secp256r1 11 H x [.start, .feed [], .final rng 1] = some outs ∧ outs.length = 1 := by
  obtain ⟨H, x, G, h1, h2, -, -, -, -, h3, -, h4⟩ := ecdsa_instance
  exact ⟨H, x, G, _, h1, h2, by rw [h3]; decide, fun _ => length_beN _ _,
    .cons .start (.cons (.feed _) (.cons (.final _ _) .nil)), rfl, run_instance _ _ _ _ h3 _ _ h4⟩

/-- Octets that are refused: an integer where the sequence should be. -/
example : ∃ len w, Der.getHdr [2, 1, 5] = .ok 0x80000002#32 len w := ⟨1#64, [5], by decide⟩

end Props
