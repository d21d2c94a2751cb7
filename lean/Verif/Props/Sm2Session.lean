import Verif.Spec.Sm2Session
import Verif.Model.Sm2Session
import Verif.Props.Sm2
import Verif.Props.EccSig
import Mathlib.Data.List.Forall2

/-!
# SM2 signature contexts over histories of calls: C95
-/

namespace Props
open Vlong Ec Ecc Spec EcParam

/-- What the octets of a call mean: a public key in the long form encodes a point of order dividing `n`, an identity has less than 8192
octets, a signature starts with the DER encoding of two numbers that fit the context (something may follow). -/
inductive Sm2Reads (C : Curve) (c : Nat) {p : Nat} [Fact p.Prime] (a b : ZMod p) : Sm2Call → Sm2Op → Prop
  | key {pk : List Byte} {Q : (shortW a b).Point} (h : EncodesPoint C.plen pk Q) (hn : val C.n • Q = 0) (hl : pk.length = 1 + C.plen * 2) :
      Sm2Reads C c a b (.key pk) (.key pk)
  | identity {id : List Byte} (h : id.length < 8192) : Sm2Reads C c a b (.identity id) (.identity id)
  | load {r s : Nat} {enc : List Byte} (rest : List Byte) (h : IsDerSig r s enc) (hr : r < 2 ^ (32 * c)) (hs : s < 2 ^ (32 * c)) :
      Sm2Reads C c a b (.load (enc ++ rest)) (.load r s)
  | verify (m : List Byte) : Sm2Reads C c a b (.verify m) (.verify m)
  | start : Sm2Reads C c a b .start .start
  | feed (d : List Byte) : Sm2Reads C c a b (.feed d) (.feed d)
  | final : Sm2Reads C c a b .final .final

/-- The words of the numbers of a signature. -/
def numWords (c r : Nat) : List W := os2ip c (beN (4 * c) r)

theorem numWords_spec {c r : Nat} (h : r < 2 ^ (32 * c)) : (numWords c r).length = c ∧ val (numWords c r) = r := by
  unfold numWords
  refine ⟨(C06_os2ip _ _).1, ?_⟩
  rw [(C06_os2ip _ _).2, beNat_beN, show (256 : Nat) ^ (4 * c) = 2 ^ (32 * c) by
    rw [show (256 : Nat) = 2 ^ 8 from rfl, ← pow_mul]; congr 1; omega, Nat.mod_mod, Nat.mod_eq_of_lt h]

/-- The octets of the identity digest, for a public key in the long form. -/
def sm2ZOf (C : Curve) (c : Nat) (H : Pkcs1.Hash) (pk id : List Byte) : List Byte :=
  H.digest (sm2Z C.plen id (val (sm2A C c)) (val C.b) (val C.G.x) (val C.G.y) (beNat ((pk.drop 1).take C.plen))
    (beNat (pk.drop (1 + C.plen)))) H.hlen

section
variable {C : Curve} {c p : Nat} [hp : Fact p.Prime] {a b : ZMod p}

/-- The point words of a public key. -/
def pkWords (C : Curve) (c : Nat) (pk : List Byte) : Xyz := ((pointDecode C c pk).getD none).getD (xyzInf c)

/-- What the code answers for a key, an identity, a signature and a message on a fresh context. -/
def sm2Answer (C : Curve) (c : Nat) (H : Pkcs1.Hash) (pk id : List Byte) (r s : Nat) (m : List Byte) : Bool :=
  (sm2Verify C c H ⟨0, [], [], pkWords C c pk, xyzInf c, numWords c r, numWords c s, [], sm2ZOf C c H pk id⟩ m).2

theorem gmtVerify_indep (H : Pkcs1.Hash) (x y : Ctx) (h1 : x.Q = y.Q) (h2 : x.r = y.r) (h3 : x.s = y.s) (h4 : x.hmsg = y.hmsg) :
    (gmtVerify C c H x).2 = (gmtVerify C c H y).2 := by
  unfold gmtVerify
  simp only [h1, h2, h3, h4]
  split_ifs <;> rfl

theorem gmtVerify_keeps (H : Pkcs1.Hash) (x : Ctx) : (gmtVerify C c H x).1.status = (if (gmtVerify C c H x).2 then 1 else -1) ∧
    (gmtVerify C c H x).1.Q = x.Q ∧ (gmtVerify C c H x).1.uinfo = x.uinfo := by
  unfold gmtVerify
  simp only
  split_ifs <;> simp_all

/-- The context holds what it has been told. -/
structure Sm2Holds (C : Curve) (c : Nat) (H : Pkcs1.Hash) (x : Ctx) (σ : Sm2State) : Prop where
  key : x.Q = pkWords C c σ.key
  id : x.uinfo = sm2ZOf C c H σ.key σ.id
  upd : ∀ id : List Byte, id.length < 8192 → (sm2SetZ C c H x id).uinfo = sm2ZOf C c H σ.key id
  sig : ∀ r s, σ.sig = some (r, s) → x.r = numWords c r ∧ x.s = numWords c s
  v1 : σ.verdict = some true → x.status = 1
  v2 : σ.verdict = some false → x.status = -1
  v3 : σ.verdict = none → x.status ≠ 1 ∧ x.status ≠ -1
  m : ∀ m, σ.msg = some m → x.hmsg = x.uinfo ++ m

theorem setZ_uinfo (H : Pkcs1.Hash) (x y : Ctx) (h : x.Q = y.Q) (id : List Byte) :
    (sm2SetZ C c H x id).uinfo = (sm2SetZ C c H y id).uinfo := by
  unfold sm2SetZ
  simp only [h]

theorem sm2_fresh (H : Pkcs1.Hash) {x : Ctx} {σ : Sm2State} (h : Sm2Holds C c H x σ) {r s : Nat} (hg : σ.sig = some (r, s))
    (m : List Byte) (st : Int) (hm : List Byte) (hhm : hm = x.uinfo ++ m) :
    (gmtVerify C c H { x with hmsg := hm, status := st }).2 = sm2Answer C c H σ.key σ.id r s m ∧
      Sm2Holds C c H (gmtVerify C c H { x with hmsg := hm, status := st }).1
        { σ with verdict := some (sm2Answer C c H σ.key σ.id r s m), sig := none, msg := none } := by
  obtain ⟨g1, g2⟩ := h.sig r s hg
  have e : (gmtVerify C c H { x with hmsg := hm, status := st }).2 = sm2Answer C c H σ.key σ.id r s m := by
    unfold sm2Answer sm2Verify
    rw [if_neg (by simp), if_neg (by simp)]
    exact gmtVerify_indep H _ _ h.key g1 g2 (by rw [hhm, h.id])
  obtain ⟨k1, k2, k3⟩ := gmtVerify_keeps (C := C) (c := c) H { x with hmsg := hm, status := st }
  refine ⟨e, ?_⟩
  rw [← e]
  refine ⟨by rw [k2]; exact h.key, by rw [k3]; exact h.id, fun id hid => ?_, (fun _ _ hh => by cases hh), ?_, ?_, (fun hh => by cases hh),
    (fun _ hh => by cases hh)⟩
  · rw [setZ_uinfo H _ x k2]; exact h.upd id hid
  · intro hh; rw [k1, Option.some.inj hh]; rfl
  · intro hh; rw [k1, Option.some.inj hh]; rfl

end

section
variable {C : Curve} {c p : Nat} [hp : Fact p.Prime] {a b : ZMod p} (hC : EccCurve C c p a b)
include hC

/-- A public key in the long form is taken: its words, and the digest made of its own octets. -/
theorem sm2_key {pk : List Byte} {Q : (shortW a b).Point} (h : EncodesPoint C.plen pk Q) (hn : val C.n • Q = 0)
    (hl : pk.length = 1 + C.plen * 2) (H : Pkcs1.Hash) (x : Ctx) :
    ∃ y, sm2DecodePublicKey C c H x pk = some (y, true) ∧ y.Q = pkWords C c pk ∧ y.status = 0 ∧ y.r = x.r ∧ y.s = x.s ∧
      y.uinfo = sm2ZOf C c H pk sm2StdId ∧ (∀ id : List Byte, id.length < 8192 → (sm2SetZ C c H y id).uinfo = sm2ZOf C c H pk id) ∧
      Denotes2 c y.Q Q := by
  obtain ⟨w, ok, g1, g2, g3, g4⟩ := C50_decode hC x pk (by omega)
  obtain rfl : ok = true := g3.mpr ⟨Q, h, hn⟩
  have hre := C50_reencode hC x w pk g1
  have hw : w = { x with status := 0, Q := pkWords C c pk } := by
    unfold pkWords
    unfold decodePublicKey at g1
    split at g1 <;> simp_all
  have hz : ∀ id : List Byte, id.length < 8192 → (sm2SetZ C c H w id).uinfo = sm2ZOf C c H pk id := by
    intro id hid
    rw [hl] at hre
    unfold encodePublicKey pointEncode at hre
    rw [if_pos rfl] at hre
    simp only [Option.some.injEq] at hre
    have l1 : (i2osp w.Q.x C.plen).length = C.plen := (C06_i2osp _ _).1
    have l2 : (i2osp w.Q.y C.plen).length = C.plen := (C06_i2osp _ _).1
    have e1 : (pk.drop 1).take C.plen = i2osp w.Q.x C.plen := by
      rw [← hre, List.drop_succ_cons, List.drop_zero, List.take_left' l1]
    have e2 : pk.drop (1 + C.plen) = i2osp w.Q.y C.plen := by
      rw [← hre, Nat.add_comm, List.drop_succ_cons, List.drop_left' l1]
    rw [C59_identity_digest C c H w id hid rfl]
    unfold sm2ZOf
    rw [e1, e2]
    have b1 : ∀ l : List W, beN C.plen (beNat (i2osp l C.plen)) = beN C.plen (val l) := by
      intro l
      rw [← Pkcs1.i2osp_beN]
      have := beN_beNat (i2osp l C.plen)
      rwa [(C06_i2osp _ _).1] at this
    unfold sm2Z
    rw [b1, b1]
  refine ⟨sm2SetZ C c H w sm2DefaultId, by unfold sm2DecodePublicKey; rw [g1]; rfl, ?_, ?_, ?_, ?_, hz sm2DefaultId (by decide), ?_,
    (g4 rfl Q h).1⟩
  · show w.Q = _; rw [hw]
  · show w.status = _; rw [hw]
  · show w.r = _; rw [hw]
  · show w.s = _; rw [hw]
  · intro id hid
    rw [setZ_uinfo H (sm2SetZ C c H w sm2DefaultId) w rfl]
    exact hz id hid

theorem sm2_run (H : Pkcs1.Hash) {calls : List Sm2Call} {ops : List Sm2Op} (hR : List.Forall₂ (Sm2Reads C c a b) calls ops) :
    ∀ (x : Ctx) (σ : Sm2State), Sm2Holds C c H x σ → ∀ ans, sm2Session (sm2Answer C c H) σ ops = some ans → sm2Run C c H x calls = some ans := by
  induction hR with
  | nil => intro x σ h ans hs; simpa [sm2Session, sm2Run] using hs
  | @cons call op calls ops hc hR ih =>
    intro x σ h ans hs
    cases hc with
    | @key pk Q hk hn hl =>
      obtain ⟨y, g1, g2, g3, g4, g5, g6, g7, -⟩ := sm2_key hC hk hn hl H x
      simp only [sm2Run, g1]
      refine ih y { σ with key := pk, id := sm2StdId, verdict := none, msg := none } ?_ ans hs
      exact ⟨g2, g6, g7, (fun r s hh => by rw [g4, g5]; exact h.sig r s hh), (fun hh => by cases hh), (fun hh => by cases hh),
        (fun _ => by rw [g3]; decide), (fun _ hh => by cases hh)⟩
    | @identity id hid =>
      simp only [sm2Run, sm2Xctrl, if_true, Option.map_some, Option.getD_some]
      refine ih (sm2SetZ C c H x id) { σ with id := id, msg := none } ?_ ans hs
      exact ⟨h.key, h.upd id hid, (fun id' hid' => (setZ_uinfo H (sm2SetZ C c H x id) x rfl id').trans (h.upd id' hid')), h.sig, h.v1, h.v2, h.v3,
        (fun _ hh => by cases hh)⟩
    | @load r s enc rest hd hr hs' =>
      obtain ⟨y, g1, g2, -, g4, g5, g6, g7, g8⟩ := C54_decode c x hd rest
      have hm : y.hmsg = x.hmsg ∧ y.uinfo = x.uinfo := by
        unfold ecdsaDecodeSignature at g1
        split at g1 <;> simp_all
        rw [← g1.1]; exact ⟨rfl, rfl⟩
      simp only [sm2Run, g1]
      refine ih y { σ with sig := some (r, s), verdict := none } ?_ ans hs
      refine ⟨by rw [g4]; exact h.key, by rw [hm.2]; exact h.id, (fun id hid => by rw [setZ_uinfo H _ x g4]; exact h.upd id hid), ?_,
        (fun hh => by cases hh), (fun hh => by cases hh), (fun _ => by rw [g2]; decide), by rw [hm.1, hm.2]; exact h.m⟩
      intro r' s' hh
      obtain ⟨rfl, rfl⟩ := Prod.mk.inj (Option.some.inj hh)
      refine ⟨val_inj (by rw [g5, (numWords_spec hr).1]) ?_, val_inj (by rw [g6, (numWords_spec hs').1]) ?_⟩
      · rw [g7, (numWords_spec hr).2, Nat.mod_eq_of_lt hr]
      · rw [g8, (numWords_spec hs').2, Nat.mod_eq_of_lt hs']
    | verify m =>
      cases hv : σ.verdict with
      | some v =>
        have hc : sm2Verify C c H x m = (x, v) := by
          cases v
          · exact (C57_outcome_cached H x m).2 (h.v2 hv)
          · exact (C57_outcome_cached H x m).1 (h.v1 hv)
        simp only [sm2Session, hv, Option.map_eq_some_iff] at hs
        obtain ⟨ans', k1, rfl⟩ := hs
        simp only [sm2Run, hc, ih _ _ h ans' k1, Option.map_some]
      | none =>
        cases hg : σ.sig with
        | none => simp [sm2Session, hv, hg] at hs
        | some g =>
          obtain ⟨r, s⟩ := g
          have hc : sm2Verify C c H x m = gmtVerify C c H { x with hmsg := x.uinfo ++ m, status := 3 } := by
            unfold sm2Verify
            rw [if_neg (h.v3 hv).1, if_neg (h.v3 hv).2]
          obtain ⟨e1, e2⟩ := sm2_fresh H h hg m 3 (x.uinfo ++ m) rfl
          simp only [sm2Session, hv, hg, Option.map_eq_some_iff] at hs
          obtain ⟨ans', k1, rfl⟩ := hs
          simp only [sm2Run, hc, e1, ih _ _ e2 ans' k1, Option.map_some]
    | start =>
      simp only [sm2Run]
      refine ih (sm2IncInit x) { σ with verdict := none, msg := some [] } ?_ ans hs
      exact ⟨h.key, h.id, h.upd, h.sig, (fun hh => by cases hh), (fun hh => by cases hh), (fun _ => by simp [sm2IncInit]),
        fun m hm => by rw [← Option.some.inj hm, List.append_nil]; rfl⟩
    | feed d =>
      cases hm : σ.msg with
      | none => simp [sm2Session, hm] at hs
      | some m =>
        simp only [sm2Session, hm] at hs
        simp only [sm2Run]
        refine ih _ _ ?_ ans hs
        refine ⟨h.key, h.id, h.upd, h.sig, h.v1, h.v2, h.v3, fun m' hm' => ?_⟩
        rw [← Option.some.inj hm', ← List.append_assoc]
        show x.hmsg ++ d = _
        rw [h.m m hm]; rfl
    | final =>
      cases hv : σ.verdict with
      | some v =>
        have hc : sm2IncVerifyFinal C c H x = (x, v) := by
          unfold sm2IncVerifyFinal
          cases v
          · rw [if_neg (by rw [h.v2 hv]; decide), if_pos (h.v2 hv)]
          · rw [if_pos (h.v1 hv)]
        simp only [sm2Session, hv, Option.map_eq_some_iff] at hs
        obtain ⟨ans', k1, rfl⟩ := hs
        simp only [sm2Run, hc, ih _ _ h ans' k1, Option.map_some]
      | none =>
        cases hg : σ.sig with
        | none => simp [sm2Session, hv, hg] at hs
        | some g =>
          obtain ⟨r, s⟩ := g
          cases hm : σ.msg with
          | none => simp [sm2Session, hv, hg, hm] at hs
          | some m =>
            have hc : sm2IncVerifyFinal C c H x = gmtVerify C c H { x with hmsg := x.hmsg, status := 2 } := by
              unfold sm2IncVerifyFinal
              rw [if_neg (h.v3 hv).1, if_neg (h.v3 hv).2]
            obtain ⟨e1, e2⟩ := sm2_fresh H h hg m 2 x.hmsg (h.m m hm)
            simp only [sm2Session, hv, hg, hm, Option.map_eq_some_iff] at hs
            obtain ⟨ans', k1, rfl⟩ := hs
            simp only [sm2Run, hc, e1, ih _ _ e2 ans' k1, Option.map_some]

/-- C95: a verification context, from any initial contents, takes a key; then, for every further history of keys, identities,
signatures, messages in memory and messages in pieces, in any order: every verification answers for the last key, identity and signature
and its own message, or repeats the verdict given since.  The answer depends on those alone, and is the standard's if the
`x`-coordinate of the point it computes is not zero. -/
theorem C95_verifier (H : Pkcs1.Hash) {G : (shortW a b).Point} (hG : Denotes c C.G G) :
    ∃ valid : List Byte → List Byte → Nat → Nat → List Byte → Bool,
    (∀ (pk id : List Byte) (r s : Nat) (m : List Byte) (Q : (shortW a b).Point), EncodesPoint C.plen pk Q → val C.n • Q = 0 →
      pk.length = 1 + C.plen * 2 → r < 2 ^ (32 * c) → s < 2 ^ (32 * c) →
      (∀ X Y h, sm2Point (val C.n) G Q r s = .some X Y h → X ≠ 0) →
      (valid pk id r s m = true ↔ Sm2Valid (val C.n) G Q (beNat (H.digest
        (H.digest (sm2Z C.plen id (val (sm2A C c)) (val C.b) (val C.G.x) (val C.G.y) (beNat ((pk.drop 1).take C.plen))
          (beNat (pk.drop (1 + C.plen)))) H.hlen ++ m) (min C.plen H.hlen))) r s)) ∧
    ∀ (x : Ctx) (pk : List Byte) (calls : List Sm2Call) (ops : List Sm2Op) (ans : List Bool), Sm2Reads C c a b (.key pk) (.key pk) →
      List.Forall₂ (Sm2Reads C c a b) calls ops → sm2Session valid ⟨pk, sm2StdId, none, none, none⟩ ops = some ans →
      sm2Run C c H x (.key pk :: calls) = some ans := by
  refine ⟨sm2Answer C c H, ?_, ?_⟩
  · intro pk id r s m Q hk hn hl hr hs hX
    obtain ⟨y, -, g2, -, -, -, -, -, g8⟩ := sm2_key hC hk hn hl H ⟨0, [], [], xyzInf c, xyzInf c, [], [], [], []⟩
    have := (C57_verify hC H ⟨0, [], [], pkWords C c pk, xyzInf c, numWords c r, numWords c s, [], sm2ZOf C c H pk id⟩ m
      ⟨by simp, by simp⟩ hG (by rw [← g2]; exact g8)
      (by obtain ⟨X, Y, h, rfl, -⟩ := hk; exact WeierstrassCurve.Affine.Point.some_ne_zero _)
      (numWords_spec hr).1 (numWords_spec hs).1 (by rw [(numWords_spec hr).2, (numWords_spec hs).2]; exact hX)).1
    rw [(numWords_spec hr).2, (numWords_spec hs).2] at this
    exact this
  · intro x pk calls ops ans hk hR hs
    cases hk with
    | @key _ Q hk hn hl =>
      obtain ⟨y, g1, g2, g3, g4, g5, g6, g7, -⟩ := sm2_key hC hk hn hl H x
      simp only [sm2Run, g1]
      refine sm2_run hC H hR y _ ?_ ans hs
      exact ⟨g2, g6, g7, (fun _ _ hh => by cases hh), (fun hh => by cases hh), (fun hh => by cases hh),
        (fun _ => by rw [g3]; decide), (fun _ hh => by cases hh)⟩

/-- What a signing call is, but for the bound on the number of draws; identities have less than 8192 octets. -/
inductive Sm2SignReads : Sm2SignCall → Sm2SignOp (Nat → List Byte) → Prop
  | identity {id : List Byte} (h : id.length < 8192) : Sm2SignReads (.identity id) (.identity id)
  | sign (m : List Byte) (rng : Nat → List Byte) (fuel : Nat) : Sm2SignReads (.sign m rng fuel) (.sign m rng)
  | start : Sm2SignReads .start .start
  | feed (d : List Byte) : Sm2SignReads (.feed d) (.feed d)
  | final (rng : Nat → List Byte) (fuel : Nat) : Sm2SignReads (.final rng fuel) (.final rng)

/-- The identity digest of a context with public key `Q`. -/
def sm2Zq (C : Curve) (c : Nat) (H : Pkcs1.Hash) (Q : Xyz) (id : List Byte) : List Byte :=
  H.digest (sm2Z C.plen id (val (sm2A C c)) (val C.b) (val C.G.x) (val C.G.y) (val Q.x) (val Q.y)) H.hlen

theorem sm2_signer_aux (H : Pkcs1.Hash) {G : (shortW a b).Point} (hG : Denotes c C.G G) {calls : List Sm2SignCall}
    {ops : List (Sm2SignOp (Nat → List Byte))} (hR : List.Forall₂ Sm2SignReads calls ops) : ∀ (x : Ctx) (id : List Byte)
    (om : Option (List Byte)), x.d.length = c → val x.d + 1 < val C.n → x.status ≠ 3 → x.uinfo = sm2Zq C c H x.Q id →
    (∀ m, om = some m → x.hmsg = x.uinfo ++ m) → ∀ ms outs, sm2Signed id om ops = some ms →
    (∀ mt ∈ ms, ∀ i, (mt.2.2 i).length = C.plen) → sm2SignRun C c H x calls = some outs →
    List.Forall₂ (fun mt o => ∃ j, Sm2Made (val C.n) G (val x.d)
      (beNat (H.digest (sm2Zq C c H x.Q mt.1 ++ mt.2.1) (min C.plen H.hlen))) (beNat (mt.2.2 j)) (val o.1) (val o.2)) ms outs := by
  induction hR with
  | nil =>
    intro x id om hd hd2 hst hu hm ms outs h1 h2 h3
    simp only [sm2Signed, sm2SignRun, Option.some.injEq] at h1 h3
    subst h1 h3
    exact .nil
  | @cons call op calls ops hc hR ih =>
    intro x id om hd hd2 hst hu hm ms outs h1 h2 h3
    have made : ∀ (m : List Byte) (rng : Nat → List Byte) (fuel : Nat) (x' y : Ctx), x'.d = x.d → x'.Q = x.Q → x'.uinfo = x.uinfo →
        x'.status ≠ 3 → (∀ i, (rng i).length = C.plen) → sm2Sign C c H x' m rng fuel = some y →
        (y.d = x.d ∧ y.status = 1 ∧ y.Q = x.Q ∧ y.uinfo = x.uinfo) ∧
        ∃ j, Sm2Made (val C.n) G (val x.d) (beNat (H.digest (sm2Zq C c H x.Q id ++ m) (min C.plen H.hlen))) (beNat (rng j)) (val y.r)
          (val y.s) := by
      intro m rng fuel x' y e0 e1 e2 e3 hr e4
      obtain ⟨j, -, X, Y, hn, v, k1, k2, k3, -, k4, k5, k6, k7, -, -, -, k8, k9, k10, k11, k12, k13, k14, k15⟩ :=
        C58_sign hC H x' y m e3 hr (by rw [e0]; exact hd) (by rw [e0]; exact hd2) hG fuel e4
      rw [e0] at k15 k5
      rw [e1] at k6
      rw [e2] at k7 k10
      rw [hu] at k10
      exact ⟨⟨k5, k4, k6, k7⟩, j, k2, k3, k11, k12, k13, k14, X, Y, hn, v, k1, k8, k9, k10, k15⟩
    cases hc with
    | @identity id' hid =>
      simp only [sm2SignRun, sm2Xctrl, if_true, Option.map_some, Option.getD_some] at h3
      exact ih (sm2SetZ C c H x id') id' none hd hd2 hst (C59_identity_digest C c H x id' hid rfl) (by simp) ms outs h1 h2 h3
    | sign m rng fuel =>
      simp only [sm2Signed, Option.map_eq_some_iff] at h1
      obtain ⟨ms', g1, rfl⟩ := h1
      simp only [sm2SignRun] at h3
      split at h3
      · cases h3
      · rename_i y hy
        rw [Option.map_eq_some_iff] at h3
        obtain ⟨outs', g2, rfl⟩ := h3
        obtain ⟨⟨e1, e2, e3, e4⟩, e5⟩ := made m rng fuel x y rfl rfl rfl hst (h2 (id, m, rng) (by simp)) hy
        refine .cons e5 ?_
        rw [← e1, ← e3]
        exact ih y id none (by rw [e1]; exact hd) (by rw [e1]; exact hd2) (by rw [e2]; decide) (by rw [e4, e3]; exact hu) (by simp) ms' outs' g1
          (fun mt hmt => h2 mt (by simp [hmt])) g2
    | start =>
      exact ih (sm2IncInit x) id (some []) hd hd2 (by simp [sm2IncInit]) hu
        (fun m hm => by rw [← Option.some.inj hm, List.append_nil]; rfl) ms outs h1 h2 h3
    | feed d =>
      cases om with
      | none => cases h1
      | some m =>
        refine ih (ecdsaUpdate x d) id (some (m ++ d)) hd hd2 hst hu ?_ ms outs h1 h2 h3
        intro m' hm'
        rw [← Option.some.inj hm', ← List.append_assoc]
        show x.hmsg ++ d = _
        rw [hm m rfl]; rfl
    | final rng fuel =>
      cases om with
      | none => cases h1
      | some m =>
        simp only [sm2Signed, Option.map_eq_some_iff] at h1
        obtain ⟨ms', g1, rfl⟩ := h1
        simp only [sm2SignRun] at h3
        split at h3
        · cases h3
        · rename_i y hy
          rw [Option.map_eq_some_iff] at h3
          obtain ⟨outs', g2, rfl⟩ := h3
          have hy' : sm2Sign C c H { x with status := 0 } m rng fuel = some y := by
            rw [← hy]
            unfold sm2Sign sm2IncSignFinal
            simp [← hm m rfl]
          obtain ⟨⟨e1, e2, e3, e4⟩, e5⟩ := made m rng fuel { x with status := 0 } y rfl rfl rfl (by simp) (h2 (id, m, rng) (by simp)) hy'
          refine .cons e5 ?_
          rw [← e1, ← e3]
          exact ih y id none (by rw [e1]; exact hd) (by rw [e1]; exact hd2) (by rw [e2]; decide) (by rw [e4, e3]; exact hu) (by simp) ms' outs'
            g1 (fun mt hmt => h2 mt (by simp [hmt])) g2

/-- C95: a signing context, from any initial contents, takes a private key other than `n - 1`; then, for every history of identities,
messages in memory and messages in pieces that ends: every signature is made from its own message, with the digest of the identity
given last (or the default one) for the public key `d G`, the key taken, and one of the draws of its own call. -/
theorem C95_signer (H : Pkcs1.Hash) {G : (shortW a b).Point} (hG : Denotes c C.G G) (x y : Ctx) (sk : List Byte)
    (hk : sm2DecodePrivateKey C c H x sk = some y) (hd2 : beNat sk + 1 < val C.n)
    {calls : List Sm2SignCall} {ops : List (Sm2SignOp (Nat → List Byte))} (hR : List.Forall₂ Sm2SignReads calls ops)
    {ms : List (List Byte × List Byte × (Nat → List Byte))} (hm : sm2Signed sm2StdId none ops = some ms)
    (hr : ∀ mt ∈ ms, ∀ i, (mt.2.2 i).length = C.plen) {outs : List (List W × List W)} (h : sm2SignRun C c H y calls = some outs) :
    (Denotes c y.Q (beNat sk • G) ∧ val y.Q.z = 1) ∧
    List.Forall₂ (fun mt o => ∃ j, Sm2Made (val C.n) G (beNat sk)
      (beNat (H.digest (H.digest (sm2Z C.plen mt.1 (val (sm2A C c)) (val C.b) (val C.G.x) (val C.G.y) (val y.Q.x) (val y.Q.y)) H.hlen ++
        mt.2.1) (min C.plen H.hlen))) (beNat (mt.2.2 j)) (val o.1) (val o.2)) ms outs := by
  obtain ⟨w, hw, rfl⟩ := (C59_default_identity H x).2.1 sk y hk
  obtain ⟨g1, g2, g3, g4, g5⟩ := (C51_decode_private hC hG x sk).2 w hw
  refine ⟨⟨g4, g5⟩, ?_⟩
  have := sm2_signer_aux hC H hG hR (sm2SetZ C c H w sm2DefaultId) sm2StdId none g2 (show val w.d + 1 < _ by rw [g3]; exact hd2)
    (show w.status ≠ 3 by rw [g1]; decide) (C59_identity_digest C c H w sm2DefaultId (by decide) rfl) (by simp) ms outs hm hr h
  rw [show (sm2SetZ C c H w sm2DefaultId).d = w.d from rfl, g3] at this
  exact this

end

/-- A history of a verifier: the base point of the curve as key, a signature and two messages, an identity, the signature again with a
message in pieces asked twice, the key again. -/
example : ∃ (G : (shortW (-3 : ZMod qSM2) ((bSM2 : Nat) : ZMod qSM2)).Point) (pk : List Byte), Denotes 11 curveSM2.G G ∧
    Sm2Reads curveSM2 11 (-3 : ZMod qSM2) ((bSM2 : Nat) : ZMod qSM2) (.key pk) (.key pk) ∧
    List.Forall₂ (Sm2Reads curveSM2 11 (-3 : ZMod qSM2) ((bSM2 : Nat) : ZMod qSM2))
      [.load [0x30, 7, 2, 1, 5, 2, 2, 0, 200, 77], .verify [1], .verify [2], .identity [9], .load [0x30, 7, 2, 1, 5, 2, 2, 0, 200, 77], .start,
        .feed [3], .feed [4], .final, .final]
      [.load 5 200, .verify [1], .verify [2], .identity [9], .load 5 200, .start, .feed [3], .feed [4], .final, .final] ∧
    ∀ valid, sm2Session valid ⟨pk, sm2StdId, none, none, none⟩
      [.load 5 200, .verify [1], .verify [2], .identity [9], .load 5 200, .start, .feed [3], .feed [4], .final, .final] =
      some [valid pk sm2StdId 5 200 [1], valid pk sm2StdId 5 200 [1], valid pk [9] 5 200 [3, 4], valid pk [9] 5 200 [3, 4]] := by
  obtain ⟨G, hG, -⟩ := C40_base_point.2.2
  have hder : IsDerSig 5 200 [0x30, 7, 2, 1, 5, 2, 2, 0, 200] :=
    ⟨[2, 1, 5], [2, 2, 0, 200], ⟨[5], ⟨5, [], rfl, by decide, Or.inl rfl⟩, by decide, by decide, rfl⟩,
      ⟨[0, 200], ⟨0, [200], rfl, by decide, Or.inr (Or.inr ⟨200, [], rfl, by decide⟩)⟩, by decide, by decide, rfl⟩, by decide, rfl⟩
  have hord := base_order eccCurveSM2 hG
  have hn : val curveSM2.n • G = 0 := by rw [← hord]; exact addOrderOf_nsmul_eq_zero G
  have henc : EncodesPoint curveSM2.plen (4#8 :: (beN 32 gxSM2 ++ beN 32 gySM2)) G := by
    have hc := hG.2.2
    rcases G with _ | ⟨X, Y, hns⟩
    · exact absurd hc.2.2 (by rw [show val curveSM2.G.z = 1 by decide +kernel]; simp)
    · have hx := hc.2.1
      have hy := hc.2.2
      rw [show val curveSM2.G.z = 1 by decide +kernel, show val curveSM2.G.x = gxSM2 by decide +kernel] at hx
      rw [show val curveSM2.G.z = 1 by decide +kernel, show val curveSM2.G.y = gySM2 by decide +kernel] at hy
      refine ⟨X, Y, hns, rfl, Or.inl ⟨_, _, length_beN _ _, length_beN _ _, rfl, ?_, ?_⟩⟩
      · rw [beNat_beN, Nat.mod_eq_of_lt (by decide +kernel), hx]; simp
      · rw [beNat_beN, Nat.mod_eq_of_lt (by decide +kernel), hy]; simp
  refine ⟨G, _, hG, .key henc hn ?_, ?_, fun valid => rfl⟩
  · rw [List.length_cons, List.length_append, length_beN, length_beN]; decide
  · exact .cons (.load [77] hder (by decide +kernel) (by decide +kernel)) (.cons (.verify _) (.cons (.verify _)
      (.cons (.identity (by decide)) (.cons (.load [77] hder (by decide +kernel) (by decide +kernel)) (.cons .start (.cons (.feed _)
      (.cons (.feed _) (.cons .final (.cons .final .nil)))))))))

/-- One signature of the empty message, alone in its history. -/
theorem sm2_run_instance (C : Curve) (c : Nat) (H : Pkcs1.Hash) (x : Ctx) (rng : Nat → List Byte) (fuel : Nat)
    (h : sm2Sign C c H x [] rng fuel ≠ none) : ∃ outs, sm2SignRun C c H x [.sign [] rng fuel] = some outs ∧ outs.length = 1 := by
  cases hy : sm2Sign C c H x [] rng fuel with
  | none => exact absurd hy h
  | some y => exact ⟨[(y.r, y.s)], by simp [sm2SignRun, hy], rfl⟩

/-- A history of a signer that ends: the key one, then a signature with the default identity. -/
example : ∃ (H : Pkcs1.Hash) (x y : Ctx) (G : (shortW (-3 : ZMod qSM2) ((bSM2 : Nat) : ZMod qSM2)).Point) (rng : Nat → List Byte),
    Denotes 11 curveSM2.G G ∧ sm2DecodePrivateKey curveSM2 11 H x (beN 32 1) = some y ∧ beNat (beN 32 1) + 1 < val curveSM2.n ∧
    (∀ i, (rng i).length = curveSM2.plen) ∧ List.Forall₂ Sm2SignReads [.sign [] rng 1] [.sign [] rng] ∧
    sm2Signed sm2StdId none [.sign [] rng] = some [(sm2StdId, [], rng)] ∧
    ∃ outs, sm2SignRun curveSM2 11 H y [.sign [] rng 1] = some outs ∧ outs.length = 1 := by
  obtain ⟨G, h1, -⟩ := C40_base_point.2.2
  obtain ⟨X, Y, hn, hGX, hX⟩ := gx_sm2 h1
  have hx := C51_decode_private eccCurveSM2 h1 ⟨0, [], [], xyzInf 11, xyzInf 11, [], [], [], []⟩ (beN 32 1)
  cases hd : decodePrivateKey curveSM2 11 ⟨0, [], [], xyzInf 11, xyzInf 11, [], [], [], []⟩ (beN 32 1) with
  | none => exact absurd hd (hx.1.mpr ⟨length_beN _ _, by decide +kernel, by decide +kernel⟩)
  | some w =>
    obtain ⟨g1, g2, g3, g4, g5⟩ := hx.2 w hd
    have h1v : beNat (beN 32 1) = 1 := by decide +kernel
    rw [h1v] at g3 g4
    refine ⟨⟨32, false, fun _ _ => 0⟩, _, sm2SetZ curveSM2 11 ⟨32, false, fun _ _ => 0⟩ w sm2DefaultId, G, fun _ => beN 32 1, h1,
      by rw [sm2DecodePrivateKey, hd]; rfl, by rw [h1v]; decide +kernel, fun _ => length_beN _ _, .cons (.sign _ _ _) .nil, rfl, ?_⟩
    refine sm2_run_instance _ _ _ _ _ _ fun hnone => ?_
    generalize hy : sm2SetZ curveSM2 11 ⟨32, false, fun _ _ => 0⟩ w sm2DefaultId = y at hnone
    have e1 : y.status = 0 := by rw [← hy]; exact g1
    have e2 : y.d.length = 11 := by rw [← hy]; exact g2
    have e3 : val y.d = 1 := by rw [← hy]; exact g3
    refine C58_sign_none eccCurveSM2 ⟨32, false, fun _ _ => 0⟩ y [] (by rw [e1]; decide) (rng := fun _ => beN 32 1)
      (fun _ => length_beN _ _) e2 (by rw [e3]; decide +kernel) h1 1 hnone 0 (by decide) ?_
    rw [h1v, e3]
    have hz : beNat (Pkcs1.Hash.digest ⟨32, false, fun _ _ => 0⟩ (y.uinfo ++ []) (min curveSM2.plen 32)) = 0 := by
      simp only [Pkcs1.Hash.digest]; decide +kernel
    rw [hz]
    refine ⟨⟨le_rfl, by decide +kernel⟩, X, Y, hn, by rw [one_nsmul]; exact hGX, ?_, ?_, ?_, ?_⟩
    · rw [hX, Ne, ZMod.natCast_eq_zero_iff]; decide +kernel
    · rw [hX, ZMod.val_natCast]; decide +kernel
    · rw [hX, ZMod.val_natCast]; decide +kernel
    · rw [hX, ZMod.val_natCast, Nat.cast_one, mul_one, ← Nat.cast_one, Ne, ZMod.natCast_eq_natCast_iff']; decide +kernel

end Props
