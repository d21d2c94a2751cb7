import Verif.Model.EdSession
import Verif.Props.EdDsa

/-!
# EdDSA contexts over histories of calls: C94
-/

namespace Props
open Vlong Ec EdDsa Spec EdParam

/-- The keys of a history name points and its context strings have at most 255 octets. -/
def EdWellFormed (C : EdCurve) {p : Nat} [Fact p.Prime] (a d : ZMod p) : EdOp → Prop
  | .key pk => ∃ Q : EdPoint a d, EdNames (plen C) C.pbits pk Q
  | .context s => s.length ≤ 255
  | _ => True

open Classical in
/-- The octets that can be a signature: a point and a number below the order. -/
noncomputable def edSigOk (C : EdCurve) {p : Nat} [Fact p.Prime] (a d : ZMod p) (sig : List Byte) : Bool :=
  decide (sig.length = 2 * plen C ∧ leNat (sig.drop (plen C)) < val C.L ∧
    ∃ R : EdPoint a d, EdNames (plen C) C.pbits (sig.take (plen C)) R)

theorem edSigOk_iff (C : EdCurve) {p : Nat} [Fact p.Prime] (a d : ZMod p) (sig : List Byte) : edSigOk C a d sig = true ↔
    sig.length = 2 * plen C ∧ leNat (sig.drop (plen C)) < val C.L ∧ ∃ R : EdPoint a d, EdNames (plen C) C.pbits (sig.take (plen C)) R := by
  unfold edSigOk
  simp

/-- The flag and the octets that are signed for a message in memory and one in pieces. -/
def edFlag (pre : Bool) : Byte := if pre then 1 else 0
def edBody (H : Pkcs1.Hash) (pre : Bool) (m : List Byte) : List Byte := if pre then H.digest m 64 else m

section
variable {C : EdCurve} {c p : Nat} [hp : Fact p.Prime] {a d : ZMod p} (hC : SigOk C c p a d) [hE : EdComplete a d]

/-- What the code answers for a key, a context string, a signature and a message on a fresh context. -/
noncomputable def edAnswer (C : EdCurve) (c : Nat) (H : Pkcs1.Hash) {p : Nat} [Fact p.Prime] (a d : ZMod p) (pre : Bool)
    (pk ctx sig m : List Byte) : Bool :=
  edSigOk C a d sig && (rfcVerify C c H ⟨0, ctx, [], [], [], (pointDec C c pk).getD (xytzInf c), decLSB c (sig.drop (plen C)),
    (pointDec C c (sig.take (plen C))).getD (xytzInf c), []⟩ (edFlag pre) (edBody H pre m)).2

theorem rfcVerify_indep (H : Pkcs1.Hash) (x y : Ctx) (h1 : x.ctxstr = y.ctxstr) (h2 : x.A = y.A) (h3 : x.r = y.r) (h4 : x.R = y.R)
    (flags : Byte) (em : List Byte) : (rfcVerify C c H x flags em).2 = (rfcVerify C c H y flags em).2 := by
  unfold rfcVerify
  simp only [h1, h2, h3, h4]

/-- The context holds what it has been told. -/
structure EdHolds (C : EdCurve) (c : Nat) {p : Nat} [Fact p.Prime] (a d : ZMod p) (x : Ctx) (σ : EdState) : Prop where
  key : pointDec C c σ.key = some x.A
  ctx : x.ctxstr = σ.ctx
  sig : ∀ g, σ.sig = some g → edSigOk C a d g = true ∧ pointDec C c (g.take (plen C)) = some x.R ∧ x.r = decLSB c (g.drop (plen C))
  v1 : σ.verdict = some true → x.status = 1
  v2 : σ.verdict = some false → x.status = -1
  v3 : σ.verdict = none → x.status = 0
  m : ∀ m, σ.msg = some m → x.hmsg = m

omit hE in
theorem ed_fresh (H : Pkcs1.Hash) {x : Ctx} {σ : EdState} (h : EdHolds C c a d x σ) {g : List Byte} (hg : σ.sig = some g) (pre : Bool)
    (m : List Byte) : (rfcVerify C c H x (edFlag pre) (edBody H pre m)).2 = edAnswer C c H a d pre σ.key σ.ctx g m ∧
      EdHolds C c a d (rfcVerify C c H x (edFlag pre) (edBody H pre m)).1
        { σ with verdict := some (edAnswer C c H a d pre σ.key σ.ctx g m), sig := none, msg := none } := by
  obtain ⟨g1, g2, g3⟩ := h.sig g hg
  have e : (rfcVerify C c H x (edFlag pre) (edBody H pre m)).2 = edAnswer C c H a d pre σ.key σ.ctx g m := by
    unfold edAnswer
    rw [g1, Bool.true_and]
    exact rfcVerify_indep H _ _ h.ctx (by rw [h.key]; rfl) g3 (by rw [g2]; rfl) _ _
  have hst : (rfcVerify C c H x (edFlag pre) (edBody H pre m)).1.status =
      if (rfcVerify C c H x (edFlag pre) (edBody H pre m)).2 then 1 else -1 := by
    unfold rfcVerify
    simp only
    split <;> rfl
  obtain ⟨k1, k2, -⟩ := C63_verify_keeps_public C c H x (edFlag pre) (edBody H pre m)
  refine ⟨e, ?_⟩
  rw [← e]
  refine ⟨by rw [k1]; exact h.key, by rw [k2]; exact h.ctx, (fun _ hh => by cases hh), ?_, ?_, (fun hh => by cases hh),
    (fun _ hh => by cases hh)⟩
  · intro hh; rw [hst, Option.some.inj hh]; rfl
  · intro hh; rw [hst, Option.some.inj hh]; rfl

include hC

theorem ed_run (H : Pkcs1.Hash) (ops : List EdOp) : ∀ (x : Ctx) (σ : EdState), EdHolds C c a d x σ → (∀ o ∈ ops, EdWellFormed C a d o) →
    ∀ ans, edSession (edSigOk C a d) (edAnswer C c H a d) σ ops = some ans → verifyRun C c H x ops = ans := by
  induction ops with
  | nil => intro x σ h hw ans hs; simpa [edSession, verifyRun] using hs
  | cons o l ih =>
    intro x σ h hw ans hs
    have hwl : ∀ o ∈ l, EdWellFormed C a d o := fun o ho => hw o (by simp [ho])
    have hwo := hw o (by simp)
    cases o with
    | key pk =>
      obtain ⟨Q, hQ⟩ := hwo
      have hsome := (C60_accepts_iff hC hQ.1).mpr ⟨Q, hQ⟩
      obtain ⟨A, hA⟩ := Option.isSome_iff_exists.mp hsome
      have hd : decodePublicKey C c x pk = some ({ ctxInit C x with A := A }, true) := by
        unfold decodePublicKey
        rw [if_neg (by simpa using hQ.1), hA]
      simp only [verifyRun, hd]
      refine ih _ _ ?_ hwl ans hs
      exact ⟨hA, rfl, h.sig, (fun hh => by cases hh), (fun hh => by cases hh), (fun _ => rfl), (fun _ hh => by cases hh)⟩
    | context s =>
      have hd : xctrl x true (some s) = some { x with ctxstr := s } :=
        (C63_context_string x _ true (some s)).mpr ⟨rfl, s, rfl, hwo, rfl⟩
      simp only [verifyRun, hd, Option.getD_some]
      refine ih { x with ctxstr := s } { σ with ctx := s } ?_ hwl ans hs
      exact ⟨h.key, rfl, h.sig, h.v1, h.v2, h.v3, h.m⟩
    | load sig =>
      obtain ⟨d1, d2⟩ := C62_decode_signature hC x sig
      rw [← edSigOk_iff C a d sig] at d1
      simp only [edSession] at hs
      simp only [verifyRun]
      by_cases hok : edSigOk C a d sig = true
      · rw [if_pos hok] at hs
        have h2 := d1.mpr hok
        refine ih _ _ ?_ hwl ans hs
        obtain ⟨P, hP, hx⟩ : ∃ P, pointDec C c (sig.take (plen C)) = some P ∧
            (decodeSignature C c x sig).1 = { x with status := 0, R := P, r := decLSB c (sig.drop (plen C)) } := by
          unfold decodeSignature at h2 ⊢
          split_ifs at h2 ⊢
          cases hp : pointDec C c (sig.take (plen C)) with
          | none => rw [hp] at h2; cases h2
          | some P =>
            rw [hp] at h2
            simp only at h2 ⊢
            split_ifs at h2 ⊢
            exact ⟨P, rfl, rfl⟩
        rw [hx]
        refine ⟨h.key, h.ctx, ?_, (fun hh => by cases hh), (fun hh => by cases hh), (fun _ => rfl), h.m⟩
        intro g hg
        obtain rfl := Option.some.inj hg
        exact ⟨hok, hP, rfl⟩
      · rw [if_neg hok] at hs
        have h2 : (decodeSignature C c x sig).2 = false := by
          rw [Bool.eq_false_iff]; exact fun hh => hok (d1.mp hh)
        refine ih _ _ ?_ hwl ans hs
        have hk : (decodeSignature C c x sig).1.A = x.A ∧ (decodeSignature C c x sig).1.ctxstr = x.ctxstr ∧
            (decodeSignature C c x sig).1.hmsg = x.hmsg := by
          unfold decodeSignature
          split_ifs
          · exact ⟨rfl, rfl, rfl⟩
          · cases pointDec C c (sig.take (plen C)) with
            | none => exact ⟨rfl, rfl, rfl⟩
            | some P =>
              simp only
              split_ifs <;> exact ⟨rfl, rfl, rfl⟩
        exact ⟨by rw [hk.1]; exact h.key, by rw [hk.2.1]; exact h.ctx, (fun _ hh => by cases hh), (fun hh => by cases hh),
          (fun _ => d2 h2), (fun hh => by cases hh), by rw [hk.2.2]; exact h.m⟩
    | verify m =>
      cases hv : σ.verdict with
      | some v =>
        have hc : verify C c H x m = (x, v) := by
          unfold verify
          cases v
          · rw [if_neg (by rw [h.v2 hv]; decide), if_pos (h.v2 hv)]
          · rw [if_pos (h.v1 hv)]
        simp only [edSession, hv, Option.map_eq_some_iff] at hs
        obtain ⟨ans', k1, rfl⟩ := hs
        simp only [verifyRun, hc, ih _ _ h hwl ans' k1]
      | none =>
        cases hg : σ.sig with
        | none => simp [edSession, hv, hg] at hs
        | some g =>
          have hc : verify C c H x m = rfcVerify C c H x (edFlag false) (edBody H false m) := by
            unfold verify
            rw [if_neg (by rw [h.v3 hv]; decide), if_neg (by rw [h.v3 hv]; decide)]; rfl
          obtain ⟨e1, e2⟩ := ed_fresh H h hg false m
          simp only [edSession, hv, hg, Option.map_eq_some_iff] at hs
          obtain ⟨ans', k1, rfl⟩ := hs
          simp only [verifyRun, hc, e1, ih _ _ e2 hwl ans' k1]
    | start =>
      simp only [verifyRun]
      refine ih _ _ ?_ hwl ans hs
      exact ⟨h.key, h.ctx, h.sig, (fun hh => by cases hh), (fun hh => by cases hh), (fun _ => rfl), fun m hm => Option.some.inj hm⟩
    | feed b =>
      cases hm : σ.msg with
      | none => simp [edSession, hm] at hs
      | some m =>
        simp only [edSession, hm] at hs
        simp only [verifyRun]
        refine ih _ _ ?_ hwl ans hs
        refine ⟨h.key, h.ctx, h.sig, h.v1, h.v2, h.v3, fun m' hm' => ?_⟩
        rw [← Option.some.inj hm', ← h.m m hm]; rfl
    | final =>
      cases hv : σ.verdict with
      | some v =>
        have hc : incVerifyFinal C c H x = (x, v) := by
          unfold incVerifyFinal
          cases v
          · rw [if_neg (by rw [h.v2 hv]; decide), if_pos (h.v2 hv)]
          · rw [if_pos (h.v1 hv)]
        simp only [edSession, hv, Option.map_eq_some_iff] at hs
        obtain ⟨ans', k1, rfl⟩ := hs
        simp only [verifyRun, hc, ih _ _ h hwl ans' k1]
      | none =>
        cases hg : σ.sig with
        | none => simp [edSession, hv, hg] at hs
        | some g =>
          cases hm : σ.msg with
          | none => simp [edSession, hv, hg, hm] at hs
          | some m =>
            have hc : incVerifyFinal C c H x = rfcVerify C c H x (edFlag true) (edBody H true m) := by
              unfold incVerifyFinal
              rw [if_neg (by rw [h.v3 hv]; decide), if_neg (by rw [h.v3 hv]; decide), if_neg (by rw [h.v3 hv]; decide), h.m m hm]; rfl
            obtain ⟨e1, e2⟩ := ed_fresh H h hg true m
            simp only [edSession, hv, hg, hm, Option.map_eq_some_iff] at hs
            obtain ⟨ans', k1, rfl⟩ := hs
            simp only [verifyRun, hc, e1, ih _ _ e2 hwl ans' k1]

end

section
variable {C : EdCurve} {c p : Nat} [hp : Fact p.Prime] {a d : ZMod p} (hC : SigOk C c p a d) [hE : EdComplete a d]
  {B : EdPoint a d} (hB : BaseOk C c B)
include hC hB

/-- C94: a verification context, from any initial contents, takes a key; then, for every further history of keys, context strings,
signatures, messages in memory and messages in pieces, in any order: every verification answers for the last key, context string and
signature and its own message, or repeats the verdict given since.  The answer depends on those alone; a yes is right by the
standard's equation, and so is a no, unless the number of the signature is zero. -/
theorem C94_verifier (H : Pkcs1.Hash) : ∃ valid : Bool → List Byte → List Byte → List Byte → List Byte → Bool,
    (∀ (pre : Bool) (pk ctx sig m : List Byte) (Q : EdPoint a d), EdNames (plen C) C.pbits pk Q →
      (valid pre pk ctx sig m = true → EdValid (plen C) C.pbits (val C.L) B (fun m => H.digest m (plen C * 2))
        (edDom (plen C) (if pre then 1 else 0) ctx) pk Q (if pre then H.digest m 64 else m) sig) ∧
      (EdValid (plen C) C.pbits (val C.L) B (fun m => H.digest m (plen C * 2))
        (edDom (plen C) (if pre then 1 else 0) ctx) pk Q (if pre then H.digest m 64 else m) sig →
        leNat (sig.drop (plen C)) ≠ 0 → valid pre pk ctx sig m = true)) ∧
    ∀ (x : Ctx) (pk : List Byte) (ops : List EdOp) (ans : List Bool), (∃ Q : EdPoint a d, EdNames (plen C) C.pbits pk Q) →
      (∀ o ∈ ops, EdWellFormed C a d o) → edSession (edSigOk C a d) valid ⟨pk, [], none, none, none⟩ ops = some ans →
      verifyRun C c H x (.key pk :: ops) = ans := by
  refine ⟨edAnswer C c H a d, ?_, ?_⟩
  · intro pre pk ctx sig m Q hQ
    obtain ⟨A, hA⟩ := Option.isSome_iff_exists.mp ((C60_accepts_iff hC hQ.1).mpr ⟨Q, hQ⟩)
    have hd : decodePublicKey C c ⟨0, [], [], [], [], xytzInf c, [], xytzInf c, []⟩ pk =
        some ({ ctxInit C ⟨0, [], [], [], [], xytzInf c, [], xytzInf c, []⟩ with A := A }, true) := by
      unfold decodePublicKey
      rw [if_neg (by simpa using hQ.1), hA]
    obtain ⟨Q', n1, n2, n3, -⟩ := decodePublicKey_ok hC _ _ pk hd
    obtain rfl := C60_names_unique hC hQ n1
    have d1 := (C62_decode_signature hC
      { ({ ctxInit C ⟨0, [], [], [], [], xytzInf c, [], xytzInf c, []⟩ with A := A } : Ctx) with ctxstr := ctx } sig).1
    rw [← edSigOk_iff C a d sig] at d1
    by_cases hok : edSigOk C a d sig = true
    · have h2 := d1.mpr hok
      have hcore := verify_core hC hB H
        { ({ ctxInit C ⟨0, [], [], [], [], xytzInf c, [], xytzInf c, []⟩ with A := A } : Ctx) with ctxstr := ctx } pk sig n2 n3 h2
        0 [] (edFlag pre) (edBody H pre m)
      have heq : edAnswer C c H a d pre pk ctx sig m = (rfcVerify C c H { (decodeSignature C c
          { ({ ctxInit C ⟨0, [], [], [], [], xytzInf c, [], xytzInf c, []⟩ with A := A } : Ctx) with ctxstr := ctx } sig).1 with
            status := 0, hmsg := [] } (edFlag pre) (edBody H pre m)).2 := by
        unfold edAnswer
        rw [hok, Bool.true_and]
        have hx : ∃ P, pointDec C c (sig.take (plen C)) = some P ∧ (decodeSignature C c
            { ({ ctxInit C ⟨0, [], [], [], [], xytzInf c, [], xytzInf c, []⟩ with A := A } : Ctx) with ctxstr := ctx } sig).1 =
            { ({ ({ ctxInit C ⟨0, [], [], [], [], xytzInf c, [], xytzInf c, []⟩ with A := A } : Ctx) with ctxstr := ctx } : Ctx) with
              status := 0, R := P, r := decLSB c (sig.drop (plen C)) } := by
          unfold decodeSignature at h2 ⊢
          split_ifs at h2 ⊢
          cases hp : pointDec C c (sig.take (plen C)) with
          | none => rw [hp] at h2; cases h2
          | some P =>
            rw [hp] at h2
            simp only at h2 ⊢
            split_ifs at h2 ⊢
            exact ⟨P, rfl, rfl⟩
        obtain ⟨P, hP, hx⟩ := hx
        refine rfcVerify_indep H _ _ ?_ ?_ ?_ ?_ _ _
        · rw [hx]
        · rw [hx, hA]; rfl
        · rw [hx]
        · rw [hx, hP]; rfl
      rw [heq]
      exact hcore
    · refine ⟨fun h => ?_, fun h _ => ?_⟩
      · unfold edAnswer at h
        rw [Bool.and_eq_true] at h
        exact absurd h.1 hok
      · obtain ⟨e1, e2, R, e3, -⟩ := h
        exact absurd ((edSigOk_iff C a d sig).mpr ⟨e1, e2, R, e3⟩) hok
  · intro x pk ops ans ⟨Q, hQ⟩ hw hs
    obtain ⟨A, hA⟩ := Option.isSome_iff_exists.mp ((C60_accepts_iff hC hQ.1).mpr ⟨Q, hQ⟩)
    have hd : decodePublicKey C c x pk = some ({ ctxInit C x with A := A }, true) := by
      unfold decodePublicKey
      rw [if_neg (by simpa using hQ.1), hA]
    simp only [verifyRun, hd]
    refine ed_run hC H ops _ _ ?_ hw ans hs
    exact ⟨hA, rfl, (fun _ hh => by cases hh), (fun hh => by cases hh), (fun hh => by cases hh), (fun _ => rfl), (fun _ hh => by cases hh)⟩

/-- C94: a signing context, from any initial contents, takes a private key; then, for every history of context strings (of at most 255
octets), messages in memory and messages in pieces, every signature exported is the standard's for that key, the last context string
and its own message.  For Ed448 if the secret scalar is not a multiple of the order. -/
theorem C94_signer (H : Pkcs1.Hash) (x y : Ctx) (sk : List Byte) (h : decodePrivateKey C c H x sk = some y)
    (hs : plen C = 32 ∨ edScalar (plen C) (H.digest sk (plen C * 2)) % val C.L ≠ 0) (ops : List EdSignOp)
    (hw : ∀ s, EdSignOp.context s ∈ ops → s.length ≤ 255) (sigs : List (List Byte))
    (hm : edSignSession (fun pre ctx m => edSign (plen C) (val C.L) B (fun m => H.digest m (plen C * 2))
      (edDom (plen C) (if pre then 1 else 0) ctx) ((H.digest sk (plen C * 2)).drop (plen C))
      (edEncode (plen C) (edScalar (plen C) (H.digest sk (plen C * 2)) • B)) (edScalar (plen C) (H.digest sk (plen C * 2)))
      (if pre then H.digest m 64 else m)) [] none ops = some sigs) :
    signRun C c H y ops = sigs.map some := by
  have hy : y.ctxstr = [] := by
    unfold decodePrivateKey at h
    split at h
    · cases h
    · rw [← Option.some.inj h]; rfl
  have key : ∀ (ops : List EdSignOp) (z : Ctx) (ctx : List Byte) (om : Option (List Byte)) (sigs : List (List Byte)),
      (∀ s, EdSignOp.context s ∈ ops → s.length ≤ 255) →
      (∃ st g r R, z = { y with ctxstr := ctx, status := st, hmsg := g, r := r, R := R }) → (∀ m, om = some m → z.hmsg = m) →
      edSignSession (fun pre ctx m => edSign (plen C) (val C.L) B (fun m => H.digest m (plen C * 2))
        (edDom (plen C) (if pre then 1 else 0) ctx) ((H.digest sk (plen C * 2)).drop (plen C))
        (edEncode (plen C) (edScalar (plen C) (H.digest sk (plen C * 2)) • B)) (edScalar (plen C) (H.digest sk (plen C * 2)))
        (if pre then H.digest m 64 else m)) ctx om ops = some sigs → signRun C c H z ops = sigs.map some := by
    intro ops
    induction ops with
    | nil => intro z ctx om sigs _ _ _ hm; simp only [edSignSession, Option.some.injEq] at hm; subst hm; rfl
    | cons o l ih =>
      intro z ctx om sigs hw ⟨st, g, r, R, hz⟩ ho hm
      have hwl : ∀ s, EdSignOp.context s ∈ l → s.length ≤ 255 := fun s hs => hw s (by simp [hs])
      cases o with
      | context s =>
        have hd : xctrl z true (some s) = some { z with ctxstr := s } :=
          (C63_context_string z _ true (some s)).mpr ⟨rfl, s, rfl, hw s (by simp), rfl⟩
        simp only [signRun, hd, Option.getD_some]
        exact ih { z with ctxstr := s } s om sigs hwl ⟨st, g, r, R, by rw [hz]⟩ ho hm
      | sign m =>
        simp only [edSignSession, Option.map_eq_some_iff] at hm
        obtain ⟨sigs', k1, rfl⟩ := hm
        have e := C62_sign_octets hC hB H x y sk h hs ctx 0 g 0 m
        have e' : encodeSignature C (sign C c H z m) (plen C * 2) = encodeSignature C
            (rfcSign C c H { y with ctxstr := ctx, status := 0, hmsg := g } 0 m) (plen C * 2) := by rw [hz]; rfl
        simp only [signRun, List.map_cons]
        rw [e', e]
        congr 1
        exact ih _ ctx none sigs' hwl ⟨0, _, _, _, by rw [hz]; rfl⟩ (by simp) k1
      | start =>
        exact ih (incInit z) ctx (some []) sigs hwl ⟨0, [], r, R, by rw [hz]; rfl⟩ (fun m hm => Option.some.inj hm) hm
      | feed b =>
        cases om with
        | none => cases hm
        | some m =>
          refine ih (update z b) ctx (some (m ++ b)) sigs hwl ⟨st, g ++ b, r, R, by rw [hz]; rfl⟩ ?_ hm
          intro m' hm'
          rw [← Option.some.inj hm', ← ho m rfl]; rfl
      | final =>
        cases om with
        | none => cases hm
        | some m =>
          simp only [edSignSession, Option.map_eq_some_iff] at hm
          obtain ⟨sigs', k1, rfl⟩ := hm
          have hg : g = m := by have := ho m rfl; rw [hz] at this; exact this
          have e := C62_sign_octets hC hB H x y sk h hs ctx st g 1 (H.digest m 64)
          have e' : encodeSignature C (incSignFinal C c H z) (plen C * 2) = encodeSignature C
              (rfcSign C c H { y with ctxstr := ctx, status := st, hmsg := g } 1 (H.digest m 64)) (plen C * 2) := by
            rw [hz, ← hg]; rfl
          simp only [signRun, List.map_cons]
          rw [e', e]
          congr 1
          exact ih _ ctx none sigs' hwl ⟨st, _, _, _, by rw [hz]; rfl⟩ (by simp) k1
  exact key ops y [] none sigs hw ⟨y.status, y.hmsg, y.r, y.R, by rw [← hy]⟩ (by simp) hm

end

/-- A history of a verifier: a key, a context string, a signature and two messages, the signature again with a message in pieces asked
twice, octets that are no signature. -/
example : ∃ (B : EdPoint ((aEd25519 : Nat) : ZMod qEd25519) ((dEd25519 : Nat) : ZMod qEd25519)) (pk sig : List Byte),
    BaseOk ed25519 11 B ∧ EdNames (plen ed25519) ed25519.pbits pk B ∧
    (∀ o ∈ [EdOp.context [7], .load sig, .verify [1], .verify [2], .load sig, .start, .feed [3], .feed [4], .final, .final, .load [], .verify [5]],
      EdWellFormed ed25519 ((aEd25519 : Nat) : ZMod qEd25519) ((dEd25519 : Nat) : ZMod qEd25519) o) ∧
    ∀ valid, edSession (edSigOk ed25519 ((aEd25519 : Nat) : ZMod qEd25519) ((dEd25519 : Nat) : ZMod qEd25519)) valid
      ⟨pk, [], none, none, none⟩
      [.context [7], .load sig, .verify [1], .verify [2], .load sig, .start, .feed [3], .feed [4], .final, .final, .load [], .verify [5]] =
      some [valid false pk [7] sig [1], valid false pk [7] sig [1], valid true pk [7] sig [3, 4], valid true pk [7] sig [3, 4], false] := by
  obtain ⟨B, hB⟩ := C60_suites.1.2.1
  have hn := C60_encode_names sigOk25519 B
  have hl : (edEncode (plen ed25519) B).length = plen ed25519 := by simp [edEncode, leN]
  have hok : edSigOk ed25519 ((aEd25519 : Nat) : ZMod qEd25519) ((dEd25519 : Nat) : ZMod qEd25519)
      (edEncode (plen ed25519) B ++ leN 32 1) = true := by
    rw [edSigOk_iff]
    refine ⟨?_, ?_, B, ?_⟩
    · rw [List.length_append, hl]; decide +kernel
    · rw [List.drop_left' hl]; decide +kernel
    · rw [List.take_left' hl]; exact hn
  have hbad : edSigOk ed25519 ((aEd25519 : Nat) : ZMod qEd25519) ((dEd25519 : Nat) : ZMod qEd25519) [] = false := by
    rw [Bool.eq_false_iff]
    intro h
    exact absurd ((edSigOk_iff _ _ _ _).mp h).1 (by decide +kernel)
  refine ⟨B, _, edEncode (plen ed25519) B ++ leN 32 1, hB, hn, ?_, fun valid => ?_⟩
  · intro o ho
    simp only [List.mem_cons, List.not_mem_nil, or_false] at ho
    rcases ho with rfl | rfl | rfl | rfl | rfl | rfl | rfl | rfl | rfl | rfl | rfl | rfl <;> simp [EdWellFormed]
  · simp only [edSession, hok, hbad, if_true, Bool.false_eq_true, if_false, Option.map_some, List.nil_append, List.cons_append]

/-- A history of a signer: the key is taken, and every signature has its message. -/
example (H : Pkcs1.Hash) (x : Ctx) : (∃ y, decodePrivateKey ed25519 11 H x (List.replicate 32 5) = some y) ∧ plen ed25519 = 32 ∧
    ∀ f, edSignSession f [] none [.sign [1], .context [7], .start, .feed [2], .feed [3], .final, .sign [4]] =
      some [f false [] [1], f true [7] [2, 3], f false [7] [4]] := by
  refine ⟨⟨_, C61_keygen (C := ed25519) (c := 11) H x _ rfl⟩, rfl, fun f => rfl⟩

end Props
