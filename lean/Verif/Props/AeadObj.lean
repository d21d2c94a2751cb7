import Verif.Model.AeadObj
import Verif.Props.Dispatch
import Verif.Props.ChachaPoly
import Verif.Props.Ccm
import Verif.Props.Gcm

/-!
# Property C91: authenticated encryption through the algorithm objects

A user asks an object for its functions, keys a context with one of them and then makes any sequence of encryptions and decryptions with the others.
-/
namespace Props
open Dispatch Spec
open AeadObj (AObj ACtx Out callEnc callDec encFn iGCM_AES tGCM iCCM_AES tCCM iChaCha_AEAD encAns decAns)

/-- `AENC_FUNC(o)(...)` or `ADEC_FUNC(o)(...)`. -/
def aeadStep (o : AObj) (fuel : Nat) (x : ACtx) (m : Mem) : AeadOp → Out (ACtx × Mem × AeadAnswer)
  | .enc iv A len inp out tlen => match o.fn .aEncFunc with
    | none => .undefined
    | some f => callEnc f x iv A len inp out tlen m fuel
  | .dec iv A len inp out T => match o.fn .aDecFunc with
    | none => .undefined
    | some f => callDec f x iv A len inp out T m fuel

/-- The calls of a sequence, one after the other. -/
def aeadSteps (o : AObj) (fuel : Nat) (x : ACtx) (m : Mem) : List AeadOp → Out (ACtx × Mem × List AeadAnswer)
  | [] => .done (x, m, [])
  | op :: ops => match aeadStep o fuel x m op with
    | .undefined => .undefined
    | .running => .running
    | .done (x', m', a) => match aeadSteps o fuel x' m' ops with
      | .undefined => .undefined
      | .running => .running
      | .done (y, n, as) => .done (y, n, a :: as)

/-- The calls with the context, if there is one. -/
def withCtx (o : AObj) (fuel : Nat) (m : Mem) (ops : List AeadOp) : Option ACtx → Out (Option (Mem × List AeadAnswer))
  | none => .done none
  | some x => match aeadSteps o fuel x m ops with
    | .undefined => .undefined
    | .running => .running
    | .done (_, n, as) => .done (some (n, as))

/-- `KINIT_FUNC(o)(&x, key, keylen)`, then the calls; `none` for a null pointer from the former.  `mem` is what the memory of the context held. -/
def useAead (o : AObj) (mem : Chacha.Ctx) (fuel : Nat) (key : List Byte) (m : Mem) (ops : List AeadOp) : Out (Option (Mem × List AeadAnswer)) :=
  match o.fn .kInitFunc with
  | none => .undefined
  | some f => match AeadObj.callInit f o.param mem key with
    | .undefined => .undefined
    | .running => .running
    | .done x => withCtx o fuel m ops x

/-- The output does not start inside the input, behind its first octet; and is not the null pointer. -/
def AeadOp.placed : AeadOp → Prop
  | .enc _ _ len inp out _ => Streamable inp out len ∧ out ≠ 0
  | .dec _ _ len inp out _ => Streamable inp out len ∧ out ≠ 0

/-- The object does what the algorithm says, for every sequence of calls that are `ok`. -/
def Implements (o : AObj) (key : List Byte) (ok : AeadOp → Prop) (fuel : Nat) (a : AeadAlg) : Prop :=
  ∀ (mem : Chacha.Ctx) (_ : mem.state.length = 16) (m : Mem) (ops : List AeadOp), (∀ op ∈ ops, ok op) → useAead o mem fuel key m ops = .done (some (a.session m ops))

theorem steps_inv (o : AObj) (fuel : Nat) (a : AeadAlg) (ok : AeadOp → Prop) (Inv : ACtx → Prop)
    (h : ∀ x m op, Inv x → ok op → ∃ x', aeadStep o fuel x m op = .done (x', a.step m op) ∧ Inv x') :
    ∀ (ops : List AeadOp) (x : ACtx) (m : Mem), Inv x → (∀ op ∈ ops, ok op) → ∃ x', aeadSteps o fuel x m ops = .done (x', a.session m ops) := by
  intro ops
  induction ops with
  | nil => intro x m _ _; exact ⟨x, rfl⟩
  | cons op ops ih =>
    intro x m hx ho
    obtain ⟨x1, e1, i1⟩ := h x m op hx (ho op (by simp))
    obtain ⟨x2, e2⟩ := ih x1 (a.step m op).1 i1 fun p hp => ho p (by simp [hp])
    refine ⟨x2, ?_⟩
    rw [aeadSteps, e1]
    simp only
    rw [e2]
    rfl

theorem step_dec (a : AeadAlg) (m : Mem) (iv A T : List Byte) (len inp out : Nat) :
    (a.fits iv.length A.length len T.length = false → a.step m (.dec iv A len inp out T) = (m, .null)) ∧
    (a.fits iv.length A.length len T.length = true →
      (T = a.tag iv A (a.cipher iv (bytesAt m inp len)) (bytesAt m inp len) T.length →
        a.step m (.dec iv A len inp out T) = (storeAt m out (a.cipher iv (bytesAt m inp len)), .accepted)) ∧
      (T ≠ a.tag iv A (a.cipher iv (bytesAt m inp len)) (bytesAt m inp len) T.length → a.step m (.dec iv A len inp out T) = (m, .null))) := by
  unfold AeadAlg.step
  refine ⟨fun h => by simp [h], fun h => ⟨fun hT => ?_, fun hT => ?_⟩⟩
  · simp only [h]
    exact if_pos hT
  · simp only [h]
    exact if_neg hT

/-- The objects for GCM over the block cipher `bc`. -/
inductive GcmOver : AObj → IObj → Prop
  | aes (b : Nat) (h : b = 128 ∨ b = 192 ∨ b = 256) : GcmOver (iGCM_AES b) (iAES b)
  | template (bc : IObj) : GcmOver (tGCM bc) bc
/-- The objects for CCM over the block cipher `bc`. -/
inductive CcmOver : AObj → IObj → Prop
  | aes (b : Nat) (h : b = 128 ∨ b = 192 ∨ b = 256) : CcmOver (iCCM_AES b) (iAES b)
  | template (bc : IObj) : CcmOver (tCCM bc) bc

theorem gcm_cipher_twice (E : List Byte → List Byte) (hE : ∀ x : List Byte, x.length = 16 → (E x).length = 16) (iv : List Byte) (hiv : iv.length = 12) (P : List Byte) :
    gcmCipher E iv (gcmCipher E iv P) = P ∧ (gcmCipher E iv P).length = P.length := by
  have hEi : ∀ i, ((fun i => E (iv ++ beN 4 (i + 2))) i).length = 16 := fun i => hE _ (by rw [List.length_append, hiv, length_beN])
  unfold gcmCipher
  exact ⟨Aead.streamXor_twice 16 (by omega) _ hEi _, Aead.length_streamXor 16 (by omega) _ hEi _⟩

/-- C91: GCM through every object for it: the key length is the one announced, other lengths give a null pointer, and every sequence of calls does
what SP 800-38D says. -/
theorem C91_gcm {o : AObj} {bc : IObj} (ho : GcmOver o bc) {n : Nat} {E : List Byte → List Byte → List Byte} (hc : SuiteCipher bc n E)
    (mul : List Byte → List Byte → List Byte) (hm : ∀ a b, a.length = 16 → b.length = 16 → IsGfProduct a b (mul a b)) (key : List Byte) (fuel : Nat) :
    o.num .keyBytes = n ∧ (key.length = n → Implements o key AeadOp.placed fuel (gcmAlg mul (E key))) ∧
    (key.length ≠ n → ∀ mem m ops, useAead o mem fuel key m ops = .done none) := by
  have hi : ∀ mem m ops, useAead o mem fuel key m ops = withCtx o fuel m ops (AeadObj.gcmInit bc key) := by
    intro mem m ops
    cases ho <;> rfl
  have hfe : o.fn .aEncFunc = some .GCM_Encrypt := by cases ho <;> rfl
  have hfd : o.fn .aDecFunc = some .GCM_Decrypt := by cases ho <;> rfl
  have hkb := (C89_cipher hc).1
  have hkn : (bc.num .keyBytes).toNat = n := by rw [hkb]; rfl
  refine ⟨?_, fun hk mem _ m ops hops => ?_, fun hk mem m ops => ?_⟩
  · cases ho <;> exact hkb
  · obtain ⟨g, hg, -⟩ := C89_gcm hc hk mul hm (List.replicate 12 0) [] [] 0 0 0 0 m (by simp) (by simp) (by simp) (Or.inl le_rfl)
    have hinit : AeadObj.gcmInit bc key = some (.gcm g) := by
      unfold AeadObj.gcmInit
      rw [show encFn bc key = blockFn bc key from rfl, hg]; rfl
    rw [hi, hinit]
    obtain ⟨x', e⟩ := steps_inv o fuel (gcmAlg mul (E key)) AeadOp.placed (fun x => x = .gcm g) (by
      rintro x m op rfl hop
      refine ⟨.gcm g, ?_, rfl⟩
      cases op with
      | enc iv A len inp out tlen =>
        obtain ⟨hs, h0⟩ := hop
        rw [aeadStep, hfe]
        simp only [callEnc, AeadAlg.step, gcmAlg, decide_eq_true_eq]
        by_cases hb : iv.length = 12 ∧ A.length < 2 ^ 61 ∧ len ≤ 2 ^ 36 - 32
        · obtain ⟨g', hg', e, -⟩ := C89_gcm hc hk mul hm iv A [] len inp out tlen m hb.1 hb.2.1 hb.2.2 hs
          rw [hg, Option.some.injEq] at hg'
          subst hg'
          rw [e, if_pos hb]
          simp [encAns, h0]
        · rw [(((C23_gcm_refusals g iv A [] len inp out tlen m).2) (by omega)).1, if_neg hb]
      | dec iv A len inp out T =>
        obtain ⟨hs, h0⟩ := hop
        rw [aeadStep, hfd]
        simp only [callDec]
        obtain ⟨s1, s2⟩ := step_dec (gcmAlg mul (E key)) m iv A T len inp out
        by_cases hb : iv.length = 12 ∧ A.length < 2 ^ 61 ∧ len ≤ 2 ^ 36 - 32
        · obtain ⟨g', hg', -, e⟩ := C89_gcm hc hk mul hm iv A T len inp out 0 m hb.1 hb.2.1 hb.2.2 hs
          rw [hg, Option.some.injEq] at hg'
          subst hg'
          obtain ⟨s3, s4⟩ := s2 (decide_eq_true hb)
          by_cases hT : T = fitTo (gcmTag mul (E key) iv A (bytesAt m inp len)) T.length
          · rw [e, if_pos hT, s3 hT]; simp [decAns, h0]; rfl
          · rw [e, if_neg hT, s4 hT]; simp [decAns]
        · rw [(((C23_gcm_refusals g iv A T len inp out 0 m).2) (by omega)).2, s1 (decide_eq_false hb)]
          rfl) ops (.gcm g) m rfl hops
    show (match aeadSteps _ _ _ _ _ with | .undefined => _ | .running => _ | .done (_, n, as) => _) = _
    rw [e]
  · rw [hi]
    unfold AeadObj.gcmInit Gcm.init
    rw [if_pos (by rw [hkn]; exact hk)]
    rfl

/-- C91: CCM through every object for it, if no message is longer than 31 octets (from 32 on the code does not return, `C91_ccm_runs_forever`).  Missing:
longer messages. -/
theorem C91_ccm_partial {o : AObj} {bc : IObj} (ho : CcmOver o bc) {n : Nat} {E : List Byte → List Byte → List Byte} (hc : SuiteCipher bc n E)
    (key : List Byte) (fuel : Nat) (hf : 31 ≤ fuel) :
    o.num .keyBytes = n ∧
    (key.length = n → Implements o key (fun op => AeadOp.placed op ∧ match op with | .enc _ _ len _ _ _ => len ≤ 31 | .dec _ _ len _ _ _ => len ≤ 31) fuel (ccmAlg (E key))) ∧
    (key.length ≠ n → ∀ mem m ops, useAead o mem fuel key m ops = .done none) := by
  have hi : ∀ mem m ops, useAead o mem fuel key m ops = withCtx o fuel m ops (AeadObj.ccmInit bc key) := by
    intro mem m ops
    cases ho <;> rfl
  have hfe : o.fn .aEncFunc = some .CCM_Encrypt := by cases ho <;> rfl
  have hfd : o.fn .aDecFunc = some .CCM_Decrypt := by cases ho <;> rfl
  have hkb := (C89_cipher hc).1
  have hkn : (bc.num .keyBytes).toNat = n := by rw [hkb]; rfl
  have hmem : ∀ t, t ∈ [4, 6, 8, 10, 12, 14, 16] ↔ 4 ≤ t ∧ t ≤ 16 ∧ t % 2 = 0 := by
    intro t
    simp only [List.mem_cons, List.not_mem_nil, or_false]
    omega
  refine ⟨?_, fun hk mem _ m ops hops => ?_, fun hk mem m ops => ?_⟩
  · cases ho <;> exact hkb
  · have hinit : AeadObj.ccmInit bc key = some (.ccm (blockFn bc key)) := by
      unfold AeadObj.ccmInit
      rw [hkn, hk]
      unfold Query.ccmInit
      simp
      rfl
    rw [hi, hinit]
    obtain ⟨x', e⟩ := steps_inv o fuel (ccmAlg (E key)) _ (fun x => x = .ccm (blockFn bc key)) (by
      rintro x m op rfl hop
      refine ⟨.ccm (blockFn bc key), ?_, rfl⟩
      cases op with
      | enc iv A len inp out tlen =>
        obtain ⟨⟨hs, h0⟩, hl⟩ := hop
        simp only at hl
        rw [aeadStep, hfe]
        simp only [callEnc, AeadAlg.step, ccmAlg, decide_eq_true_eq]
        by_cases hb : (7 ≤ iv.length ∧ iv.length ≤ 13) ∧ tlen ∈ [4, 6, 8, 10, 12, 14, 16] ∧ len < 256 ^ (15 - iv.length)
        · obtain ⟨-, e, -⟩ := C82_ccm_objects_partial hc hk iv A (List.replicate 4 0) len inp out tlen m fuel hb.1 ((hmem _).1 hb.2.1) (by simp) hl (by omega) hs
          rw [e, if_pos hb]
          simp [encAns, h0]
        · rw [((C26_ccm_refusals (blockFn bc key) iv A [] len inp out tlen m fuel (by omega)).1) (by
            by_contra hn
            refine hb ⟨?_, ?_, ?_⟩
            · by_contra h; exact hn (Or.inl h)
            · by_contra h; exact hn (Or.inr (Or.inl h))
            · by_contra h; exact hn (Or.inr (Or.inr (by omega)))), if_neg hb]
      | dec iv A len inp out T =>
        obtain ⟨⟨hs, h0⟩, hl⟩ := hop
        simp only at hl
        rw [aeadStep, hfd]
        simp only [callDec]
        obtain ⟨s1, s2⟩ := step_dec (ccmAlg (E key)) m iv A T len inp out
        by_cases hb : (7 ≤ iv.length ∧ iv.length ≤ 13) ∧ T.length ∈ [4, 6, 8, 10, 12, 14, 16] ∧ len < 256 ^ (15 - iv.length)
        · obtain ⟨-, -, e⟩ := C82_ccm_objects_partial hc hk iv A T len inp out 4 m fuel hb.1 (by omega) ((hmem _).1 hb.2.1) hl (by omega) hs
          obtain ⟨s3, s4⟩ := s2 (decide_eq_true hb)
          by_cases hT : T = ccmTag (E key) iv A (ccmCipher (E key) iv (bytesAt m inp len)) T.length
          · rw [e, if_pos hT, s3 hT]; simp [decAns, h0]; rfl
          · rw [e, if_neg hT, s4 hT]; simp [decAns]
        · rw [((C26_ccm_refusals (blockFn bc key) iv A T len inp out 0 m fuel (by omega)).2) (by
            by_contra hn
            refine hb ⟨?_, ?_, ?_⟩
            · by_contra h; exact hn (Or.inl h)
            · by_contra h; exact hn (Or.inr (Or.inl h))
            · by_contra h; exact hn (Or.inr (Or.inr (by omega)))), s1 (decide_eq_false hb)]) ops _ m rfl hops
    show (match aeadSteps _ _ _ _ _ with | .undefined => _ | .running => _ | .done (_, n, as) => _) = _
    rw [e]
  · rw [hi]
    unfold AeadObj.ccmInit Query.ccmInit
    rw [hkn, if_pos hk]
    rfl

/-- C91: ChaCha20-Poly1305 through its object; the tags as in C25. -/
theorem C91_chacha (key : List Byte) (fuel : Nat) :
    iChaCha_AEAD.num .keyBytes = 32 ∧
    (key.length = 32 → ∃ tag : List Byte → List Byte → List Byte → List Byte,
      (∀ iv A C, (tag iv A C).length = 16 ∧
        (leNat (tag iv A C) = chachaTag key iv A C ∨ leNat (tag iv A C) = (chachaTag key iv A C + p1305) % 2 ^ 128) ∧
        (35 ≤ chachaAcc key iv A C → leNat (tag iv A C) = chachaTag key iv A C)) ∧
      Implements iChaCha_AEAD key (fun op => AeadOp.placed op ∧ match op with | .enc _ A _ _ _ _ => A.length < 2 ^ 64 | .dec _ A _ _ _ _ => A.length < 2 ^ 64) fuel
        (chachaAlg key tag)) ∧
    (key.length ≠ 32 → ∀ mem m ops, useAead iChaCha_AEAD mem fuel key m ops = .done none) := by
  refine ⟨rfl, fun hk => ?_, fun hk mem m ops => ?_⟩
  · obtain ⟨tag, ht, hr⟩ := C25_chacha_poly1305 key
    refine ⟨tag, ht, fun mem h16 m ops hops => ?_⟩
    have hi : Chacha.init mem key = some { mem with state := Chacha.setState mem.state (some key) none } := if_neg (fun h => h hk)
    have h0 := ChachaReach.init mem _ h16 hk hi
    obtain ⟨x', e⟩ := steps_inv iChaCha_AEAD fuel (chachaAlg key tag) _ (fun x => ∃ y, x = .chacha y ∧ ChachaReach key y) (by
      rintro x m op ⟨y, rfl, hy⟩ hop
      cases op with
      | enc iv A len inp out tlen =>
        obtain ⟨⟨hs, h0⟩, hA⟩ := hop
        simp only at hA
        show ∃ x', callEnc .ChaCha_AEAD_Encrypt (.chacha y) iv A len inp out tlen m fuel = _ ∧ _
        simp only [callEnc, AeadAlg.step, chachaAlg, decide_eq_true_eq]
        by_cases hb : iv.length = 12 ∧ len < 2 ^ 38
        · obtain ⟨⟨y', e⟩, -⟩ := hr y iv A [] len inp out tlen m hy hb.1 hA hb.2 hs
          rw [e, if_pos hb]
          exact ⟨_, by simp [encAns, h0], y', rfl, .enc y y' iv A len inp out tlen m _ _ hy hA hs e⟩
        · rw [((C25_refusals y iv A [] key len inp out tlen m).2 (by omega)).1, if_neg hb]
          exact ⟨_, rfl, y, rfl, hy⟩
      | dec iv A len inp out T =>
        obtain ⟨⟨hs, h0⟩, hA⟩ := hop
        simp only at hA
        show ∃ x', callDec .ChaCha_AEAD_Decrypt (.chacha y) iv A len inp out T m fuel = _ ∧ _
        simp only [callDec]
        obtain ⟨s1, s2⟩ := step_dec (chachaAlg key tag) m iv A T len inp out
        refine ⟨_, ?_, _, rfl, .dec y iv A T len inp out m hy hA hs⟩
        by_cases hb : iv.length = 12 ∧ len < 2 ^ 38
        · obtain ⟨-, y', e⟩ := hr y iv A T len inp out 0 m hy hb.1 hA hb.2 hs
          obtain ⟨s3, s4⟩ := s2 (decide_eq_true hb)
          by_cases hT : T = fitTo (tag iv A (bytesAt m inp len)) T.length
          · rw [e, if_pos hT, s3 hT]; simp [decAns, h0]; rfl
          · rw [e, if_neg hT, s4 hT]; simp [decAns]
        · rw [((C25_refusals y iv A T key len inp out 0 m).2 (by omega)).2, s1 (decide_eq_false hb)]
          simp [decAns]) ops (.chacha _) m ⟨_, rfl, h0⟩ hops
    show withCtx _ _ _ _ ((Chacha.init mem key).map ACtx.chacha) = _
    rw [hi]
    show (match aeadSteps _ _ _ _ _ with | .undefined => _ | .running => _ | .done (_, n, as) => _) = _
    rw [e]
  · have hi : Chacha.init mem key = none := if_pos hk
    show withCtx _ _ _ _ ((Chacha.init mem key).map ACtx.chacha) = _
    rw [hi]
    rfl

/-! ## Between two parties -/

theorem session_append (a : AeadAlg) (xs ys : List AeadOp) : ∀ m, a.session m (xs ++ ys) =
    ((a.session (a.session m xs).1 ys).1, (a.session m xs).2 ++ (a.session (a.session m xs).1 ys).2) := by
  induction xs with
  | nil => intro m; rfl
  | cons x xs ih =>
    intro m
    simp only [List.cons_append, AeadAlg.session]
    rw [ih]

theorem bytes_store (m : Mem) (p : Nat) (s : List Byte) (n : Nat) (hn : s.length = n) : bytesAt (storeAt m p s) p n = s := by
  subst hn
  apply Aead.list_ext_getD (by rw [Aead.length_bytesAt])
  intro k hk
  rw [Aead.length_bytesAt] at hk
  rw [Aead.getD_bytesAt _ _ _ _ hk]
  unfold storeAt
  rw [if_pos (by omega), show p + k - p = k by omega]

/-- Enciphering twice gives the message back, nothing changes its length, and tags have the length wanted. -/
def AeadSound (a : AeadAlg) : Prop := ∀ (iv A P : List Byte) (t : Nat), a.fits iv.length A.length P.length t = true →
  a.cipher iv (a.cipher iv P) = P ∧ (a.cipher iv P).length = P.length ∧ (a.tag iv A P (a.cipher iv P) t).length = t

theorem gcm_sound (mul : List Byte → List Byte → List Byte) (E : List Byte → List Byte) (hE : ∀ x : List Byte, x.length = 16 → (E x).length = 16) :
    AeadSound (gcmAlg mul E) := by
  intro iv A P t h
  have h := of_decide_eq_true h
  obtain ⟨h1, h2⟩ := gcm_cipher_twice E hE iv h.1 P
  exact ⟨h1, h2, Aead.length_fitTo _ _⟩

theorem ccm_sound (E : List Byte → List Byte) (hE : ∀ x : List Byte, x.length = 16 → (E x).length = 16) : AeadSound (ccmAlg E) := by
  intro iv A P t h
  obtain ⟨⟨h1, h2⟩, h3, -⟩ := of_decide_eq_true h
  simp only [List.mem_cons, List.not_mem_nil, or_false] at h3
  have hEi : ∀ i, ((fun i => E (ccmCtr iv (i + 1))) i).length = 16 := fun i => hE _ (Ccm.length_ctr iv h2 _)
  refine ⟨Aead.streamXor_twice 16 (by omega) _ hEi _, Aead.length_streamXor 16 (by omega) _ hEi _, ?_⟩
  show (ccmTag E iv A P t).length = t
  unfold ccmTag
  simp [xorBytes, Ccm.length_ccmMac E hE, hE _ (Ccm.length_ctr iv h2 0)]
  omega

theorem chacha_sound (key : List Byte) (tag : List Byte → List Byte → List Byte → List Byte) : AeadSound (chachaAlg key tag) := by
  intro iv A P t _
  refine ⟨?_, Chacha.length_cipher _ _ _, Aead.length_fitTo _ _⟩
  show chachaCipher key iv (chachaCipher key iv P) = P
  unfold chachaCipher
  exact Aead.streamXor_twice 64 (by omega) _ (fun i => Chacha.length_chachaBlock _ _ _) _

/-- C91: two parties with the same key, each through an object of its own for the algorithm and each with a history of its own: what one encrypts, the other
accepts and decrypts; every other tag of that length it refuses, and then nothing is written. -/
theorem C91_exchange {o o' : AObj} {key : List Byte} {ok ok' : AeadOp → Prop} {fuel fuel' : Nat} {a : AeadAlg}
    (hi : Implements o key ok fuel a) (hi' : Implements o' key ok' fuel' a) (sound : AeadSound a) (mem : Chacha.Ctx) (hmem : mem.state.length = 16) (m m0 : Mem)
    (ops : List AeadOp) (as : List AeadAnswer) (h0 : useAead o mem fuel key m ops = .done (some (m0, as))) (iv A : List Byte) (len inp out t : Nat)
    (hok : ∀ op ∈ ops ++ [.enc iv A len inp out t], ok op) (hfit : a.fits iv.length A.length len t = true) :
    ∃ T m1, useAead o mem fuel key m (ops ++ [.enc iv A len inp out t]) = .done (some (m1, as ++ [.tag T])) ∧ T.length = t ∧
      ∀ (mem' : Chacha.Ctx) (_ : mem'.state.length = 16) (m' m2 : Mem) (ops' : List AeadOp) (as' : List AeadAnswer)
        (_ : useAead o' mem' fuel' key m' ops' = .done (some (m2, as'))) (inp' out' : Nat) (T' : List Byte) (_ : T'.length = t)
        (_ : ∀ op ∈ ops' ++ [.dec iv A len inp' out' T'], ok' op) (_ : bytesAt m2 inp' len = bytesAt m1 out len),
        (T' = T → ∃ m3, useAead o' mem' fuel' key m' (ops' ++ [.dec iv A len inp' out' T']) = .done (some (m3, as' ++ [.accepted])) ∧
          bytesAt m3 out' len = bytesAt m0 inp len) ∧
        (T' ≠ T → useAead o' mem' fuel' key m' (ops' ++ [.dec iv A len inp' out' T']) = .done (some (m2, as' ++ [.null]))) := by
  have e0 := (hi mem hmem m ops fun op h => hok op (by simp [h])).symm.trans h0
  rw [Out.done.injEq, Option.some.injEq] at e0
  have hl : (bytesAt m0 inp len).length = len := Aead.length_bytesAt _ _ _
  obtain ⟨c1, c2, c3⟩ := sound iv A (bytesAt m0 inp len) t (by rw [hl]; exact hfit)
  have hstep : a.step m0 (.enc iv A len inp out t) =
      (storeAt m0 out (a.cipher iv (bytesAt m0 inp len)), .tag (a.tag iv A (bytesAt m0 inp len) (a.cipher iv (bytesAt m0 inp len)) t)) := by
    unfold AeadAlg.step
    simp only [hfit]
    rfl
  refine ⟨a.tag iv A (bytesAt m0 inp len) (a.cipher iv (bytesAt m0 inp len)) t, storeAt m0 out (a.cipher iv (bytesAt m0 inp len)), ?_, c3, ?_⟩
  · rw [hi mem hmem m _ hok, session_append, e0]
    simp only [AeadAlg.session]
    rw [hstep]
  · intro mem' hmem' m' m2 ops' as' h0' inp' out' T' hT hok' hb
    have e0' := (hi' mem' hmem' m' ops' fun op h => hok' op (by simp [h])).symm.trans h0'
    rw [Out.done.injEq, Option.some.injEq] at e0'
    rw [bytes_store _ _ _ _ (c2.trans hl)] at hb
    obtain ⟨-, s2⟩ := step_dec a m2 iv A T' len inp' out'
    obtain ⟨s3, s4⟩ := s2 (by rw [hT]; exact hfit)
    rw [hb, c1, hT] at s3 s4
    rw [hi' mem' hmem' m' _ hok', session_append, e0']
    simp only [AeadAlg.session]
    refine ⟨fun h => ?_, fun h => ?_⟩
    · rw [s3 h]
      exact ⟨_, rfl, bytes_store _ _ _ _ hl⟩
    · rw [s4 h]

/-! ## Where a caller cannot rely on it -/

/-- C91: with the null pointer as output (for an empty message), the pointer returned is null whatever happened: a right tag looks refused, and an encryption
that has stored its tag looks refused too. -/
theorem C91_null_output (f : AeadObj.ASym) (x y : ACtx) (iv A T : List Byte) (len inp fuel tlen : Nat) (m m' : Mem) (ans : AeadAnswer) :
    (callDec f x iv A len inp 0 T m fuel = .done (y, m', ans) → ans = .null) ∧
    (callEnc f x iv A len inp 0 tlen m fuel = .done (y, m', ans) → ans = .null ∨ ∃ T', ans = .nullTag T') := by
  have hd : ∀ ok, decAns 0 ok = .null := fun ok => by simp [decAns]
  have he : ∀ T', encAns 0 T' = .nullTag T' := fun T' => if_pos rfl
  refine ⟨fun h => ?_, fun h => ?_⟩
  · unfold callDec at h
    split at h
    · simp only [Out.done.injEq, Prod.mk.injEq] at h
      rw [← h.2.2, hd]
    · split at h
      · simp only [Out.done.injEq, Prod.mk.injEq] at h
        exact h.2.2.symm
      · cases h
      · simp only [Out.done.injEq, Prod.mk.injEq] at h
        rw [← h.2.2, hd]
    · simp only [Out.done.injEq, Prod.mk.injEq] at h
      rw [← h.2.2, hd]
    · cases h
  · unfold callEnc at h
    split at h
    · split at h
      · simp only [Out.done.injEq, Prod.mk.injEq] at h
        exact Or.inl h.2.2.symm
      · simp only [Out.done.injEq, Prod.mk.injEq] at h
        exact Or.inr ⟨_, h.2.2.symm.trans (he _)⟩
    · split at h
      · simp only [Out.done.injEq, Prod.mk.injEq] at h
        exact Or.inl h.2.2.symm
      · cases h
      · simp only [Out.done.injEq, Prod.mk.injEq] at h
        exact Or.inr ⟨_, h.2.2.symm.trans (he _)⟩
    · split at h
      · simp only [Out.done.injEq, Prod.mk.injEq] at h
        exact Or.inl h.2.2.symm
      · simp only [Out.done.injEq, Prod.mk.injEq] at h
        exact Or.inr ⟨_, h.2.2.symm.trans (he _)⟩
    · cases h

/-- C91: CCM through every object for it does not return for 32 octets or more with lengths that SP 800-38C allows. -/
theorem C91_ccm_runs_forever {o : AObj} {bc : IObj} (ho : CcmOver o bc) {n : Nat} {E : List Byte → List Byte → List Byte} (hc : SuiteCipher bc n E)
    (key : List Byte) (hk : key.length = n) (mem : Chacha.Ctx) (m : Mem) (iv A T : List Byte) (len inp out t : Nat) (ops : List AeadOp)
    (hfit : (ccmAlg (E key)).fits iv.length A.length len t = true) (hT : T.length = t) (hl : 32 ≤ len) (fuel : Nat) :
    useAead o mem fuel key m (.enc iv A len inp out t :: ops) = .running ∧ useAead o mem fuel key m (.dec iv A len inp out T :: ops) = .running := by
  have hi : ∀ ops, useAead o mem fuel key m ops = withCtx o fuel m ops (AeadObj.ccmInit bc key) := by
    intro ops
    cases ho <;> rfl
  have hfe : o.fn .aEncFunc = some .CCM_Encrypt := by cases ho <;> rfl
  have hfd : o.fn .aDecFunc = some .CCM_Decrypt := by cases ho <;> rfl
  have hkn : (bc.num .keyBytes).toNat = n := by rw [(C89_cipher hc).1]; rfl
  have hinit : AeadObj.ccmInit bc key = some (.ccm (encFn bc key)) := by
    unfold AeadObj.ccmInit
    rw [hkn, hk]
    unfold Query.ccmInit
    simp
  obtain ⟨h1, h2, h3⟩ := of_decide_eq_true hfit
  simp only [List.mem_cons, List.not_mem_nil, or_false] at h2
  obtain ⟨r1, r2⟩ := C26_never_terminates (encFn bc key) iv A T len inp out t m h1 (by omega) hT hl h3
  rw [hi, hi, hinit]
  unfold withCtx
  simp only [aeadSteps, aeadStep, hfe, hfd, callEnc, callDec, r1, r2]
  exact ⟨trivial, trivial⟩

/-! ## Examples -/

/-- Three calls on one context: an encryption of 40 octets in place, a decryption, and a call with a nonce of the wrong length. -/
def exampleOps : List AeadOp :=
  [.enc (List.replicate 12 7) [1, 2] 40 1000 1000 16, .dec (List.replicate 12 7) [1, 2] 40 1000 2000 (List.replicate 16 0), .enc [1, 2, 3] [] 5 100 200 16]

/-- Non-vacuity for C91: an algorithm, two different objects for it, and calls that meet the conditions. -/
example : ∃ mul : List Byte → List Byte → List Byte, (∀ a b, a.length = 16 → b.length = 16 → IsGfProduct a b (mul a b)) ∧
    Implements (iGCM_AES 128) (List.replicate 16 3) AeadOp.placed 0 (gcmAlg mul (aes 4 10 (List.replicate 16 3))) ∧
    Implements (tGCM (iAES 128)) (List.replicate 16 3) AeadOp.placed 0 (gcmAlg mul (aes 4 10 (List.replicate 16 3))) ∧
    (∀ op ∈ exampleOps, AeadOp.placed op) := by
  obtain ⟨mul, hm⟩ := gf_mul_exists
  refine ⟨mul, hm, (C91_gcm (.aes 128 (Or.inl rfl)) .aes128 mul hm _ 0).2.1 (by simp), (C91_gcm (.template _) .aes128 mul hm _ 0).2.1 (by simp), ?_⟩
  intro op hop
  simp only [exampleOps, List.mem_cons, List.not_mem_nil, or_false] at hop
  rcases hop with rfl | rfl | rfl
  · exact ⟨Or.inl le_rfl, by decide⟩
  · exact ⟨Or.inr (by decide), by decide⟩
  · exact ⟨Or.inr (by decide), by decide⟩

/-- The lengths that the objects announce are among those their algorithms accept. -/
theorem C91_announced (mul : List Byte → List Byte → List Byte) (E : List Byte → List Byte) (key : List Byte)
    (tag : List Byte → List Byte → List Byte → List Byte) (bc : IObj) :
    (∀ o, GcmOver o bc → (gcmAlg mul E).fits (o.num .ivBytes).natAbs 0 0 (o.num .tagBytes).natAbs = true) ∧
    (∀ o, CcmOver o bc → (ccmAlg E).fits (o.num .ivBytes).natAbs 0 0 (o.num .tagBytes).natAbs = true) ∧
    (chachaAlg key tag).fits (iChaCha_AEAD.num .ivBytes).natAbs 0 0 (iChaCha_AEAD.num .tagBytes).natAbs = true := by
  refine ⟨fun o h => ?_, fun o h => ?_, ?_⟩
  · cases h <;> exact (by decide : decide ((12 : Nat) = 12 ∧ 0 < 2 ^ 61 ∧ 0 ≤ 2 ^ 36 - 32) = true)
  · cases h <;> exact (by decide : decide ((7 ≤ 13 ∧ 13 ≤ 13) ∧ 16 ∈ [4, 6, 8, 10, 12, 14, 16] ∧ 0 < 256 ^ 2) = true)
  · exact (by decide : decide ((12 : Nat) = 12 ∧ 0 < 2 ^ 38) = true)

end Props
