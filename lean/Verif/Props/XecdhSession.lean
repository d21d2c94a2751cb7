import Verif.Model.XecdhSession
import Verif.Props.Xecdh

/-!
# C96: X25519 and X448 contexts over whole histories of calls
-/

namespace Props
open Vlong Spec Ec EdParam Xecdh

section
variable {crv : MtCurve} {q : Nat} [Fact q.Prime] {A : ZMod q} {decS decU : List Byte → Nat}

/-- The words of the product. -/
def xMul (crv : MtCurve) (sk : List Byte) (u : List W) : List W :=
  mtPointScale crv.aux crv.a24 crv.c (decLSB crv.c (crv.clamp sk)) u crv.pbits

/-- The output a context gives for an answer. -/
def xValue (crv : MtCurve) : XAnswer → XOut
  | .done => .done
  | .refused => .refused
  | .length => .length crv.sslen
  | .secret n sk u => .octets (copySS (encLSB (xMul crv sk (maskU crv (decLSB crv.c u))) crv.sslen) crv.sslen n)
  | .ofBase sk => .octets (encLSB (xMul crv sk (baseWords crv)) crv.sslen)
  | .coordinate u => .octets (encLSB (maskU crv (decLSB crv.c u)) crv.sslen)
  | .scalar sk => .octets (encLSB (decLSB crv.c (crv.clamp sk)) crv.sslen)

/-- The octets an answer speaks of have the lengths the session allows. -/
def xGood (len : Nat) : XAnswer → Prop
  | .secret _ sk u => sk.length = len ∧ u.length ≤ len
  | .ofBase sk => sk.length = len
  | .coordinate u => u.length ≤ len
  | .scalar sk => sk.length = len
  | _ => True

theorem copySS_take (l : List Byte) (n : Nat) : copySS l l.length n = (l ++ List.replicate n 0).take n := by
  apply List.ext_getElem?
  intro i
  unfold copySS
  by_cases hi : i < n
  · rw [List.getElem?_map, List.getElem?_range hi, List.getElem?_take_of_lt hi, Option.map_some]
    by_cases h : i < l.length
    · rw [if_pos h, List.getElem?_append_left h, List.getD_eq_getElem?_getD, List.getElem?_eq_getElem h]; rfl
    · rw [if_neg h, List.getElem?_append_right (by omega), List.getElem?_replicate, if_pos (by omega)]
  · rw [List.getElem?_eq_none (by simp; omega), List.getElem?_eq_none (by simp; omega)]

theorem xValue_holds (h : MtOk crv q A decS decU) (an : XAnswer) (hg : xGood crv.sslen an) :
    an.Holds A decS decU crv.up crv.sslen (xValue crv an) := by
  have hlen : ∀ (v : List W), (encLSB v crv.sslen).length = crv.sslen := fun v => by simp [encLSB]
  have hcs := h.cs
  have hpow : 256 ^ crv.sslen ≤ (2 : Nat) ^ (32 * crv.c) := by
    rw [show (256 : Nat) = 2 ^ 8 from rfl, ← pow_mul]
    exact Nat.pow_le_pow_right (by norm_num) (by omega)
  cases an with
  | done => rfl
  | refused => rfl
  | length => rfl
  | secret n sk u =>
    obtain ⟨m1, m2⟩ := h.mask u hg.2
    obtain ⟨a, b, c⟩ := scale_result h hg.1 m1 (by rw [m2]; exact h.decUle u hg.2)
    refine ⟨encLSB (xMul crv sk (maskU crv (decLSB crv.c u))) crv.sslen, hlen _, ⟨?_, ?_⟩, ?_⟩
    · rw [xMul, leNat_enc h b, ← m2]; exact c
    · rw [xMul, leNat_enc h b]; exact b
    · rw [← copySS_take, hlen]; rfl
  | ofBase sk =>
    obtain ⟨b1, b2⟩ := baseWords_val h
    obtain ⟨a, b, c⟩ := scale_result h hg b1 (up_lt h)
    refine ⟨_, hlen _, ⟨?_, ?_⟩, rfl⟩
    · rw [xMul, leNat_enc h b, ← b2]; exact c
    · rw [xMul, leNat_enc h b]; exact b
  | coordinate u =>
    obtain ⟨m1, m2⟩ := h.mask u hg
    refine ⟨_, hlen _, ?_, rfl⟩
    rw [leNat_encLSB, m2, Nat.mod_eq_of_lt (h.decUle u hg)]
  | scalar sk =>
    obtain ⟨c1, c2, -⟩ := h.clamp sk hg
    have hl := leNat_lt (crv.clamp sk)
    rw [c1] at hl
    refine ⟨_, hlen _, ?_, rfl⟩
    rw [leNat_encLSB, val_decLSB, c2, Nat.mod_eq_of_lt (a := decS sk) (by rw [← c2]; omega), Nat.mod_eq_of_lt (by rw [← c2]; exact hl)]

/-- What the members of the context are. -/
structure XInv (crv : MtCurve) (σ : XTold) (x : Ctx) : Prop where
  fresh : σ.pub = .nothing → σ.sk = none ∧ σ.pt = .nothing
  curve : σ.pub ≠ .nothing → x.curve = crv
  sk : ∀ sk, σ.sk = some sk → sk.length = crv.sslen ∧ x.k = decLSB crv.c (crv.clamp sk)
  own : ∀ sk, σ.pub = .own sk → sk.length = crv.sslen ∧ x.K = xMul crv sk (baseWords crv)
  peer : ∀ e, σ.pub = .peer e → e.length ≤ crv.sslen ∧ x.K = maskU crv (decLSB crv.c e)
  taken : ∀ ct, σ.pt = .taken ct → ct.length ≤ crv.sslen ∧ x.status = 0 ∧ x.P = maskU crv (decLSB crv.c ct)
  opened : ∀ sk ct, σ.pt = .opened sk ct → (sk.length = crv.sslen ∧ ct.length ≤ crv.sslen) ∧ 0 < x.status ∧
    x.P = xMul crv sk (maskU crv (decLSB crv.c ct))
  made : ∀ r, σ.pt = .made r → r.length = crv.sslen ∧ x.P = xMul crv r (baseWords crv)

theorem rekey_taken {pt : XPoint} {ct : List Byte} (h : pt.rekey = .taken ct) : pt = .taken ct := by
  cases pt <;> simp_all [XPoint.rekey]

theorem rekey_made {pt : XPoint} {r : List Byte} (h : pt.rekey = .made r) : pt = .made r := by
  cases pt <;> simp_all [XPoint.rekey]

theorem rekey_opened {pt : XPoint} {sk ct : List Byte} (h : pt.rekey = .opened sk ct) : False := by
  cases pt <;> simp_all [XPoint.rekey]

theorem x_keygen {σ : XTold} {x : Ctx} (I : XInv crv σ x) (sk : List Byte) (hs : sk.length = crv.sslen) :
    XInv crv ⟨some sk, .own sk, σ.pt.rekey⟩ (keygen crv sk x.P) where
  fresh := fun h => by cases h
  curve := fun _ => rfl
  sk := fun s h => by cases h; exact ⟨hs, rfl⟩
  own := fun s h => by cases h; exact ⟨hs, rfl⟩
  peer := fun _ h => by cases h
  taken := fun ct h => by obtain ⟨a, -, b⟩ := I.taken ct (rekey_taken h); exact ⟨a, rfl, b⟩
  opened := fun _ _ h => (rekey_opened h).elim
  made := fun r h => I.made r (rekey_made h)

theorem x_open (h : MtOk crv q A decS decU) {σ : XTold} {x : Ctx} (I : XInv crv σ x) {sk ct : List Byte} (hsk : σ.sk = some sk)
    (hpt : σ.pt = .taken ct) (n : Nat) : XInv crv ⟨σ.sk, σ.pub, .opened sk ct⟩ (dec x n).2 ∧
    (dec x n).1 = copySS (encLSB (xMul crv sk (maskU crv (decLSB crv.c ct))) crv.sslen) crv.sslen n ∧ x.curve = crv := by
  obtain ⟨t1, t2, t3⟩ := I.taken ct hpt
  obtain ⟨s1, s2⟩ := I.sk sk hsk
  have hp : σ.pub ≠ .nothing := fun hh => by have := (I.fresh hh).1; rw [hsk] at this; cases this
  have hc := I.curve hp
  have hpos : 0 < crv.sslen := by
    rcases Nat.eq_zero_or_pos crv.sslen with e | e
    · have := h.enc; have := h.q2; rw [e] at *; omega
    · exact e
  have e1 : (dec x n).2 = { x with P := xMul crv sk (maskU crv (decLSB crv.c ct)), status := crv.sslen } := by
    unfold dec xMul
    simp only [t2, gt_iff_lt, lt_self_iff_false, if_false, hc, s2, t3, h.a24e]
  have e2 : (dec x n).1 = copySS (encLSB (xMul crv sk (maskU crv (decLSB crv.c ct))) crv.sslen) crv.sslen n := by
    unfold dec xMul
    simp only [t2, gt_iff_lt, lt_self_iff_false, if_false, hc, s2, t3, h.a24e]
  refine ⟨?_, e2, hc⟩
  rw [e1]
  exact ⟨fun hh => absurd hh hp, fun _ => hc, I.sk, I.own, I.peer, (fun _ hh => by cases hh),
    (fun _ _ hh => by cases hh; exact ⟨⟨s1, t1⟩, by simpa using hpos, rfl⟩), (fun _ hh => by cases hh)⟩

theorem x_again {σ : XTold} {x : Ctx} (I : XInv crv σ x) {sk ct : List Byte} (hpt : σ.pt = .opened sk ct) (n : Nat) :
    (dec x n).2 = x ∧ (dec x n).1 = copySS (encLSB (xMul crv sk (maskU crv (decLSB crv.c ct))) crv.sslen) crv.sslen n ∧ x.curve = crv := by
  obtain ⟨-, t2, t3⟩ := I.opened sk ct hpt
  have hp : σ.pub ≠ .nothing := fun hh => by have := (I.fresh hh).2; rw [hpt] at this; cases this
  have hc := I.curve hp
  unfold dec
  simp only [gt_iff_lt, t2, if_true, hc, t3]
  exact ⟨trivial, trivial, trivial⟩

theorem x_run (h : MtOk crv q A decS decU) : ∀ (ops : List XOp) (σ : XTold) (x : Ctx) (ans : List XAnswer), XInv crv σ x →
    xSession crv.sslen σ ops = some ans → run crv x ops = ans.map (xValue crv) ∧ ∀ an ∈ ans, xGood crv.sslen an := by
  intro ops
  induction ops with
  | nil =>
    intro σ x ans I hs
    cases hs
    exact ⟨rfl, by simp⟩
  | cons op l ih =>
    intro σ x ans I hs
    have fin : ∀ (σ' : XTold) (y : Ctx) (o : XOut) (an : XAnswer), step crv x op = (o, y) → XInv crv σ' y → o = xValue crv an →
        xGood crv.sslen an → (xSession crv.sslen σ' l).map (an :: ·) = some ans →
        run crv x (op :: l) = ans.map (xValue crv) ∧ ∀ an ∈ ans, xGood crv.sslen an := by
      intro σ' y o an e J ho hg hm
      rw [Option.map_eq_some_iff] at hm
      obtain ⟨ans', g1, rfl⟩ := hm
      obtain ⟨r1, r2⟩ := ih σ' y ans' J g1
      refine ⟨by rw [run, e, r1, ho]; rfl, ?_⟩
      intro an' ha
      rcases List.mem_cons.mp ha with rfl | ha
      · exact hg
      · exact r2 an' ha
    cases op with
    | generate sk =>
      simp only [xSession] at hs
      split at hs
      · rename_i hl
        exact fin _ _ _ .done rfl (x_keygen I sk hl) rfl trivial hs
      · cases hs
    | takePrivate sk =>
      simp only [xSession] at hs
      split at hs
      · rename_i hl
        refine fin _ (keygen crv sk x.P) .done .done ?_ (x_keygen I sk hl) rfl trivial hs
        simp only [step, decodePriv, hl, ne_eq, not_true_eq_false, if_false]
        rw [List.take_of_length_le hl.le]
      · rename_i hl
        refine fin _ x .refused .refused ?_ I rfl trivial hs
        simp only [step, decodePriv, ne_eq, hl, not_false_eq_true, if_true]
    | takePublic e =>
      simp only [xSession] at hs
      split at hs
      · rename_i hl
        refine fin _ _ _ .done rfl ?_ rfl trivial hs
        exact ⟨(fun hh => by cases hh), fun _ => rfl, I.sk, (fun _ hh => by cases hh), (fun _ hh => by cases hh; exact ⟨hl, rfl⟩),
          (fun ct hh => by obtain ⟨a, -, b⟩ := I.taken ct (rekey_taken hh); exact ⟨a, rfl, b⟩),
          fun _ _ hh => (rekey_opened hh).elim, fun r hh => I.made r (rekey_made hh)⟩
      · cases hs
    | encap n r =>
      simp only [xSession] at hs
      split at hs
      · rename_i e he
        split at hs
        · rename_i hr
          obtain ⟨p1, p2⟩ := I.peer e he
          have hc := I.curve (by rw [he]; simp)
          obtain ⟨m1, m2⟩ := h.mask e p1
          refine fin _ _ _ (.secret n r e) rfl ?_ ?_ ⟨hr, p1⟩ hs
          · refine ⟨(fun hh => by rw [he] at hh; cases hh), fun _ => hc, fun s hh => ?_, I.own, I.peer, (fun _ hh => by cases hh),
              (fun _ _ hh => by cases hh), fun s hh => ?_⟩
            · cases hh
              exact ⟨hr, by simp only [enc, genScl, hc]⟩
            · cases hh
              exact ⟨hr, by simp only [enc, genScl, hc, h.a24e, xMul]⟩
          · simp only [xValue, enc, genScl, hc, p2, xMul]
            rw [cpy_val _ m1]
        · cases hs
      · cases hs
    | takeCt ct =>
      simp only [xSession] at hs
      split at hs
      · cases hs
      · rename_i hp
        split at hs
        · rename_i hl
          have hp' : σ.pub ≠ .nothing := hp
          have hc := I.curve hp'
          refine fin _ _ _ .done rfl ?_ rfl trivial hs
          exact ⟨fun hh => absurd hh hp', fun _ => hc, I.sk, I.own, I.peer,
            (fun _ hh => by cases hh; exact ⟨hl, rfl, by simp only [decodeCt, hc]⟩), (fun _ _ hh => by cases hh), (fun _ hh => by cases hh)⟩
        · cases hs
    | decap n =>
      simp only [xSession] at hs
      split at hs
      · rename_i sk ct hsk hpt
        obtain ⟨J, e, -⟩ := x_open h I hsk hpt n
        exact fin _ _ _ (.secret n sk ct) rfl J (by rw [e]; rfl) ⟨(I.sk sk hsk).1, (I.taken ct hpt).1⟩ hs
      · rename_i sk ct hpt
        obtain ⟨e1, e2, -⟩ := x_again I hpt n
        exact fin σ _ _ (.secret n sk ct) rfl (by rw [e1]; exact I) (by rw [e2]; rfl) (I.opened sk ct hpt).1 hs
      · cases hs
    | secretLength =>
      simp only [xSession] at hs
      split at hs
      · rename_i sk ct hsk hpt
        obtain ⟨J, -, e⟩ := x_open h I hsk hpt 0
        exact fin _ _ _ .length rfl J (by rw [e]; rfl) trivial hs
      · rename_i sk ct hpt
        obtain ⟨e1, -, e2⟩ := x_again I hpt 0
        exact fin σ _ _ .length rfl (by rw [e1]; exact I) (by rw [e2]; rfl) trivial hs
      · cases hs
    | writeCt n =>
      have hc : σ.pt ≠ .nothing → x.curve = crv := fun hh => I.curve fun h0 => hh (I.fresh h0).2
      simp only [xSession] at hs
      split at hs
      · rename_i ct hpt
        obtain ⟨t1, -, t3⟩ := I.taken ct hpt
        refine fin σ x _ _ rfl I ?_ ?_ hs
        · simp only [encodeCt, hc (by rw [hpt]; simp), t3]
          by_cases hn : n = crv.sslen <;> simp [hn, xValue]
        · split
          · exact t1
          · trivial
      · rename_i r hpt
        obtain ⟨t1, t3⟩ := I.made r hpt
        refine fin σ x _ _ rfl I ?_ ?_ hs
        · simp only [encodeCt, hc (by rw [hpt]; simp), t3]
          by_cases hn : n = crv.sslen <;> simp [hn, xValue]
        · split
          · exact t1
          · trivial
      · cases hs
    | writePublic n =>
      simp only [xSession] at hs
      split at hs
      · cases hs
      · rename_i sk hp
        obtain ⟨t1, t3⟩ := I.own sk hp
        refine fin σ x _ _ rfl I ?_ ?_ hs
        · simp only [encodePub, I.curve (by rw [hp]; simp), t3]
          by_cases hn : n = crv.sslen <;> simp [hn, xValue]
        · split
          · exact t1
          · trivial
      · rename_i e hp
        obtain ⟨t1, t3⟩ := I.peer e hp
        refine fin σ x _ _ rfl I ?_ ?_ hs
        · simp only [encodePub, I.curve (by rw [hp]; simp), t3]
          by_cases hn : n = crv.sslen <;> simp [hn, xValue]
        · split
          · exact t1
          · trivial
    | writePrivate n =>
      simp only [xSession] at hs
      split at hs
      · cases hs
      · rename_i sk hsk
        obtain ⟨t1, t3⟩ := I.sk sk hsk
        have hc : x.curve = crv := I.curve fun h0 => by have := (I.fresh h0).1; rw [hsk] at this; cases this
        refine fin σ x _ _ rfl I ?_ ?_ hs
        · simp only [encodePriv, hc, t3]
          by_cases hn : n = crv.sslen <;> simp [hn, xValue]
        · split
          · exact t1
          · trivial

/-- Every context, whatever its memory holds, is one that has been told nothing. -/
theorem x_start (x : Ctx) : XInv crv ⟨none, .nothing, .nothing⟩ x :=
  ⟨fun _ => ⟨rfl, rfl⟩, fun h => absurd rfl h, (fun _ h => by cases h), (fun _ h => by cases h), (fun _ h => by cases h), (fun _ h => by cases h),
    (fun _ _ h => by cases h), (fun _ h => by cases h)⟩

theorem x_history (h : MtOk crv q A decS decU) {ops : List XOp} {ans : List XAnswer}
    (hs : xSession crv.sslen ⟨none, .nothing, .nothing⟩ ops = some ans) (x x' : Ctx) :
    List.Forall₂ (XAnswer.Holds A decS decU crv.up crv.sslen) ans (run crv x ops) ∧ run crv x ops = run crv x' ops := by
  obtain ⟨r1, r2⟩ := x_run h ops _ x ans (x_start x) hs
  obtain ⟨r1', -⟩ := x_run h ops _ x' ans (x_start x') hs
  refine ⟨?_, by rw [r1, r1']⟩
  rw [r1, List.forall₂_map_right_iff, List.forall₂_same]
  exact fun an ha => xValue_holds h an (r2 an ha)

end

/-- C96: on one X25519 context, for every history of calls in which each call has been given what it needs: every call gives the answer of
the history, and the outputs do not depend on what the memory of the context held at first. -/
theorem C96_x25519 {ops : List XOp} {ans : List XAnswer} (hs : xSession 32 ⟨none, .nothing, .nothing⟩ ops = some ans) (x x' : Ctx) :
    List.Forall₂ (XAnswer.Holds A25519 decodeScalar25519 decodeU25519 9 32) ans (run crv25519 x ops) ∧
    run crv25519 x ops = run crv25519 x' ops :=
  x_history mtOk25519 hs x x'

/-- C96: the same for X448. -/
theorem C96_x448 {ops : List XOp} {ans : List XAnswer} (hs : xSession 56 ⟨none, .nothing, .nothing⟩ ops = some ans) (x x' : Ctx) :
    List.Forall₂ (XAnswer.Holds A448 decodeScalar448 decodeU448 5 56) ans (run crv448 x ops) ∧
    run crv448 x ops = run crv448 x' ops :=
  x_history mtOk448 hs x x'

/-- C96: why the ciphertext cannot be asked for after it was opened: the call then writes the shared secret, whatever the context held.
So the histories of `xSession` leave it out. -/
theorem C96_written_after_opening (x : Ctx) (n : Nat) : encodeCt (dec x n).2 x.curve.sslen = some (dec x x.curve.sslen).1 := by
  have hc : (dec x n).2.curve = x.curve := by unfold dec; simp only; split <;> rfl
  have hp : (dec x x.curve.sslen).1 = copySS (encLSB (dec x n).2.P x.curve.sslen) x.curve.sslen x.curve.sslen := rfl
  unfold encodeCt
  rw [hc, if_neg (by simp), hp, copySS_full _ _ (by simp [encLSB])]

/-- A history: a key, a ciphertext opened twice, another ciphertext, a public key, an encapsulation, a ciphertext opened with
the scalar of the encapsulation. -/
example (sk ct ct' pk r : List Byte) (h1 : sk.length = 32) (h2 : ct.length = 32) (h3 : ct'.length = 31) (h4 : pk.length = 32)
    (h5 : r.length = 32) :
    xSession 32 ⟨none, .nothing, .nothing⟩ [.takePrivate [1], .takePrivate sk, .writePublic 32, .writePublic 31, .takeCt ct, .secretLength,
      .decap 32, .decap 48, .takeCt ct', .decap 16, .takePublic pk, .encap 32 r, .writeCt 32, .takeCt ct, .decap 32, .writePrivate 32] =
    some [.refused, .done, .ofBase sk, .refused, .done, .length, .secret 32 sk ct, .secret 48 sk ct, .done, .secret 16 sk ct', .done,
      .secret 32 r pk, .ofBase r, .done, .secret 32 r ct, .scalar r] := by
  simp [xSession, h1, h2, h3, h4, h5]

end Props
