import Verif.Model.DecSession
import Verif.Spec.DecSession
import Verif.Props.Pkcs1

/-!
# Property C98: an RSA decryption context over a history of calls
-/

namespace Props
open Vlong Spec _root_.Pkcs1
open Spec.Pkcs1 hiding Byte
open Spec.DecSession hiding Byte

/-- A context holding the private key `(N, e)` of `B` bits (`l` octets of room for an integer). -/
structure HoldsKey (e N B l : Nat) (y : Priv) : Prop where
  ok : PrivOk e y
  al : y.w1.length % 4 = 0
  n : val y.n = N
  bits : y.bits = B
  len : y.w1.length = l

/-- What the context keeps of a message. -/
def Held (y : Priv) : Option (List Byte) → Prop
  | some M => y.status = M.length ∧ ∃ A tail, y.w1 = A ++ (M ++ tail) ∧ A.length + M.length = y.bits / 8
  | none => y.status = -1

/-- What is used of a decryptor. -/
structure Decrypts (dec : Priv → Option Nat → Option (Priv × DecResult)) (encodes : List Byte → List Byte → Prop) (e N B l : Nat) : Prop where
  first : ∀ y req, HoldsKey e N B l y → y.status = 0 → val (words y.w1) < N →
    ∃ M y' r, dec y req = some (y', r) ∧ HoldsKey e N B l y' ∧ Opens N e (beN (B / 8)) encodes (val (words y.w1)) M ∧
      Reports M req r.ok r.len r.ss ∧ Held y' M
  above : ∀ y req, y.status = 0 → val y.n < val (words y.w1) →
    dec y req = (decFinish (y.bits / 8) (-1) y.w1 req).map ({ y with status := -1 }, ·)
  cached : ∀ y req, y.status ≠ 0 → dec y req = (decFinish (y.bits / 8) y.status y.w1 req).map (y, ·)

theorem HoldsKey.room {e N B l : Nat} {y : Priv} (h : HoldsKey e N B l y) (hB : 0 < B) : B / 8 ≤ y.w1.length := by
  have h1 := bytes_of_bits y.bits y.w2.length (val y.n) h.ok.lo h.ok.w (by rw [h.bits]; exact hB)
  have h2 := h.ok.w1
  have h3 := h.bits
  omega

/-- The answer made from what is kept. -/
theorem held_finish {e N B l : Nat} {y : Priv} (h : HoldsKey e N B l y) (hB : 0 < B) {M : Option (List Byte)} (hM : Held y M) (req : Option Nat) :
    ∃ r, decFinish (y.bits / 8) y.status y.w1 req = some r ∧ Reports M req r.ok r.len r.ss := by
  have hr := h.room hB
  cases M with
  | none =>
    obtain ⟨r, r1, r2, r3, r4⟩ := decFinish_fail (y.bits / 8) y.w1 req (by rw [h.bits]; exact hr)
    rw [show y.status = -1 from hM]
    refine ⟨r, r1, ?_⟩
    cases req <;> simp_all [Reports]
  | some M =>
    obtain ⟨m1, A, tail, m2, m3⟩ := hM
    have := h.ok.small
    obtain ⟨r, r1, r2, r3, r4⟩ := decFinish_ok (y.bits / 8) A M tail req m3 (by omega)
    rw [m1, m2]
    refine ⟨r, r1, ?_⟩
    cases req <;> simp_all [Reports]

theorem asks_held {dec : Priv → Option Nat → Option (Priv × DecResult)} {encodes : List Byte → List Byte → Prop} {e N B l : Nat}
    (hd : Decrypts dec encodes e N B l) (hB : 0 < B) {y : Priv} (h : HoldsKey e N B l y) {M : Option (List Byte)} (hM : Held y M)
    (hne : y.status ≠ 0) (reqs : List (Option Nat)) :
    ∃ rs, asks dec y reqs = some (y, rs) ∧ List.Forall₂ (fun req r => Reports M req r.ok r.len r.ss) reqs rs := by
  induction reqs with
  | nil => exact ⟨[], rfl, .nil⟩
  | cons req reqs ih =>
    obtain ⟨rs, i1, i2⟩ := ih
    obtain ⟨r, r1, r2⟩ := held_finish h hB hM req
    refine ⟨r :: rs, ?_, .cons r2 i2⟩
    rw [asks, hd.cached y req hne, r1]
    simp only [Option.map_some, Option.bind_eq_bind, Option.bind_some, i1]

theorem HoldsKey.status {e N B l : Nat} {y : Priv} (h : HoldsKey e N B l y) (s : Int) : HoldsKey e N B l { y with status := s } :=
  ⟨⟨h.ok.key, h.ok.lo, h.ok.hi, h.ok.small, h.ok.q, h.ok.l, h.ok.w, h.ok.w1⟩, h.al, h.n, h.bits, h.len⟩

/-- One ciphertext and the asks that follow. -/
theorem group_spec {dec : Priv → Option Nat → Option (Priv × DecResult)} {encodes : List Byte → List Byte → Prop} {e N B l : Nat}
    (hd : Decrypts dec encodes e N B l) (hB : 0 < B) {y : Priv} (h : HoldsKey e N B l y) (ct : List Byte) (reqs : List (Option Nat))
    (hct : beNat ct ≠ N) (hfit : beNat ct < 256 ^ l)
    (hemp : 2 ≤ reqs.length → ¬ Opens N e (beN (B / 8)) encodes (beNat ct) (some [])) :
    ∃ M y' rs, asks dec (decodeCt y ct) reqs = some (y', rs) ∧ HoldsKey e N B l y' ∧
      Opens N e (beN (B / 8)) encodes (beNat ct) M ∧ List.Forall₂ (fun req r => Reports M req r.ok r.len r.ss) reqs rs := by
  have hal := h.al
  have hlen : (loadW1 y.w1 ct).length = y.w1.length := by rw [length_loadW1]; omega
  have hg : HoldsKey e N B l (decodeCt y ct) := by
    refine ⟨⟨h.ok.key, h.ok.lo, h.ok.hi, h.ok.small, h.ok.q, h.ok.l, h.ok.w, ?_⟩, ?_, h.n, h.bits, ?_⟩
    · exact hlen.trans h.ok.w1
    · change (loadW1 y.w1 ct).length % 4 = 0
      rw [hlen]; exact hal
    · exact hlen.trans h.len
  have hv : val (words (decodeCt y ct).w1) = beNat ct := by
    change val (words (loadW1 y.w1 ct)) = _
    rw [val_loadW1]
    apply Nat.mod_eq_of_lt
    rw [pow256, ← h.len] at hfit
    rw [show 32 * (y.w1.length / 4) = 8 * y.w1.length by omega]; exact hfit
  have hs : (decodeCt y ct).status = 0 := rfl
  rcases Nat.lt_or_gt_of_ne hct with hlt | hgt
  · have hf := fun req => hd.first (decodeCt y ct) req hg hs (by rw [hv]; exact hlt)
    rw [hv] at hf
    cases reqs with
    | nil =>
      obtain ⟨M, y', r, -, -, f3, -⟩ := hf none
      exact ⟨M, _, [], rfl, hg, f3, .nil⟩
    | cons req reqs =>
      obtain ⟨M, y', r, f1, f2, f3, f4, f5⟩ := hf req
      cases reqs with
      | nil =>
        refine ⟨M, y', [r], ?_, f2, f3, .cons f4 .nil⟩
        rw [asks, f1]; rfl
      | cons req2 reqs =>
        have hne : y'.status ≠ 0 := by
          cases M with
          | none => rw [show y'.status = -1 from f5]; decide
          | some M =>
            rw [f5.1]
            intro h0
            have : M = [] := List.length_eq_zero_iff.mp (by omega)
            subst this
            exact hemp (by simp) f3
        obtain ⟨rs, i1, i2⟩ := asks_held hd hB f2 f5 hne (req2 :: reqs)
        refine ⟨M, y', r :: rs, ?_, f2, f3, .cons f4 i2⟩
        rw [asks, f1]
        simp only [Option.bind_eq_bind, Option.bind_some, i1]
  · have hop : Opens N e (beN (B / 8)) encodes (beNat ct) none := Or.inl hgt
    cases reqs with
    | nil => exact ⟨none, _, [], rfl, hg, hop, .nil⟩
    | cons req reqs =>
      have hg' := hg.status (-1)
      have ha := hd.above (decodeCt y ct) req hs (by rw [hv]; change val y.n < _; rw [h.n]; exact hgt)
      obtain ⟨r, r1, r2⟩ := held_finish hg' hB (M := none) rfl req
      obtain ⟨rs, i1, i2⟩ := asks_held hd hB hg' (M := none) rfl (by simp) reqs
      refine ⟨none, _, r :: rs, ?_, hg', hop, .cons r2 i2⟩
      rw [asks, ha, show decFinish ((decodeCt y ct).bits / 8) (-1) (decodeCt y ct).w1 req = some r from r1]
      simp only [Option.map_some, Option.bind_eq_bind, Option.bind_some, i1]

theorem history_spec {dec : Priv → Option Nat → Option (Priv × DecResult)} {encodes : List Byte → List Byte → Prop} {e N B l : Nat}
    (hd : Decrypts dec encodes e N B l) (hB : 0 < B) (hist : List (List Byte × List (Option Nat)))
    (hct : ∀ g ∈ hist, beNat g.1 ≠ N ∧ beNat g.1 < 256 ^ l)
    (hemp : ∀ g ∈ hist, 2 ≤ g.2.length → ¬ Opens N e (beN (B / 8)) encodes (beNat g.1) (some [])) {y : Priv} (h : HoldsKey e N B l y) :
    ∃ y' rss, decHistory dec y hist = some (y', rss) ∧
      List.Forall₂ (fun g rs => ∃ M, Opens N e (beN (B / 8)) encodes (beNat g.1) M ∧
        List.Forall₂ (fun req (r : DecResult) => Reports M req r.ok r.len r.ss) g.2 rs) hist rss := by
  induction hist generalizing y with
  | nil => exact ⟨y, [], rfl, .nil⟩
  | cons g hist ih =>
    obtain ⟨ct, reqs⟩ := g
    obtain ⟨c1, c2⟩ := hct (ct, reqs) (by simp)
    obtain ⟨M, y1, rs, g1, g2, g3, g4⟩ := group_spec hd hB h ct reqs c1 c2 (hemp (ct, reqs) (by simp))
    obtain ⟨y2, rss, i1, i2⟩ := ih (fun g hg => hct g (by simp [hg])) (fun g hg => hemp g (by simp [hg])) g2
    refine ⟨y2, rs :: rss, ?_, .cons ⟨M, g3, g4⟩ i2⟩
    rw [decHistory, g1]
    simp only [Option.bind_eq_bind, Option.bind_some, i1]

/-- The shape of the context after the first call. -/
theorem HoldsKey.after {e N B l : Nat} {y : Priv} (h : HoldsKey e N B l y) {w1 w2 : List Byte} (s : Int) (h1 : w1.length = y.w1.length)
    (h2 : w2.length = 4 * (y.w2.length / 4)) : HoldsKey e N B l { y with w1 := w1, w2 := w2, status := s } := by
  have ha := h.al
  have hw := h.ok.w1
  have h2' : w2.length = y.w2.length := by omega
  refine ⟨⟨h.ok.key, h.ok.lo, h.ok.hi, h.ok.small, h.ok.q, h.ok.l, ?_, ?_⟩, ?_, h.n, h.bits, ?_⟩
  · change val y.n < 2 ^ (32 * (w2.length / 4))
    rw [h2']; exact h.ok.w
  · change w1.length = w2.length
    omega
  · change w1.length % 4 = 0
    omega
  · exact h1.trans h.len

theorem mgfAt_length (h : Hash) (buf : List Byte) (i il o ol : Nat) (b : List Byte) (hb : mgfAt h buf i il o ol = some b) : b.length = buf.length := by
  unfold mgfAt at hb
  simp only [Option.bind_eq_bind, Option.bind_eq_some_iff] at hb
  obtain ⟨_, _, _, _, hb⟩ := hb
  exact wrAt_length _ _ _ _ hb

theorem es15Dec_shape {e N B l : Nat} {y : Priv} (h : HoldsKey e N B l y) (hs : y.status = 0) (req : Option Nat) (y' : Priv) (r : DecResult)
    (hd : es15Dec y req = some (y', r)) : HoldsKey e N B l y' := by
  obtain ⟨M, f1, f2, -⟩ := fastdec_val e y h.ok y.w1 y.w2 rfl 0
  unfold es15Dec at hd
  simp only at hd
  rw [if_neg (by rw [hs]; simp)] at hd
  split at hd
  · rw [Option.map_eq_some_iff] at hd
    obtain ⟨_, -, hd⟩ := hd
    cases hd
    exact h.status _
  · rw [show y.fastdec = some { y with status := 0, w1 := y.w1, w2 := octets M } by rw [← f1, ← hs]] at hd
    simp only [Option.bind_eq_bind, Option.bind_some, Option.bind_eq_some_iff] at hd
    obtain ⟨w, hw, st, -, r', -, hd⟩ := hd
    cases hd
    exact h.after _ (wrAt_length _ _ _ _ hw) (by rw [length_octets, f2])

theorem oaepDec_shape {P : Padding} {e N B l : Nat} {y : Priv} (h : HoldsKey e N B l y) (hs : y.status = 0) (req : Option Nat) (y' : Priv) (r : DecResult)
    (hd : oaepDec P y req = some (y', r)) : HoldsKey e N B l y' := by
  obtain ⟨M, f1, f2, -⟩ := fastdec_val e y h.ok y.w1 y.w2 rfl 0
  unfold oaepDec at hd
  simp only at hd
  rw [if_neg (by rw [hs]; simp)] at hd
  split at hd
  · rw [Option.map_eq_some_iff] at hd
    obtain ⟨_, -, hd⟩ := hd
    cases hd
    exact h.status _
  · rw [show y.fastdec = some { y with status := 0, w1 := y.w1, w2 := octets M } by rw [← f1, ← hs]] at hd
    simp only [Option.bind_eq_bind, Option.bind_some, Option.bind_eq_some_iff] at hd
    obtain ⟨w, hw, ⟨w', st⟩, hp, r', -, hd⟩ := hd
    cases hd
    unfold oaepParse at hp
    simp only [Option.bind_eq_bind, Option.bind_eq_some_iff] at hp
    obtain ⟨a, ha, b, hb, _, -, _, -, hp⟩ := hp
    cases hp
    exact h.after _ ((mgfAt_length _ _ _ _ _ _ _ hb).trans ((mgfAt_length _ _ _ _ _ _ _ ha).trans (wrAt_length _ _ _ _ hw)))
      (by rw [length_octets, f2])

theorem es15_decrypts (e N B l : Nat) (hk : 2 ≤ B / 8) : Decrypts es15Dec (fun EM M => ∃ PS, EmePkcs1 EM PS M) e N B l := by
  refine ⟨fun y req h hs hlt => ?_, fun y req hs hgt => ?_, fun y req hne => ?_⟩
  · obtain ⟨m, y', r, a1, a2, a3, a4, a5, a6⟩ := es15Dec_spec e y h.ok hs (by rw [h.bits]; exact hk) (by rw [h.n]; omega) req
    have hg := es15Dec_shape h hs req y' r a3
    rw [h.n] at a1 a2
    rw [h.bits] at a5 a6
    by_cases hx : ∃ PS M, EmePkcs1 (beN (B / 8) m) PS M
    · obtain ⟨PS, M, hM⟩ := hx
      obtain ⟨b1, b2, b3, b4, A, tail, b5, b6⟩ := a5 PS M hM
      refine ⟨some M, y', r, a3, hg, ⟨m, a1, a2 hlt, PS, hM⟩, ?_, b1, A, tail, b5, by rw [hg.bits]; exact b6⟩
      cases req with
      | none => exact ⟨b2, b3 rfl⟩
      | some n => exact ⟨b2, b4 n rfl⟩
    · obtain ⟨b1, b2, b3, b4⟩ := a6 hx
      refine ⟨none, y', r, a3, hg, Or.inr ⟨m, a1, a2 hlt, fun M hM => hx ⟨_, M, hM.choose_spec⟩⟩, ?_, b1⟩
      cases req with
      | none => exact ⟨b2, by simpa using b4⟩
      | some n => exact ⟨b2, by simpa using b3⟩
  · unfold es15Dec
    simp only
    rw [if_neg (by rw [hs]; simp), if_pos (by rw [notAbove_eq]; simp; omega)]
  · unfold es15Dec
    simp only
    rw [if_pos hne]

theorem oaep_decrypts (P : Padding) (hm : P.hmgf.xof = false → 0 < P.hmgf.hlen) (e N B l : Nat) (hk : 2 * P.hmsg.hlen + 2 ≤ B / 8) :
    Decrypts (oaepDec P) (fun EM M => ∃ lHash, OaepDecodes P.hmgf.mgf P.hmsg.hlen (B / 8) EM lHash M) e N B l := by
  refine ⟨fun y req h hs hlt => ?_, fun y req hs hgt => ?_, fun y req hne => ?_⟩
  · obtain ⟨m, y', r, a1, a2, a3, a4, a5, a6⟩ := oaepDec_spec P hm e y h.ok hs (by rw [h.bits]; exact hk) (by rw [h.n]; omega) req
    have hg := oaepDec_shape h hs req y' r a3
    rw [h.n] at a1 a2
    rw [h.bits] at a5 a6
    by_cases hx : ∃ lHash M, OaepDecodes P.hmgf.mgf P.hmsg.hlen (B / 8) (beN (B / 8) m) lHash M
    · obtain ⟨lHash, M, hM⟩ := hx
      obtain ⟨b1, b2, b3, b4, -, A, tail, b5, b6⟩ := a5 lHash M hM
      refine ⟨some M, y', r, a3, hg, ⟨m, a1, a2 hlt, lHash, hM⟩, ?_, b1, A, tail, b5, by rw [hg.bits]; exact b6⟩
      cases req with
      | none => exact ⟨b2, b3 rfl⟩
      | some n => exact ⟨b2, b4 n rfl⟩
    · obtain ⟨b1, b2, b3, b4⟩ := a6 hx
      refine ⟨none, y', r, a3, hg, Or.inr ⟨m, a1, a2 hlt, fun M hM => hx ⟨_, M, hM.choose_spec⟩⟩, ?_, b1⟩
      cases req with
      | none => exact ⟨b2, by simpa using b4⟩
      | some n => exact ⟨b2, by simpa using b3⟩
  · unfold oaepDec
    simp only
    rw [if_neg (by rw [hs]; simp), if_pos (Or.inr (by rw [notAbove_eq]; simp; omega))]
  · unfold oaepDec
    simp only
    rw [if_pos hne]

/-- C98: one context takes ciphertexts one after the other, and the program asks as often as it likes after each (for the length, or for some
number of octets): every answer is that of RSAES-PKCS1-v1_5 (RFC 8017, 7.2.2) for the last ciphertext taken, whatever came before, and all
answers about one ciphertext are about the same message.  Premises: no ciphertext equals the modulus or overflows the context; a ciphertext asked
about twice does not hold the empty message (see `C98_empty_asked_twice`). -/
theorem C98_v15 (e : Nat) (y : Priv) (hy : PrivOk e y) (h4 : y.w1.length % 4 = 0) (hk : 2 ≤ y.bits / 8)
    (hist : List (List Byte × List (Option Nat))) (hct : ∀ g ∈ hist, beNat g.1 ≠ val y.n ∧ beNat g.1 < 256 ^ y.w1.length)
    (hemp : ∀ g ∈ hist, 2 ≤ g.2.length →
      ¬ Opens (val y.n) e (beN (y.bits / 8)) (fun EM M => ∃ PS, EmePkcs1 EM PS M) (beNat g.1) (some [])) :
    ∃ y' rss, decHistory es15Dec y hist = some (y', rss) ∧
      List.Forall₂ (fun g rs => ∃ M, Opens (val y.n) e (beN (y.bits / 8)) (fun EM M => ∃ PS, EmePkcs1 EM PS M) (beNat g.1) M ∧
        List.Forall₂ (fun req (r : DecResult) => Reports M req r.ok r.len r.ss) g.2 rs) hist rss :=
  history_spec (es15_decrypts e (val y.n) y.bits y.w1.length hk) (by omega) hist hct hemp ⟨hy, h4, rfl, rfl, rfl⟩

/-- C98: the same for RSAES-OAEP (RFC 8017, 7.1.2; the hash of the label is left to the test of the label). -/
theorem C98_oaep (P : Padding) (hm : P.hmgf.xof = false → 0 < P.hmgf.hlen) (e : Nat) (y : Priv) (hy : PrivOk e y) (h4 : y.w1.length % 4 = 0)
    (hk : 2 * P.hmsg.hlen + 2 ≤ y.bits / 8)
    (hist : List (List Byte × List (Option Nat))) (hct : ∀ g ∈ hist, beNat g.1 ≠ val y.n ∧ beNat g.1 < 256 ^ y.w1.length)
    (hemp : ∀ g ∈ hist, 2 ≤ g.2.length → ¬ Opens (val y.n) e (beN (y.bits / 8))
      (fun EM M => ∃ lHash, OaepDecodes P.hmgf.mgf P.hmsg.hlen (y.bits / 8) EM lHash M) (beNat g.1) (some [])) :
    ∃ y' rss, decHistory (oaepDec P) y hist = some (y', rss) ∧
      List.Forall₂ (fun g rs => ∃ M, Opens (val y.n) e (beN (y.bits / 8))
          (fun EM M => ∃ lHash, OaepDecodes P.hmgf.mgf P.hmsg.hlen (y.bits / 8) EM lHash M) (beNat g.1) M ∧
        List.Forall₂ (fun req (r : DecResult) => Reports M req r.ok r.len r.ss) g.2 rs) hist rss :=
  history_spec (oaep_decrypts P hm e (val y.n) y.bits y.w1.length hk) (by omega) hist hct hemp ⟨hy, h4, rfl, rfl, rfl⟩

theorem rsa_unique {e : Nat} {y : Priv} (hy : PrivOk e y) {m m' : Nat} (h1 : m < val y.n) (h2 : m' < val y.n)
    (h : m ^ e % val y.n = m' ^ e % val y.n) : m = m' := by
  obtain ⟨W, hW⟩ : ∃ W : List Byte, val (words W) = m ^ e % val y.n := by
    refine ⟨loadW1 y.w1 (beN y.w1.length (m ^ e % val y.n)), ?_⟩
    have hlt : m ^ e % val y.n < 2 ^ (32 * (y.w1.length / 4)) := by
      rw [hy.w1]; exact Nat.lt_trans (Nat.mod_lt _ (by omega)) hy.w
    rw [val_loadW1, beNat_beN, Nat.mod_mod_of_dvd _ (by rw [pow256]; exact Nat.pow_dvd_pow 2 (by omega)), Nat.mod_eq_of_lt hlt]
  obtain ⟨M, -, -, -, f4, -⟩ := fastdec_val e y hy W y.w2 rfl 0
  rw [← f4 m h1 hW, ← f4 m' h2 (hW.trans h)]

theorem eme_unique {EM PS M PS' M' : List Byte} (h : EmePkcs1 EM PS M) (h' : EmePkcs1 EM PS' M') : M = M' := by
  have hf : EM = [0x00, 0x02] ++ (PS ++ [0x00] ++ M) := by rw [h.1]; simp
  rw [hf] at h h'
  have a := ((emePkcs1_iff _ _ _ _).mp ⟨_, h⟩).2
  have b := ((emePkcs1_iff _ _ _ _).mp ⟨_, h'⟩).2
  exact a.trans b.symm

theorem sep_unique (z z' : Nat) (M M' : List Byte) (h : List.replicate z (0 : Byte) ++ 1 :: M = List.replicate z' 0 ++ 1 :: M') : M = M' := by
  induction z generalizing z' with
  | zero =>
    cases z' with
    | zero => simpa using h
    | succ z' => simp [List.replicate_succ] at h
  | succ z ih =>
    cases z' with
    | zero => simp [List.replicate_succ] at h
    | succ z' =>
      simp only [List.replicate_succ, List.cons_append, List.cons.injEq, true_and] at h
      exact ih z' h

theorem oaep_unique {mgf : List Byte → Nat → List Byte} {h k : Nat} {EM lH M lH' M' : List Byte} (a : OaepDecodes mgf h k EM lH M)
    (b : OaepDecodes mgf h k EM lH' M') : M = M' := by
  obtain ⟨s, d, z, a1, a2, a3, a4⟩ := a
  obtain ⟨s', d', z', b1, b2, b3, b4⟩ := b
  rw [a1, List.cons.injEq] at b1
  obtain ⟨rfl, rfl⟩ := List.append_inj b1.2 (by omega)
  rw [a4] at b4
  simp only [List.append_assoc] at b4
  obtain ⟨-, c⟩ := List.append_inj b4 (by omega)
  exact sep_unique z z' M M' c

theorem opens_unique {e : Nat} {y : Priv} (hy : PrivOk e y) {block : Nat → List Byte} {encodes : List Byte → List Byte → Prop}
    (hu : ∀ EM M M', encodes EM M → encodes EM M' → M = M') {c : Nat} {M M' : Option (List Byte)}
    (h : Opens (val y.n) e block encodes c M) (h' : Opens (val y.n) e block encodes c M') : M = M' := by
  cases M with
  | none =>
    cases M' with
    | none => rfl
    | some M' =>
      obtain ⟨m', p1, p2, p3⟩ := h'
      rcases h with h | ⟨m, q1, q2, q3⟩
      · have := Nat.mod_lt (m' ^ e) (show 0 < val y.n by omega)
        omega
      · have := rsa_unique hy q1 p1 (q2.trans p2.symm)
        subst this
        exact absurd p3 (q3 M')
  | some M =>
    obtain ⟨m, p1, p2, p3⟩ := h
    cases M' with
    | none =>
      rcases h' with h | ⟨m', q1, q2, q3⟩
      · have := Nat.mod_lt (m ^ e) (show 0 < val y.n by omega)
        omega
      · have := rsa_unique hy q1 p1 (q2.trans p2.symm)
        subst this
        exact absurd p3 (q3 M)
    | some M' =>
      obtain ⟨m', q1, q2, q3⟩ := h'
      have := rsa_unique hy q1 p1 (q2.trans p2.symm)
      subst this
      rw [hu _ _ _ p3 q3]

/-- C98: a ciphertext holds at most one message, in either scheme: the `M` of `C98_v15`, `C98_oaep` is the only one there is. -/
theorem C98_one_message (P : Padding) (e : Nat) (y : Priv) (hy : PrivOk e y) (c : Nat) (M M' : Option (List Byte)) :
    (Opens (val y.n) e (beN (y.bits / 8)) (fun EM M => ∃ PS, EmePkcs1 EM PS M) c M →
      Opens (val y.n) e (beN (y.bits / 8)) (fun EM M => ∃ PS, EmePkcs1 EM PS M) c M' → M = M') ∧
    (Opens (val y.n) e (beN (y.bits / 8)) (fun EM M => ∃ lHash, OaepDecodes P.hmgf.mgf P.hmsg.hlen (y.bits / 8) EM lHash M) c M →
      Opens (val y.n) e (beN (y.bits / 8)) (fun EM M => ∃ lHash, OaepDecodes P.hmgf.mgf P.hmsg.hlen (y.bits / 8) EM lHash M) c M' → M = M') :=
  ⟨opens_unique hy fun _ _ _ ⟨_, a⟩ ⟨_, b⟩ => eme_unique a b, opens_unique hy fun _ _ _ ⟨_, a⟩ ⟨_, b⟩ => oaep_unique a b⟩

/-- What the first call leaves in the context: the block. -/
theorem es15Dec_block {e : Nat} {y : Priv} (hy : PrivOk e y) (hb : 0 < y.bits) (hs : y.status = 0) {m : Nat} (hm : m < val y.n)
    (hc : val (words y.w1) = m ^ e % val y.n) (req : Option Nat) (y' : Priv) (r : DecResult) (hd : es15Dec y req = some (y', r)) :
    y'.w1 = beN (y.bits / 8) m ++ y.w1.drop (y.bits / 8) := by
  obtain ⟨M, f1, f2, f3, f4, f5⟩ := fastdec_val e y hy y.w1 y.w2 rfl 0
  have h1 := bytes_of_bits y.bits y.w2.length (val y.n) hy.lo hy.w hb
  have h2 := hy.w1
  have hlt : val (words y.w1) < val y.n := by rw [hc]; exact Nat.mod_lt _ (by omega)
  unfold es15Dec at hd
  simp only at hd
  rw [if_neg (by rw [hs]; simp), if_neg (by rw [notAbove_eq]; simp; omega),
    show y.fastdec = some { y with status := 0, w1 := y.w1, w2 := octets M } by rw [← f1, ← hs]] at hd
  simp only [Option.bind_eq_bind, Option.bind_some, Option.bind_eq_some_iff] at hd
  obtain ⟨w, hw, st, -, r', -, hd⟩ := hd
  cases hd
  rw [words_octets, i2osp_beN, f4 m hm hc, take_wr _ _ (by rw [length_beN]; omega), length_beN] at hw
  exact (Option.some.inj hw).symm

/-- The block `00 02 77 77 77 77 77 77 77 77 77 00` of the empty message. -/
def emptyBlock : List Byte := [0, 2] ++ List.replicate 9 0x77 ++ [0]

/-- C98, why the empty message is excluded: here is a ciphertext of the empty message (under a key of 96 bits).  Asked for the length, the context answers
success, 0.  Asked once more, it decrypts the block it found, as if that were a ciphertext, and answers failure, -1. -/
theorem C98_empty_asked_twice :
    ∃ ct, Opens (val toyPriv.n) 3 (beN 12) (fun EM M => ∃ PS, EmePkcs1 EM PS M) (beNat ct) (some []) ∧
      ∃ y' r1 r2, decHistory es15Dec toyPriv [(ct, [none, none])] = some (y', [[r1, r2]]) ∧
        (r1.ok = true ∧ r1.len = some 0) ∧ (r2.ok = false ∧ r2.len = some (-1)) := by
  obtain ⟨ct, hct⟩ : ∃ ct : List Byte, ct = [189, 199, 136, 6, 192, 165, 79, 47, 2, 144, 238, 47] := ⟨_, rfl⟩
  have hop : EmePkcs1 (beN 12 (beNat emptyBlock)) (List.replicate 9 0x77) [] := ⟨by decide, by decide, by decide⟩
  have hm : beNat emptyBlock < val toyPriv.n := by decide
  have hc : beNat emptyBlock ^ 3 % val toyPriv.n = beNat ct := by rw [hct]; decide
  have hlt : beNat ct < val toyPriv.n := by rw [hct]; decide
  refine ⟨ct, ⟨_, hm, hc, _, hop⟩, ?_⟩
  have hy : PrivOk 3 toyPriv := toyPriv_ok
  obtain ⟨d1, d2, d3⟩ := (oaep_decode toyPriv 3 hy ct (by omega)).resolve_right (by decide)
  have hdw : (decodeCt toyPriv ct).w1.drop 12 = List.replicate 12 0 := by rw [hct]; decide
  have hg : HoldsKey 3 (val toyPriv.n) 96 24 (decodeCt toyPriv ct) := by
    refine ⟨d1, ?_, rfl, rfl, ?_⟩
    · change (loadW1 toyPriv.w1 ct).length % 4 = 0
      rw [length_loadW1]; decide
    · change (loadW1 toyPriv.w1 ct).length = 24
      rw [length_loadW1]; decide
  obtain ⟨m, y1, r1, a1, a2, a3, -, a5, -⟩ := es15Dec_spec 3 (decodeCt toyPriv ct) d1 d2 (by change 2 ≤ 96 / 8; decide) (by rw [d3]; exact Nat.le_of_lt hlt) none
  have hme : m = beNat emptyBlock := by
    refine rsa_unique hy a1 hm ?_
    rw [hc, ← d3]
    exact a2 (by rw [d3]; exact hlt)
  have hb1 := es15Dec_block d1 (by change 0 < 96; decide) d2 hm (d3.trans hc.symm) none y1 r1 a3
  subst hme
  have h12 : (decodeCt toyPriv ct).bits / 8 = 12 := by change 96 / 8 = 12; decide
  rw [h12] at a5 hb1
  obtain ⟨s1, s2, s3, -⟩ := a5 _ _ hop
  have hg1 := es15Dec_shape hg d2 none y1 r1 a3
  rw [hdw] at hb1
  have hv : val (words y1.w1) = 144426337916627698738201088 := by rw [hb1]; decide
  have hC2 : 144426337916627698738201088 < val toyPriv.n := by decide
  obtain ⟨m2, y2, r2, b1, b2, b3, -, -, b6⟩ := es15Dec_spec 3 y1 hg1.ok s1 (by rw [hg1.bits]; decide) (by rw [hv, hg1.n]; exact Nat.le_of_lt hC2) none
  rw [hg1.n, hv] at b2
  rw [hg1.n] at b1
  have hm2 : m2 = 27284369449135826497035704420 := rsa_unique hy b1 (by decide) ((b2 hC2).trans (by decide))
  rw [hg1.bits, hm2] at b6
  obtain ⟨-, t2, -, t4⟩ := b6 (by
    rintro ⟨PS, M, h⟩
    have := congrArg (fun l => l.getD 1 0) h.1
    revert this
    simp only [List.append_assoc, List.cons_append, List.getD_cons_succ, List.getD_cons_zero]
    decide)
  refine ⟨y2, r1, r2, ?_, ⟨s2, by simpa using s3 rfl⟩, t2, by simpa using t4⟩
  simp only [decHistory, asks, a3, b3, Option.bind_eq_bind, Option.bind_some]

/-- The premises hold of a history of three ciphertexts, one above the modulus, asked about several times. -/
example := C98_v15 3 toyPriv toyPriv_ok (by decide) (by decide)
  [([5], [some 4]), (List.replicate 13 0xff, [none, some 3]), ([0], [none, none, some 2])]
  (by decide) (by
    intro g hg h2
    simp only [List.mem_cons, List.not_mem_nil, or_false] at hg
    rcases hg with rfl | rfl | rfl
    · simp at h2
    · rintro ⟨m, -, h, -⟩
      have := Nat.mod_lt (m ^ 3) (show 0 < val toyPriv.n by decide)
      rw [h] at this
      exact absurd this (by decide)
    · rintro ⟨m, h1, h, PS, h3⟩
      have h0 : m = 0 := rsa_unique toyPriv_ok h1 (by decide) (h.trans (by decide))
      subst h0
      have := congrArg (fun l => l.getD 1 0) h3.1
      revert this
      simp only [List.append_assoc, List.cons_append, List.getD_cons_succ, List.getD_cons_zero]
      decide)

example := C98_oaep toyPadding (by decide) 3 toyPriv toyPriv_ok (by decide) (by decide)
  [([5], [some 4]), (List.replicate 13 0xff, [none, some 3]), ([9], [none])]
  (by decide) (by
    intro g hg h2
    simp only [List.mem_cons, List.not_mem_nil, or_false] at hg
    rcases hg with rfl | rfl | rfl
    · simp at h2
    · rintro ⟨m, -, h, -⟩
      have := Nat.mod_lt (m ^ 3) (show 0 < val toyPriv.n by decide)
      rw [h] at this
      exact absurd this (by decide)
    · simp at h2)

end Props
