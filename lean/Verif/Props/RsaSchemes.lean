import Verif.Model.RsaSchemes
import Verif.Props.Dispatch
import Verif.Props.Pkcs1
import Verif.Props.Pkcs1Glue

/-!
# Property C90: the RSA schemes with the hash functions they are set up with

The encodings of RFC 8017 with the hash functions of FIPS 180-4, FIPS 202 and RFC 7693 (and, as RFC 8702 has it, with SHAKE in the place of both the
hash function and the mask generation function), and the parameter sets of the library with keys of its own making.
-/
namespace Props
open Dispatch RsaSchemes Spec
open _root_.Pkcs1 hiding Byte
open Query (OUT_BYTES)
open Spec.Pkcs1 (oaepEncode OaepDecodes pssEncode PssConsistent mgf1 emsaPkcs1 digestInfo)
open Pkcs1Glue (rsaPart)

/-- `h` serves as the hash function `H` with `n` octets of output and as the mask generation function `G`; `ok` says what working memory it needs.  A hash
function is used in MGF1; an XOF is its own mask generation function, and is cut at twice its strength as a hash function. -/
inductive PkHash : IObj → Nat → (List Byte → List Byte) → (List Byte → Nat → List Byte) → (St → Prop) → Prop
  | suite {h H B ok} (s : SuiteHash h H B ok) : PkHash h (H []).length H (mgf1 H (H []).length) ok
  | shake128 (S : List Byte → Nat → List Byte) (hS : ∀ m t, Keccak.bits (S m t) = Keccak.shake128 (Keccak.bits m) (8 * t)) :
      PkHash (iSHAKE 128) 32 (fun m => S m 32) S memSp
  | shake256 (S : List Byte → Nat → List Byte) (hS : ∀ m t, Keccak.bits (S m t) = Keccak.shake256 (Keccak.bits m) (8 * t)) :
      PkHash (iSHAKE 256) 64 (fun m => S m 64) S memSp

theorem mgf1_congr (f g : List Byte → List Byte) (n : Nat) (seed : List Byte) (len : Nat) (h : ∀ m, m.length = seed.length + 4 → f m = g m) :
    mgf1 f n seed len = mgf1 g n seed len := by
  unfold mgf1
  congr 1
  refine List.flatMap_congr fun c _ => h _ ?_
  simp [Spec.Pkcs1.counter4]

theorem suite_pos {h : IObj} {H : List Byte → List Byte} {B : Nat} {ok : St → Prop} (s : SuiteHash h H B ok) : 0 < (OUT_BYTES h.num).toNat := by
  cases s with
  | sha3 d H hd hH => rcases hd with rfl | rfl | rfl | rfl <;> decide
  | blake2b b hb =>
    show 0 < (if (((b / 8 : Nat) : Int)) > 4 then ((b / 8 : Nat) : Int) else 0).toNat
    rw [if_pos (by omega)]; omega
  | blake2s b hb =>
    show 0 < (if (((b / 8 : Nat) : Int)) > 4 then ((b / 8 : Nat) : Int) else 0).toNat
    rw [if_pos (by omega)]; omega
  | _ => decide

/-- What is used of a hash object. -/
theorem pk_facts {h : IObj} {n : Nat} {H : List Byte → List Byte} {G : List Byte → Nat → List Byte} {ok : St → Prop} (p : PkHash h n H G ok) (mem : St)
    (hm : ok mem) :
    (pkHash h mem).hlen = n ∧ ((pkHash h mem).xof = false → 0 < (pkHash h mem).hlen) ∧
    (∀ m, m.length < 2 ^ 61 → (pkHash h mem).full m = H m) ∧ (∀ seed len, seed.length < 2 ^ 60 → (pkHash h mem).mgf seed len = G seed len) := by
  cases p with
  | suite s =>
    rename_i B
    obtain ⟨x0, l0, -⟩ := C89_pk_hash s mem hm [] (by simp)
    have hf : ∀ m, m.length < 2 ^ 61 → (pkHash h mem).full m = H m := fun m hl => (C89_pk_hash s mem hm m hl).2.2.2.1
    refine ⟨l0.symm, fun _ => suite_pos s, hf, fun seed len hs => ?_⟩
    unfold Hash.mgf
    rw [x0, if_neg (by simp), l0]
    exact mgf1_congr _ _ _ _ _ fun m hl => hf m (by omega)
  | shake128 S hS =>
    refine ⟨rfl, (fun h => Bool.noConfusion h), fun m _ => ((C89_pk_shake G mem hm m 32).1 hS).1, fun seed len _ => ?_⟩
    unfold Hash.mgf
    rw [if_pos (show (pkHash (iSHAKE 128) mem).xof = true from rfl)]
    exact ((C89_pk_shake G mem hm seed len).1 hS).1
  | shake256 S hS =>
    refine ⟨rfl, (fun h => Bool.noConfusion h), fun m _ => ((C89_pk_shake G mem hm m 64).2.1 hS).1, fun seed len _ => ?_⟩
    unfold Hash.mgf
    rw [if_pos (show (pkHash (iSHAKE 256) mem).xof = true from rfl)]
    exact ((C89_pk_shake G mem hm seed len).2.1 hS).1

/-! ## The encodings depend on the functions only -/

theorem xor_le (a b : List Byte) : (Spec.Pkcs1.xorBytes a b).length ≤ a.length := by
  simp [Spec.Pkcs1.xorBytes]

theorem oaepEncode_congr {f g : List Byte → Nat → List Byte} {L : Nat} (h : ∀ s l, s.length < L → f s l = g s l) (n k : Nat) (lHash M seed : List Byte)
    (hs : seed.length < L) (hl : lHash.length + k + 1 + M.length < L) :
    oaepEncode f n k lHash M seed = oaepEncode g n k lHash M seed := by
  unfold oaepEncode
  simp only
  rw [h seed _ hs, h _ n]
  refine Nat.lt_of_le_of_lt (xor_le _ _) ?_
  simp; omega

theorem oaepDecodes_congr {f g : List Byte → Nat → List Byte} {L : Nat} (h : ∀ s l, s.length < L → f s l = g s l) (n k : Nat) (EM lHash M : List Byte)
    (hl : EM.length < L) : OaepDecodes f n k EM lHash M ↔ OaepDecodes g n k EM lHash M := by
  have key : ∀ a b : List Byte, EM = 0x00 :: (a ++ b) →
      f (Spec.Pkcs1.xorBytes a (f b n)) (k - n - 1) = g (Spec.Pkcs1.xorBytes a (g b n)) (k - n - 1) := fun a b e => by
    rw [e] at hl
    simp at hl
    rw [h b n (by omega), h _ _ (Nat.lt_of_le_of_lt (xor_le _ _) (by omega))]
  constructor
  · rintro ⟨a, b, z, e, h1, h2, h3⟩
    exact ⟨a, b, z, e, h1, h2, by rw [← key a b e]; exact h3⟩
  · rintro ⟨a, b, z, e, h1, h2, h3⟩
    exact ⟨a, b, z, e, h1, h2, by rw [key a b e]; exact h3⟩

theorem pssEncode_congr {f g : List Byte → Nat → List Byte} {u v : List Byte → List Byte} {L : Nat} (h : ∀ s l, s.length < L → f s l = g s l)
    (hu : ∀ m, m.length < L → u m = v m) (hlen : ∀ m, (u m).length < L) (n emBits : Nat) (mHash salt : List Byte) (hl : 8 + mHash.length + salt.length < L) :
    pssEncode u f n emBits mHash salt = pssEncode v g n emBits mHash salt := by
  unfold pssEncode
  simp only
  rw [h _ _ (hlen _), hu _ (by simp; omega)]

theorem pssConsistent_congr {f g : List Byte → Nat → List Byte} {u v : List Byte → List Byte} {L : Nat} (h : ∀ s l, s.length < L → f s l = g s l)
    (hu : ∀ m, m.length < L → u m = v m) (n s emBits : Nat) (mHash EM : List Byte) (hl : 8 + mHash.length + s < L) (hn : n < L) :
    PssConsistent u f n s emBits mHash EM ↔ PssConsistent v g n s emBits mHash EM := by
  unfold PssConsistent
  simp only
  refine and_congr_right fun _ => exists_congr fun D => exists_congr fun X => exists_congr fun salt => and_congr_right fun _ => and_congr_right fun _ =>
    and_congr_right fun hX => and_congr_right fun hs => and_congr_right fun _ => ?_
  rw [h X _ (by omega), hu _ (by simp; omega)]

/-! ## OAEP -/

/-- C90: encryption under every parameter set made of hash objects of the suite: what is sent is the RSA encryption of the RFC 8017 encoding with those
hash functions. -/
theorem C90_oaep_enc (p : RsaParam) {n n' : Nat} {H H' : List Byte → List Byte} {G G' : List Byte → Nat → List Byte} {ok ok' : St → Prop}
    (hh : PkHash p.hash n H G ok) (hg : PkHash p.mgf n' H' G' ok') (mem mem' : St) (hm : ok mem) (hm' : ok' mem') (s : Nat) (x : Pub) (hx : PubOk x)
    (label : List Byte) (hl : label.length < 2 ^ 61) (hbits : x.bits < 2 ^ 31) (sslen : Nat) (rng : Nat → Nat → List Byte)
    (hr : ∀ i n, (rng i n).length = n) (hk : sslen + 2 * n + 2 ≤ x.bits / 8) :
    ∃ x1 x', oaepSetLabel (padding p mem mem' s) x label = some x1 ∧ oaepEnc (padding p mem mem' s) x1 sslen rng = some (x', some (rng 0 sslen)) ∧
      ∀ ctlen, x.bits ≤ ctlen * 8 → encodeCt x' ctlen
        = some (beN ctlen (beNat (oaepEncode G' n (x.bits / 8) (H label) (rng 0 sslen) (rng 1 n)) ^ val x.e % val x.n)) := by
  obtain ⟨h1, -, h3, -⟩ := pk_facts hh mem hm
  obtain ⟨-, g2, -, g4⟩ := pk_facts hg mem' hm'
  obtain ⟨x1, x', e1, e2, e3⟩ := C33_enc_label (padding p mem mem' s) g2 x hx label hbits sslen rng hr (by rw [show (padding p mem mem' s).hmsg.hlen = n from h1]; exact hk)
  refine ⟨x1, x', e1, e2, fun ctlen hc => ?_⟩
  rw [e3 ctlen hc, show (padding p mem mem' s).hmsg.hlen = n from h1, show (padding p mem mem' s).hmsg.full label = H label from h3 label hl,
    oaepEncode_congr (f := (padding p mem mem' s).hmgf.mgf) (g := G') (L := 2 ^ 60) (fun s l hs => g4 s l hs) n (x.bits / 8) _ _ _ (by rw [hr]; omega)]
  have : (H label).length = n := by
    rw [← h3 label hl]; simp [Hash.full, h1]
  rw [this, hr]; omega

/-- C90: without a label set, the label is empty. -/
theorem C90_oaep_enc_plain (p : RsaParam) {n n' : Nat} {H H' : List Byte → List Byte} {G G' : List Byte → Nat → List Byte} {ok ok' : St → Prop}
    (hh : PkHash p.hash n H G ok) (hg : PkHash p.mgf n' H' G' ok') (mem mem' : St) (hm : ok mem) (hm' : ok' mem') (s : Nat) (x : Pub) (hx : PubOk x)
    (hst : x.status ≠ 2) (hbits : x.bits < 2 ^ 31) (sslen : Nat) (rng : Nat → Nat → List Byte)
    (hr : ∀ i n, (rng i n).length = n) (hk : sslen + 2 * n + 2 ≤ x.bits / 8) :
    ∃ x', oaepEnc (padding p mem mem' s) x sslen rng = some (x', some (rng 0 sslen)) ∧
      ∀ ctlen, x.bits ≤ ctlen * 8 → encodeCt x' ctlen
        = some (beN ctlen (beNat (oaepEncode G' n (x.bits / 8) (H []) (rng 0 sslen) (rng 1 n)) ^ val x.e % val x.n)) := by
  obtain ⟨h1, -, h3, -⟩ := pk_facts hh mem hm
  obtain ⟨-, g2, -, g4⟩ := pk_facts hg mem' hm'
  obtain ⟨x', e2, -, e3⟩ := C33_enc (padding p mem mem' s) g2 x hx hst hbits sslen rng hr (by rw [show (padding p mem mem' s).hmsg.hlen = n from h1]; exact hk)
  refine ⟨x', e2, fun ctlen hc => ?_⟩
  rw [e3 ctlen hc, show (padding p mem mem' s).hmsg.hlen = n from h1, show (padding p mem mem' s).hmsg.full [] = H [] from h3 [] (by simp),
    oaepEncode_congr (f := (padding p mem mem' s).hmgf.mgf) (g := G') (L := 2 ^ 60) (fun s l hs => g4 s l hs) n (x.bits / 8) _ _ _ (by rw [hr]; omega)]
  have : (H []).length = n := by
    rw [← h3 [] (by simp)]; simp [Hash.full, h1]
  rw [this, hr]; omega

/-- C90: decryption of every ciphertext below the modulus: exactly the blocks that RFC 8017 decodes with those hash functions are accepted. -/
theorem C90_oaep_dec (p : RsaParam) {n n' : Nat} {H H' : List Byte → List Byte} {G G' : List Byte → Nat → List Byte} {ok ok' : St → Prop}
    (hh : PkHash p.hash n H G ok) (hg : PkHash p.mgf n' H' G' ok') (mem mem' : St) (hm : ok mem) (hm' : ok' mem') (s e : Nat) (y : Priv) (hy : PrivOk e y)
    (h4 : y.w1.length % 4 = 0) (hk : 2 * n + 2 ≤ y.bits / 8) (ct : List Byte) (hct : beNat ct < val y.n) (req : Option Nat) :
    ∃ m y' r, m < val y.n ∧ m ^ e % val y.n = beNat ct ∧ oaepDec (padding p mem mem' s) (decodeCt y ct) req = some (y', r) ∧
      (∀ lHash M, OaepDecodes G' n (y.bits / 8) (beN (y.bits / 8) m) lHash M →
        r.ok = true ∧ (req = none → r.len = some (M.length : Int)) ∧ (∀ t, req = some t → r.ss = M.take t ++ List.replicate (t - M.length) 0)) ∧
      ((¬ ∃ lHash M, OaepDecodes G' n (y.bits / 8) (beN (y.bits / 8) m) lHash M) →
        r.ok = false ∧ r.ss = List.replicate (req.getD 0) 0 ∧ r.len = if req = none then some (-1) else none) := by
  obtain ⟨h1, -, -, -⟩ := pk_facts hh mem hm
  obtain ⟨-, g2, -, g4⟩ := pk_facts hg mem' hm'
  have h1' : (padding p mem mem' s).hmsg.hlen = n := h1
  obtain ⟨m, y', r, a1, a2, a3, a4, a5⟩ := C33_dec (padding p mem mem' s) g2 e y hy h4 (by rw [h1']; exact hk) ct hct req
  rw [h1'] at a4 a5
  have key : ∀ lHash M, OaepDecodes (padding p mem mem' s).hmgf.mgf n (y.bits / 8) (beN (y.bits / 8) m) lHash M ↔
      OaepDecodes G' n (y.bits / 8) (beN (y.bits / 8) m) lHash M := fun lHash M =>
    oaepDecodes_congr (L := 2 ^ 60) (fun s l hs => g4 s l hs) n _ _ _ _ (by have := hy.small; rw [length_beN]; omega)
  refine ⟨m, y', r, a1, a2, a3, fun lHash M h => a4 lHash M ((key _ _).mpr h), fun h => a5 ?_⟩
  rintro ⟨lHash, M, h'⟩
  exact h ⟨lHash, M, (key _ _).mp h'⟩

/-! ## PSS -/

/-- C90: signing with PSS under every parameter set made of hash objects of the suite and any salt length that fits: the signature's encoded message is that of RFC 8017
(RFC 8702) with those hash functions, and the standard's verification accepts it. -/
theorem C90_pss_sign (p : RsaParam) {n n' : Nat} {H H' : List Byte → List Byte} {G G' : List Byte → Nat → List Byte} {ok ok' : St → Prop}
    (hh : PkHash p.hash n H G ok) (hg : PkHash p.mgf n' H' G' ok') (mem mem' : St) (hm : ok mem) (hm' : ok' mem') (s e : Nat) (y : Priv) (hy : PrivOk e y)
    (h8 : y.bits % 8 ≠ 1) (msg : List Byte) (hl : msg.length < 2 ^ 61) (rng : Nat → Nat → List Byte) (hr : ∀ i n, (rng i n).length = n)
    (h4 : y.w2.length % 4 = 0) (hk : n + s + 2 ≤ (y.bits - 1 + 7) / 8) (siglen : Nat) (hs : (y.bits + 7) / 8 ≤ siglen) :
    ∃ y' sig, pssSign (padding p mem mem' s) y msg rng = some (y', true) ∧ encodeSig y' siglen = some (some sig) ∧
      sig.length = (y.bits + 7) / 8 ∧ beNat sig < val y.n ∧
      beN ((y.bits - 1 + 7) / 8) (beNat sig ^ e % val y.n) = pssEncode H G' n (y.bits - 1) (H msg) (rng 0 s) ∧
      PssConsistent H G' n s (y.bits - 1) (H msg) (beN ((y.bits - 1 + 7) / 8) (beNat sig ^ e % val y.n)) := by
  obtain ⟨h1, -, h3, -⟩ := pk_facts hh mem hm
  obtain ⟨-, g2, -, g4⟩ := pk_facts hg mem' hm'
  have h1' : (padding p mem mem' s).hmsg.hlen = n := h1
  have h3' : (padding p mem mem' s).hmsg.full msg = H msg := h3 msg hl
  have hHl : (H msg).length = n := by
    rw [← h3 msg hl]; simp [Hash.full, h1]
  have hsm := hy.small
  obtain ⟨y', sig, a1, a2, a3, a4, a5, a6⟩ := C34_sign (padding p mem mem' s) g2 e y hy h8 msg rng hr h4 (by rw [h1']; exact hk) siglen hs
  rw [h1', h3'] at a5 a6
  refine ⟨y', sig, a1, a2, a3, a4, ?_, ?_⟩
  · rw [a5]
    refine pssEncode_congr (L := 2 ^ 60) (fun s l hs => g4 s l hs) (fun m hl => h3 m (by omega)) (fun m => ?_) n _ _ _ ?_
    · have : ((pkHash p.hash mem).full m).length = n := by simp [Hash.full, h1]
      omega
    · rw [hHl, hr]
      show 8 + n + s < _
      omega
  · exact (pssConsistent_congr (L := 2 ^ 60) (fun s l hs => g4 s l hs) (fun m hl => h3 m (by omega)) n s _ _ _ (by rw [hHl]; omega) (by omega)).mp a6

/-! ## RSASSA-PKCS1-v1_5 -/

/-- The hash functions of RFC 8017 appendix B.1 and their object identifiers. -/
inductive V15Hash : IObj → (List Byte → List Byte) → List Nat → (St → Prop) → Prop
  | sha1 : V15Hash iSHA1 Spec.Sha.sha1 [1, 3, 14, 3, 2, 26] mem32
  | sha224 : V15Hash iSHA224 Spec.Sha.sha224 [2, 16, 840, 1, 101, 3, 4, 2, 4] mem32
  | sha256 : V15Hash iSHA256 Spec.Sha.sha256 [2, 16, 840, 1, 101, 3, 4, 2, 1] mem32
  | sha384 : V15Hash iSHA384 Spec.Sha.sha384 [2, 16, 840, 1, 101, 3, 4, 2, 2] mem64
  | sha512 : V15Hash iSHA512 Spec.Sha.sha512 [2, 16, 840, 1, 101, 3, 4, 2, 3] mem64
  | sha512t224 : V15Hash iSHA512t224 Spec.Sha.sha512_224 [2, 16, 840, 1, 101, 3, 4, 2, 5] mem64
  | sha512t256 : V15Hash iSHA512t256 Spec.Sha.sha512_256 [2, 16, 840, 1, 101, 3, 4, 2, 6] mem64

theorem v15_suite {h : IObj} {H : List Byte → List Byte} {oid : List Nat} {ok : St → Prop} (v : V15Hash h H oid ok) : ∃ B, SuiteHash h H B ok := by
  cases v with
  | sha1 => exact ⟨_, .sha1⟩
  | sha224 => exact ⟨_, .sha224⟩
  | sha256 => exact ⟨_, .sha256⟩
  | sha384 => exact ⟨_, .sha384⟩
  | sha512 => exact ⟨_, .sha512⟩
  | sha512t224 => exact ⟨_, .sha512t224⟩
  | sha512t256 => exact ⟨_, .sha512t256⟩

/-- The entry found has the prefix that makes a `DigestInfo` of a digest. -/
theorem v15_entry {h : IObj} {H : List Byte → List Byte} {oid : List Nat} {ok : St → Prop} (v : V15Hash h H oid ok) :
    ∃ o, oidOf h = some o ∧ o.dlen = (OUT_BYTES h.num).toNat ∧ ∀ d : List Byte, d.length = o.dlen → o.pre ++ d = digestInfo oid d := by
  have key : ∀ i < 7, ∀ d : List Byte, d.length = (hashOids.getD i ⟨[], 0⟩).dlen →
      (hashOids.getD i ⟨[], 0⟩).pre ++ d = digestInfo (Spec.Pkcs1.hashIds.getD i ([], 0)).1 d := fun i hi d hd =>
    have e : (hashOids.getD i ⟨[], 0⟩).dlen = (Spec.Pkcs1.hashIds.getD i ([], 0)).2 :=
      (C46_digestInfo i hi (List.replicate _ 0) List.length_replicate).2
    (C46_digestInfo i hi d (hd.trans e)).1
  cases v with
  | sha1 => exact ⟨_, rfl, rfl, key 0 (by decide)⟩
  | sha224 => exact ⟨_, rfl, rfl, key 1 (by decide)⟩
  | sha256 => exact ⟨_, rfl, rfl, key 2 (by decide)⟩
  | sha384 => exact ⟨_, rfl, rfl, key 3 (by decide)⟩
  | sha512 => exact ⟨_, rfl, rfl, key 4 (by decide)⟩
  | sha512t224 => exact ⟨_, rfl, rfl, key 5 (by decide)⟩
  | sha512t256 => exact ⟨_, rfl, rfl, key 6 (by decide)⟩

/-- C90: signing with RSASSA-PKCS1-v1_5: the prefix is found by the hash object, and the encoded message is that of RFC 8017 with the `DigestInfo` of that hash
function; a modulus with no room for it is refused. -/
theorem C90_v15_sign (p : RsaParam) {H : List Byte → List Byte} {oid : List Nat} {ok : St → Prop} (hh : V15Hash p.hash H oid ok)
    (mem mem' : St) (hm : ok mem) (s e : Nat) (y : Priv) (hy : PrivOk e y) (h8 : y.bits % 8 ≠ 1) (msg : List Byte) (hl : msg.length < 2 ^ 61)
    (h4 : y.w2.length % 4 = 0) (siglen : Nat) (hs : (y.bits + 7) / 8 ≤ siglen) :
    ((digestInfo oid (H msg)).length + 11 ≤ (y.bits - 1 + 7) / 8 →
      ∃ y' sig, v15Sign (padding p mem mem' s) (oidOf p.hash) y msg = some (y', true) ∧ encodeSig y' siglen = some (some sig) ∧
        sig.length = (y.bits + 7) / 8 ∧ beNat sig < val y.n ∧
        beN ((y.bits - 1 + 7) / 8) (beNat sig ^ e % val y.n) = emsaPkcs1 ((y.bits - 1 + 7) / 8) (digestInfo oid (H msg))) ∧
    ((y.bits - 1 + 7) / 8 < (digestInfo oid (H msg)).length + 11 →
      v15Sign (padding p mem mem' s) (oidOf p.hash) y msg = some ({ y with status := -1 }, false)) := by
  obtain ⟨B, sh⟩ := v15_suite hh
  obtain ⟨o, o1, o2, o3⟩ := v15_entry hh
  obtain ⟨-, l, d, -, -⟩ := C89_pk_hash sh mem hm msg hl
  have ld : (H msg).length = o.dlen := by rw [l, o2]; rfl
  have hd : (padding p mem mem' s).hmsg.digest msg o.dlen = H msg := by
    show (pkHash p.hash mem).digest msg o.dlen = _
    rw [d, ← ld, Mac.fitTo_self]
  have hi : o.pre ++ H msg = digestInfo oid (H msg) := o3 _ ld
  have hli : (digestInfo oid (H msg)).length = o.pre.length + o.dlen := by rw [← hi, List.length_append, ld]
  refine ⟨fun hk => ?_, fun hk => ?_⟩
  · obtain ⟨y', sig, a1, a2, a3, a4, a5⟩ := C46_sign (padding p mem mem' s) o e y hy h8 msg h4 (by omega) siglen hs
    rw [hd, hi] at a5
    exact ⟨y', sig, by rw [o1]; exact a1, a2, a3, a4, a5⟩
  · rw [o1]
    exact (C46_refuse _ _ _).2 o (by omega)

/-- C90: every other hash object of the suite is refused. -/
theorem C90_v15_others (p : RsaParam) (mem mem' : St) (s : Nat) (y : Priv) (msg : List Byte)
    (h : p.hash = iSM3 ∨ (∃ d, p.hash = iSHA3 d) ∨ (∃ b, p.hash = iSHAKE b) ∨ (∃ b, p.hash = iBLAKE2b b) ∨ ∃ b, p.hash = iBLAKE2s b) :
    v15Sign (padding p mem mem' s) (oidOf p.hash) y msg = some ({ y with status := -1 }, false) := by
  have : oidOf p.hash = none := by
    rcases h with h | ⟨d, h⟩ | ⟨d, h⟩ | ⟨d, h⟩ | ⟨d, h⟩ <;> rw [h] <;> rfl
  rw [this]
  exact (C46_refuse _ _ _).1

/-! ## Salt lengths -/

/-- C90: the salt length is the digest length of the message hash until it is set; the length set is the one reported; other commands return `NULL`; nothing
else of the context changes. -/
theorem C90_slen (m : RsaDer.Mem) (cmd : Int) (flags : BitVec 32) :
    ((pssXctrl m 1 flags).2 = .ctx ∧ slenOf (pssXctrl m 1 flags).1 = flags.toNat ∧ ∀ j, j ≠ 3 → (pssXctrl m 1 flags).1 j = m j) ∧
    pssXctrl m 2 flags = (m, .num (BitVec.ofNat 32 (slenOf m))) ∧ (pssXctrl (pssXctrl m 1 flags).1 2 0).2 = .num flags ∧
    (cmd ≠ 1 → cmd ≠ 2 → pssXctrl m cmd flags = (m, .null)) := by
  refine ⟨⟨rfl, rfl, fun j hj => if_neg hj⟩, ?_, rfl, fun h1 h2 => ?_⟩
  · show (m, Ret.num (m 3)) = _
    simp [slenOf]
  · unfold pssXctrl
    rw [if_neg h1, if_neg h2]

/-- C90: a salt length that leaves no room is refused on signing, if the sum of the lengths fits 32 bits. -/
theorem C90_pss_refuse (p : RsaParam) (mem mem' : St) (s : Nat) (y : Priv) (msg : List Byte) (rng : Nat → Nat → List Byte)
    (h32 : (pkHash p.hash mem).hlen + s + 2 < 2 ^ 32) (hk : (y.bits - 1 + 7) / 8 < (pkHash p.hash mem).hlen + s + 2) :
    pssSign (padding p mem mem' s) y msg rng = some ({ y with status := -1 }, false) := by
  unfold pssSign
  simp only
  rw [if_pos]
  show (y.bits - 1 + 7) / 8 < ((pkHash p.hash mem).hlen + s + 2) % 2 ^ 32
  rw [Nat.mod_eq_of_lt h32]
  exact hk

/-- C90, negation of "any error is delayed until signing": with a salt length whose sum wraps (such as `-1`, which other libraries take for the digest length) the
check passes, and the salt is written over the end of the buffer. -/
theorem C90_pss_negative_salt (p : RsaParam) (mem mem' : St) (s : Nat) (y : Priv) (msg : List Byte) (rng : Nat → Nat → List Byte)
    (hr : ∀ i n, (rng i n).length = n) (hs : s < 2 ^ 32) (hw : 2 ^ 32 ≤ (pkHash p.hash mem).hlen + s + 2)
    (hb : y.w2.length + (pkHash p.hash mem).hlen + 2 < 2 ^ 32)
    (hk : (pkHash p.hash mem).hlen + s + 2 - 2 ^ 32 ≤ (y.bits - 1 + 7) / 8) :
    pssSign (padding p mem mem' s) y msg rng = none := by
  have wr : ∀ (l : List Byte) off, wrAt (l : List Byte) off (rng 0 s) = none ∨ s ≤ l.length := fun l off => by
    by_cases h : s ≤ l.length
    · exact Or.inr h
    · left
      unfold wrAt
      rw [if_neg (by rw [hr]; omega)]
  have lw : ∀ (l : List Byte) off v l', wrAt l off v = some l' → l'.length = l.length := fun l off v l' h => by
    unfold wrAt at h
    split at h
    · simp only [Option.some.injEq] at h
      rw [← h]; simp; omega
    · simp at h
  unfold pssSign
  simp only
  rw [if_neg]
  · have : pssBuild (padding p mem mem' s) (y.bits - 1) msg (rng 0 s) y.w2 = none := by
      unfold pssBuild
      simp only [Option.bind_eq_bind]
      cases h1 : wrAt y.w2 ((y.bits - 1 + 7) / 8 - 1) [0xbc] with
      | none => rfl
      | some b =>
        rw [Option.bind_some, (wr b _).resolve_right (by rw [lw _ _ _ _ h1]; omega)]
        rfl
    rw [show (padding p mem mem' s).slen = s from rfl, this]
    rfl
  · show ¬ (y.bits - 1 + 7) / 8 < ((pkHash p.hash mem).hlen + s + 2) % 2 ^ 32
    omega

theorem two_words (a b : BitVec 32) : a.zeroExtend 64 ||| b.zeroExtend 64 <<< 32 = b ++ a := by
  apply BitVec.eq_of_getLsbD_eq
  intro i hi
  rw [BitVec.getLsbD_append, BitVec.getLsbD_or, BitVec.getLsbD_shiftLeft]
  by_cases h : i < 32
  · simp [h]; omega
  · simp [h, show i - 32 < 64 by omega, show i < 64 by omega, BitVec.getLsbD_of_ge a i (by omega)]

/-! ## The parameter sets with keys of the library's making -/

theorem pk_suite {h : IObj} {H : List Byte → List Byte} {B : Nat} {ok : St → Prop} (s : SuiteHash h H B ok) {n : Nat} (hn : (OUT_BYTES h.num).toNat = n) :
    PkHash h n H (mgf1 H n) ok := by
  have l : (H []).length = n := ((suite_runs s).1.law.len []).trans hn
  have := PkHash.suite s
  rw [l] at this
  exact this

/-- The hash objects of the library's RSA parameter sets. -/
theorem C90_presets (S : List Byte → Nat → List Byte) (hS : ∀ m t, Keccak.bits (S m t) = Keccak.shake128 (Keccak.bits m) (8 * t)) :
    (∀ p, p = RSASSA_PSS_SHA256.param ∨ p = RSAES_OAEP_SHA256.param ∨ p = RSAEncryption_With_SHA256.param →
      PkHash p.hash 32 Spec.Sha.sha256 (mgf1 Spec.Sha.sha256 32) mem32 ∧ PkHash p.mgf 32 Spec.Sha.sha256 (mgf1 Spec.Sha.sha256 32) mem32 ∧
        V15Hash p.hash Spec.Sha.sha256 [2, 16, 840, 1, 101, 3, 4, 2, 1] mem32 ∧ p.bits = 2048 ∧ p.primes = 2) ∧
    (∀ p, p = RSASSA_PSS_SHAKE128.param ∨ p = RSAES_OAEP_SHAKE128.param →
      PkHash p.hash 32 (fun m => S m 32) S memSp ∧ PkHash p.mgf 32 (fun m => S m 32) S memSp ∧ p.bits = 2048 ∧ p.primes = 2) := by
  have k : PkHash iSHA256 32 Spec.Sha.sha256 (mgf1 Spec.Sha.sha256 32) mem32 := pk_suite .sha256 rfl
  refine ⟨?_, ?_⟩
  · rintro p (rfl | rfl | rfl) <;> exact ⟨k, k, .sha256, rfl, rfl⟩
  · rintro p (rfl | rfl) <;> exact ⟨.shake128 S hS, .shake128 S hS, rfl, rfl⟩

/-- The contexts of the hash objects are a whole number of words. -/
theorem pk_context {h : IObj} {n : Nat} {H : List Byte → List Byte} {G : List Byte → Nat → List Byte} {ok : St → Prop} (p : PkHash h n H G ok)
    (addr : Sym → BitVec 64) : (hashObj addr h).contextBytes % 4 = 0 ∧ (hashObj addr h).contextBytes < 2 ^ 31 := by
  have key : ∀ c, c = Query.cSizeOf Query.sha1T ∨ c = Query.cSizeOf Query.sha256T ∨ c = Query.cSizeOf Query.sha512T ∨ c = Query.cSizeOf Query.sha3T ∨
      c = Query.cSizeOf Query.blake2bT ∨ c = Query.cSizeOf Query.blake2sT → c % 4 = 0 ∧ c < 2 ^ 31 := by
    rintro c (rfl | rfl | rfl | rfl | rfl | rfl) <;> decide
  apply key
  show (h.num .contextBytes).toNat = _ ∨ (h.num .contextBytes).toNat = _ ∨ (h.num .contextBytes).toNat = _ ∨ (h.num .contextBytes).toNat = _ ∨
    (h.num .contextBytes).toNat = _ ∨ (h.num .contextBytes).toNat = _
  cases p with
  | suite s =>
    cases s with
    | sha1 => exact Or.inl rfl
    | sha224 => exact Or.inr (Or.inl rfl)
    | sha256 => exact Or.inr (Or.inl rfl)
    | sm3 => exact Or.inr (Or.inl rfl)
    | sha384 => exact Or.inr (Or.inr (Or.inl rfl))
    | sha512 => exact Or.inr (Or.inr (Or.inl rfl))
    | sha512t224 => exact Or.inr (Or.inr (Or.inl rfl))
    | sha512t256 => exact Or.inr (Or.inr (Or.inl rfl))
    | sha3 d H hd hH => exact Or.inr (Or.inr (Or.inr (Or.inl rfl)))
    | blake2b b hb => exact Or.inr (Or.inr (Or.inr (Or.inr (Or.inl rfl))))
    | blake2s b hb => exact Or.inr (Or.inr (Or.inr (Or.inr (Or.inr rfl))))
  | shake128 S hS => exact Or.inr (Or.inr (Or.inr (Or.inl rfl)))
  | shake256 S hS => exact Or.inr (Or.inr (Or.inr (Or.inl rfl)))

theorem pk_out {h : IObj} {n : Nat} {H : List Byte → List Byte} {G : List Byte → Nat → List Byte} {ok : St → Prop} (p : PkHash h n H G ok) :
    0 ≤ OUT_BYTES h.num ∧ OUT_BYTES h.num ≤ 64 := by
  cases p with
  | suite s =>
    cases s with
    | sha3 d H hd hH => rcases hd with rfl | rfl | rfl | rfl <;> decide
    | blake2b b hb =>
      show 0 ≤ (if (((b / 8 : Nat) : Int)) > 4 then ((b / 8 : Nat) : Int) else 0) ∧ (if (((b / 8 : Nat) : Int)) > 4 then ((b / 8 : Nat) : Int) else 0) ≤ 64
      rw [if_pos (by omega)]; omega
    | blake2s b hb =>
      show 0 ≤ (if (((b / 8 : Nat) : Int)) > 4 then ((b / 8 : Nat) : Int) else 0) ∧ (if (((b / 8 : Nat) : Int)) > 4 then ((b / 8 : Nat) : Int) else 0) ≤ 64
      rw [if_pos (by omega)]; omega
    | _ => decide
  | shake128 S hS => decide
  | shake256 S hS => decide

/-- C90: a generated context holds the functions of the parameter set's own hash objects, the last of each set being `read` for an XOF and `final` for a hash
function; so the comparison of the stored initialisation function with an entry of the table decides whether it is that entry's hash function. -/
theorem C90_context_functions (p : RsaParam) {n n' : Nat} {H H' : List Byte → List Byte} {G G' : List Byte → Nat → List Byte} {ok ok' : St → Prop}
    (hh : PkHash p.hash n H G ok) (hg : PkHash p.mgf n' H' G' ok') (addr : Sym → BitVec 64) (h0 : ∀ s, addr s ≠ 0)
    {rng : RsaKeygen.Rng} {junk : RsaKeygen.Junk} {mf cf rf : Nat} {m m1 : RsaDer.Mem} (hc : 2 ≤ p.primes)
    (hrng : ∀ k, (rng k).length = Pkcs1.bitsWcnt (p.bits / p.primes)) (h32 : RsaKeygen.ctxSize p.bits p.primes < 2 ^ 32)
    (hgen : Pkcs1Glue.keygen (hashObj addr p.hash) (hashObj addr p.mgf) rng junk mf cf rf p.bits p.primes m = some m1) :
    let ptr (f : Option Sym) : BitVec 64 := f.elim 0 addr
    (ptrAt m1 6 = ptr (p.hash.fn .initFunc) ∧ ptrAt m1 8 = ptr (p.hash.fn .updateFunc) ∧ ptrAt m1 10 = ptr (p.hash.fn .xofFinalFunc) ∧
      ptrAt m1 12 = ptr (if (p.hash.fn .xofFinalFunc).isSome then p.hash.fn .readFunc else p.hash.fn .finalFunc)) ∧
    (ptrAt m1 14 = ptr (p.mgf.fn .initFunc) ∧ ptrAt m1 16 = ptr (p.mgf.fn .updateFunc) ∧ ptrAt m1 18 = ptr (p.mgf.fn .xofFinalFunc) ∧
      ptrAt m1 20 = ptr (if (p.mgf.fn .xofFinalFunc).isSome then p.mgf.fn .readFunc else p.mgf.fn .finalFunc)) ∧
    ∀ s, (∀ t, addr t = addr s → t = s) → (ptrAt m1 6 = addr s ↔ p.hash.fn .initFunc = some s) := by
  intro ptr
  obtain ⟨c1, c2⟩ := pk_context hh addr
  obtain ⟨c3, c4⟩ := pk_context hg addr
  have h4 : max (hashObj addr p.hash).contextBytes (hashObj addr p.mgf).contextBytes % 4 = 0 := by
    rcases Nat.le_total (hashObj addr p.hash).contextBytes (hashObj addr p.mgf).contextBytes with h | h
    · rw [Nat.max_eq_right h]; exact c3
    · rw [Nat.max_eq_left h]; exact c1
  have hs : max (hashObj addr p.hash).contextBytes (hashObj addr p.mgf).contextBytes < 2 ^ 32 := by omega
  obtain ⟨key, su, -, -, -⟩ := C85_keygen _ _ h4 hs hc hrng h32 hgen
  have hp : ∀ f : Option Sym, (f.map addr).getD 0 = ptr f := fun f => by cases f <;> rfl
  have hz : ∀ f g e : Option Sym, (if (f.map addr).getD 0 = 0 then (e.map addr).getD 0 else (g.map addr).getD 0) = ptr (if f.isSome then g else e) := by
    intro f g e
    cases f with
    | none => simpa using hp e
    | some s =>
      show (if addr s = 0 then _ else _) = _
      rw [if_neg (h0 s)]
      exact hp g
  have i1 : ptrAt m1 6 = ptr (p.hash.fn .initFunc) := su.header.initMsg.trans (hp _)
  refine ⟨⟨i1, su.header.updateMsg.trans (hp _), su.header.xfinalMsg.trans (hp _), su.header.finalMsg.trans (hz _ _ _)⟩,
    ⟨su.header.initMgf.trans (hp _), su.header.updateMgf.trans (hp _), su.header.xfinalMgf.trans (hp _), su.header.finalMgf.trans (hz _ _ _)⟩, fun s hs => ?_⟩
  rw [i1]
  cases hf : p.hash.fn .initFunc with
  | none => simpa [ptr] using (h0 s).symm
  | some t => simpa [ptr] using ⟨hs t, fun h => by rw [h]⟩

/-- C90: a key is generated under a parameter set, the public half exported, sent and decoded by a peer, who encrypts under any label; what is sent is the RFC 8017
encryption, under the exported numbers, with the hash functions of the parameter set, and the first party recovers the secret. -/
theorem C90_oaep_exchange (p : RsaParam) {n n' : Nat} {H H' : List Byte → List Byte} {G G' : List Byte → Nat → List Byte} {ok ok' : St → Prop}
    (hh : PkHash p.hash n H G ok) (hg : PkHash p.mgf n' H' G' ok') (mem mem' : St) (hm : ok mem) (hm' : ok' mem') (addr addr' : Sym → BitVec 64)
    {rng : RsaKeygen.Rng} {junk : RsaKeygen.Junk} {mf cf rf : Nat} {m m1 : RsaDer.Mem} (hc : 2 ≤ p.primes) (hbits : p.bits < 2 ^ 24) (hdiv : p.primes ∣ p.bits)
    (hrng : ∀ k, (rng k).length = Pkcs1.bitsWcnt (p.bits / p.primes)) (h32 : RsaKeygen.ctxSize p.bits p.primes < 2 ^ 32)
    (hgen : Pkcs1Glue.keygen (hashObj addr p.hash) (hashObj addr p.mgf) rng junk mf cf rf p.bits p.primes m = some m1)
    (hp : ∀ r ∈ keyPrimes (ctxNumbers (rsaPart m1)), r.Prime) (hnd : (keyPrimes (ctxNumbers (rsaPart m1))).Nodup) :
    ∃ (N : Nat) (o : List Byte), IsDerPub N 65537 o ∧ Nat.size N = p.bits ∧
      Pkcs1Glue.exportPub m1 (some (List.replicate o.length 0)) = .ok (some o, o.length) ∧
      ∀ m2 : RsaDer.Mem, ∃ size m3, Pkcs1Glue.decodePub (hashObj addr' p.hash) (hashObj addr' p.mgf) (some m2) o = .ok (size, some m3) ∧
        ∀ (label : List Byte) (_ : label.length < 2 ^ 61) (sslen : Nat) (g : Nat → Nat → List Byte) (_ : ∀ i n, (g i n).length = n)
          (_ : sslen + 2 * n + 2 ≤ p.bits / 8) (ctlen : Nat) (_ : p.bits ≤ ctlen * 8),
          ∃ x1 x' ct, oaepSetLabel (padding p mem mem' (slenOf m3)) (pubOf (rsaPart m3)) label = some x1 ∧
            oaepEnc (padding p mem mem' (slenOf m3)) x1 sslen g = some (x', some (g 0 sslen)) ∧ encodeCt x' ctlen = some ct ∧
            ct = beN ctlen (beNat (oaepEncode G' n (p.bits / 8) (H label) (g 0 sslen) (g 1 n)) ^ 65537 % N) ∧
            ∃ y' r, oaepDec (padding p mem mem' (slenOf m1)) (decodeCt (privOf (rsaPart m1)) ct) (some sslen) = some (y', r) ∧ r.ok = true ∧
              r.ss = g 0 sslen := by
  obtain ⟨c1, c2⟩ := pk_context hh addr
  obtain ⟨c3, c4⟩ := pk_context hg addr
  have h4 : max (hashObj addr p.hash).contextBytes (hashObj addr p.mgf).contextBytes % 4 = 0 := by
    rcases Nat.le_total (hashObj addr p.hash).contextBytes (hashObj addr p.mgf).contextBytes with h | h
    · rw [Nat.max_eq_right h]; exact c3
    · rw [Nat.max_eq_left h]; exact c1
  have hs : max (hashObj addr p.hash).contextBytes (hashObj addr p.mgf).contextBytes < 2 ^ 32 := by omega
  obtain ⟨h1, -, -, -⟩ := pk_facts hh mem hm
  obtain ⟨-, g2, -, -⟩ := pk_facts hg mem' hm'
  obtain ⟨key, -, hkey, -, m0, hk⟩ := C85_keygen _ _ h4 hs hc hrng h32 hgen
  rw [hkey] at hp hnd ⊢
  have Gn := C66_numbers hc hrng h32 hk
  have R := C67_ready hc (by omega) hdiv hrng h32 hk hp hnd
  obtain ⟨b1, b2, b3⟩ := C66_bits hc (by omega) hrng h32 hk
  have hbn : Nat.size (ctxNumbers key).n = p.bits := by rw [b1, Nat.div_mul_cancel hdiv]
  obtain ⟨o, o1, o2, o3⟩ := C64_export key
  have he : (ctxNumbers key).e = 65537 := Gn.e
  have hol := derPub_le o1 (by omega) (by rw [he]; decide)
  rw [hbn, he, show Nat.size 65537 = 17 by decide] at hol
  have hn0 : 0 < (ctxNumbers key).n := by
    have := Gn.size.1
    have : 0 < 2 ^ (p.bits / p.primes * p.primes - 1) := Nat.two_pow_pos _
    omega
  refine ⟨(ctxNumbers key).n, o, by rw [← he]; exact o1, hbn, ?_, fun m2 => ?_⟩
  · unfold Pkcs1Glue.exportPub
    rw [hkey, (o3 _).1 (by simp)]
    simp
  · obtain ⟨size, m3, k3, d1, d2, -, -, d5, -, d7, d8, d9, d10⟩ := C85_decode_pub o1 (by omega) hn0 [] (hashObj addr' p.hash) (hashObj addr' p.mgf) h4 hs m2
    rw [List.append_nil] at d1 d2
    refine ⟨size, m3, d2, fun label hlab sslen g hgl hsl ctlen hct => ?_⟩
    rw [d5]
    have v1 : val (pubOf k3).e = 65537 := by rw [← he, ← d8, RsaDer.ctxNat_eq]; rfl
    have v2' : val (pubOf k3).n = (ctxNumbers key).n := by rw [← d7, RsaDer.ctxNat_eq]; rfl
    have v2 : val (privOf key).n = val (pubOf k3).n := by
      rw [v2']
      exact (RsaDer.ctxNat_eq key 7).symm
    have v3 : (privOf key).bits = (pubOf k3).bits := by rw [d10, hbn]; exact b2
    have hkb : (pubOf k3).bits = p.bits := by rw [d10, hbn]
    obtain ⟨x1, x', t1, t2, t3⟩ := C90_oaep_enc p hh hg mem mem' hm hm' (slenOf m3) (pubOf k3) d9 label hlab (by rw [hkb]; omega) sslen g hgl (by rw [hkb]; exact hsl)
    obtain ⟨x1', x'', ct, t1', t2', t3', ⟨y', r, t4, t5, t6⟩, -⟩ := C33_roundtrip (padding p mem mem' (slenOf m3)) g2 (pubOf k3) d9 (privOf key) (by rw [v1]; exact R) v2 v3
      (by simp only [privOf, Pkcs1.length_octets]; omega) label sslen g hgl (by rw [hkb, show (padding p mem mem' (slenOf m3)).hmsg.hlen = n from h1]; exact hsl)
      ctlen (by rw [hkb]; exact hct) sslen
    rw [t1] at t1'
    cases t1'
    rw [t2] at t2'
    cases t2'
    have e := t3 ctlen (by rw [hkb]; exact hct)
    rw [t3'] at e
    refine ⟨x1, x', ct, t1, t2, t3', ?_, y', r, t4, t5, ?_⟩
    · rw [Option.some.inj e, hkb, v1, v2']
    · rw [t6, List.take_of_length_le (by rw [hgl]), Nat.sub_self]
      simp

/-- C90: the holder of a key generated under a parameter set signs with PSS, the salt as long as the digest or as set by the control function: the
signature verifies, in the standard's sense, under the exported numbers. -/
theorem C90_pss_generated (p : RsaParam) {n n' : Nat} {H H' : List Byte → List Byte} {G G' : List Byte → Nat → List Byte} {ok ok' : St → Prop}
    (hh : PkHash p.hash n H G ok) (hg : PkHash p.mgf n' H' G' ok') (mem mem' : St) (hm : ok mem) (hm' : ok' mem') (addr : Sym → BitVec 64)
    {rng : RsaKeygen.Rng} {junk : RsaKeygen.Junk} {mf cf rf : Nat} {m m1 : RsaDer.Mem} (hc : 2 ≤ p.primes) (hbits : p.bits < 2 ^ 24) (hdiv : p.primes ∣ p.bits)
    (h8 : p.bits % 8 ≠ 1)
    (hrng : ∀ k, (rng k).length = Pkcs1.bitsWcnt (p.bits / p.primes)) (h32 : RsaKeygen.ctxSize p.bits p.primes < 2 ^ 32)
    (hgen : Pkcs1Glue.keygen (hashObj addr p.hash) (hashObj addr p.mgf) rng junk mf cf rf p.bits p.primes m = some m1)
    (hp : ∀ r ∈ keyPrimes (ctxNumbers (rsaPart m1)), r.Prime) (hnd : (keyPrimes (ctxNumbers (rsaPart m1))).Nodup)
    (set : Option (BitVec 32)) (m1' : RsaDer.Mem) (hset : m1' = (set.map fun f => (pssXctrl m1 1 f).1).getD m1) :
    ∃ (N : Nat) (o : List Byte), IsDerPub N 65537 o ∧ Nat.size N = p.bits ∧
      Pkcs1Glue.exportPub m1 (some (List.replicate o.length 0)) = .ok (some o, o.length) ∧
      ∃ s, s = slenOf m1' ∧ s = (set.map BitVec.toNat).getD n ∧
        ∀ (msg : List Byte) (_ : msg.length < 2 ^ 61) (g : Nat → Nat → List Byte) (_ : ∀ i n, (g i n).length = n) (_ : n + s + 2 ≤ (p.bits - 1 + 7) / 8),
          ∃ y' sig, pssSign (padding p mem mem' s) (privOf (rsaPart m1')) msg g = some (y', true) ∧
            encodeSig y' ((p.bits + 7) / 8) = some (some sig) ∧ sig.length = (p.bits + 7) / 8 ∧ beNat sig < N ∧
            PssConsistent H G' n s (p.bits - 1) (H msg) (beN ((p.bits - 1 + 7) / 8) (beNat sig ^ 65537 % N)) := by
  obtain ⟨c1, c2⟩ := pk_context hh addr
  obtain ⟨c3, c4⟩ := pk_context hg addr
  have h4 : max (hashObj addr p.hash).contextBytes (hashObj addr p.mgf).contextBytes % 4 = 0 := by
    rcases Nat.le_total (hashObj addr p.hash).contextBytes (hashObj addr p.mgf).contextBytes with h | h
    · rw [Nat.max_eq_right h]; exact c3
    · rw [Nat.max_eq_left h]; exact c1
  have hs : max (hashObj addr p.hash).contextBytes (hashObj addr p.mgf).contextBytes < 2 ^ 32 := by omega
  obtain ⟨h1, -, -, -⟩ := pk_facts hh mem hm
  obtain ⟨key, su, hkey, -, m0, hk⟩ := C85_keygen _ _ h4 hs hc hrng h32 hgen
  have hoff : Pkcs1Glue.offset m1 / 4 = (88 + max (hashObj addr p.hash).contextBytes (hashObj addr p.mgf).contextBytes) / 4 := by
    have := su.header.key
    rw [show Pkcs1Glue.offset m1 = (ptrAt m1 0).toNat from congrArg BitVec.toNat (two_words _ _), this]
  have hkey' : rsaPart m1' = key := by
    cases set with
    | none => rw [hset]; exact hkey
    | some f =>
      rw [hset, ← hkey]
      funext j
      have ho : Pkcs1Glue.offset (pssXctrl m1 1 f).1 = Pkcs1Glue.offset m1 := rfl
      show (pssXctrl m1 1 f).1 (Pkcs1Glue.offset (pssXctrl m1 1 f).1 / 4 + j) = m1 (Pkcs1Glue.offset m1 / 4 + j)
      rw [ho]
      exact if_neg (by rw [hoff]; omega)
  have hsl : slenOf m1' = (set.map BitVec.toNat).getD n := by
    cases set with
    | none =>
      rw [hset]
      show (m1 3).toNat = n
      rw [su.header.slen]
      obtain ⟨q1, q2⟩ := pk_out hh
      show (BitVec.ofInt 32 (OUT_BYTES p.hash.num)).toNat = n
      have h1' : (OUT_BYTES p.hash.num).toNat = n := h1
      rw [BitVec.toNat_ofInt]
      omega
    | some f => rw [hset]; rfl
  rw [hkey] at hp hnd
  have Gn := C66_numbers hc hrng h32 hk
  have R := C67_ready hc (by omega) hdiv hrng h32 hk hp hnd
  obtain ⟨b1, b2, b3⟩ := C66_bits hc (by omega) hrng h32 hk
  have hbn : Nat.size (ctxNumbers key).n = p.bits := by rw [b1, Nat.div_mul_cancel hdiv]
  obtain ⟨o, o1, o2, o3⟩ := C64_export key
  have he : (ctxNumbers key).e = 65537 := Gn.e
  refine ⟨(ctxNumbers key).n, o, by rw [← he]; exact o1, hbn, ?_, slenOf m1', rfl, hsl, fun msg hl g hgl hfit => ?_⟩
  · unfold Pkcs1Glue.exportPub
    rw [hkey, (o3 _).1 (by simp)]
    simp
  · have v2 : val (privOf key).n = (ctxNumbers key).n := (RsaDer.ctxNat_eq key 7).symm
    have hkb : (privOf key).bits = p.bits := b2
    obtain ⟨y', sig, a1, a2, a3, a4, a5, a6⟩ := C90_pss_sign p hh hg mem mem' hm hm' (slenOf m1') 65537 (privOf key) R (by rw [hkb]; exact h8) msg hl g hgl
      (by simp only [privOf, Pkcs1.length_octets]; omega) (by rw [hkb]; exact hfit) ((p.bits + 7) / 8) (by rw [hkb])
    rw [hkb, v2] at a6
    rw [v2] at a4
    rw [hkb] at a3
    rw [hkey']
    exact ⟨y', sig, a1, a2, a3, a4, a6⟩

/-- C90: and with RSASSA-PKCS1-v1_5. -/
theorem C90_v15_generated (p : RsaParam) {n' : Nat} {H H' : List Byte → List Byte} {G' : List Byte → Nat → List Byte} {oid : List Nat} {ok ok' : St → Prop}
    (hh : V15Hash p.hash H oid ok) (hg : PkHash p.mgf n' H' G' ok') (mem mem' : St) (hm : ok mem) (addr : Sym → BitVec 64)
    {rng : RsaKeygen.Rng} {junk : RsaKeygen.Junk} {mf cf rf : Nat} {m m1 : RsaDer.Mem} (hc : 2 ≤ p.primes) (hbits : p.bits < 2 ^ 24) (hdiv : p.primes ∣ p.bits)
    (h8 : p.bits % 8 ≠ 1)
    (hrng : ∀ k, (rng k).length = Pkcs1.bitsWcnt (p.bits / p.primes)) (h32 : RsaKeygen.ctxSize p.bits p.primes < 2 ^ 32)
    (hgen : Pkcs1Glue.keygen (hashObj addr p.hash) (hashObj addr p.mgf) rng junk mf cf rf p.bits p.primes m = some m1)
    (hp : ∀ r ∈ keyPrimes (ctxNumbers (rsaPart m1)), r.Prime) (hnd : (keyPrimes (ctxNumbers (rsaPart m1))).Nodup) :
    ∃ (N : Nat) (o : List Byte), IsDerPub N 65537 o ∧ Nat.size N = p.bits ∧
      Pkcs1Glue.exportPub m1 (some (List.replicate o.length 0)) = .ok (some o, o.length) ∧
      ∀ (msg : List Byte) (_ : msg.length < 2 ^ 61) (_ : (digestInfo oid (H msg)).length + 11 ≤ (p.bits - 1 + 7) / 8),
          ∃ y' sig, v15Sign (padding p mem mem' (slenOf m1)) (oidOf p.hash) (privOf (rsaPart m1)) msg = some (y', true) ∧
            encodeSig y' ((p.bits + 7) / 8) = some (some sig) ∧ sig.length = (p.bits + 7) / 8 ∧ beNat sig < N ∧
            beN ((p.bits - 1 + 7) / 8) (beNat sig ^ 65537 % N) = emsaPkcs1 ((p.bits - 1 + 7) / 8) (digestInfo oid (H msg)) := by
  obtain ⟨B, sh⟩ := v15_suite hh
  obtain ⟨c1, c2⟩ := pk_context (.suite sh) addr
  obtain ⟨c3, c4⟩ := pk_context hg addr
  have h4 : max (hashObj addr p.hash).contextBytes (hashObj addr p.mgf).contextBytes % 4 = 0 := by
    rcases Nat.le_total (hashObj addr p.hash).contextBytes (hashObj addr p.mgf).contextBytes with h | h
    · rw [Nat.max_eq_right h]; exact c3
    · rw [Nat.max_eq_left h]; exact c1
  have hs : max (hashObj addr p.hash).contextBytes (hashObj addr p.mgf).contextBytes < 2 ^ 32 := by omega
  obtain ⟨key, su, hkey, -, m0, hk⟩ := C85_keygen _ _ h4 hs hc hrng h32 hgen
  rw [hkey] at hp hnd ⊢
  have Gn := C66_numbers hc hrng h32 hk
  have R := C67_ready hc (by omega) hdiv hrng h32 hk hp hnd
  obtain ⟨b1, b2, b3⟩ := C66_bits hc (by omega) hrng h32 hk
  have hbn : Nat.size (ctxNumbers key).n = p.bits := by rw [b1, Nat.div_mul_cancel hdiv]
  obtain ⟨o, o1, o2, o3⟩ := C64_export key
  have he : (ctxNumbers key).e = 65537 := Gn.e
  refine ⟨(ctxNumbers key).n, o, by rw [← he]; exact o1, hbn, ?_, fun msg hl hfit => ?_⟩
  · unfold Pkcs1Glue.exportPub
    rw [hkey, (o3 _).1 (by simp)]
    simp
  · have v2 : val (privOf key).n = (ctxNumbers key).n := (RsaDer.ctxNat_eq key 7).symm
    have hkb : (privOf key).bits = p.bits := b2
    obtain ⟨y', sig, a1, a2, a3, a4, a5⟩ := (C90_v15_sign p hh mem mem' hm (slenOf m1) 65537 (privOf key) R (by rw [hkb]; exact h8) msg hl
      (by simp only [privOf, Pkcs1.length_octets]; omega) ((p.bits + 7) / 8) (by rw [hkb])).1 (by rw [hkb]; exact hfit)
    rw [hkb, v2] at a5
    rw [v2] at a4
    rw [hkb] at a3
    exact ⟨y', sig, a1, a2, a3, a4, a5⟩

/-! ## Non-vacuity -/

def exRsa : RsaParam := ⟨iBLAKE2s 40, iSHA256, 66, 2⟩

def exGen (i n : Nat) : List Byte := List.replicate n (BitVec.ofNat 8 i)
theorem exMsg : PkHash exRsa.hash 5 (Spec.Blake2.hash Spec.Blake2.blake2s (40 / 8) []) (mgf1 (Spec.Blake2.hash Spec.Blake2.blake2s (40 / 8) []) 5) memB2s :=
  pk_suite (.blake2s 40 (by decide)) rfl
theorem exMgf : PkHash exRsa.mgf 32 Spec.Sha.sha256 (mgf1 Spec.Sha.sha256 32) mem32 := pk_suite .sha256 rfl

example (mem mem' : St) (hm : memB2s mem) (hm' : mem32 mem') := C90_oaep_enc exRsa exMsg exMgf mem mem' hm hm' 5 toyPub toyPub_ok [0x6c] (by simp)
  (by decide) 0 exGen (by simp [exGen]) (by decide)
example (mem mem' : St) (hm : memB2s mem) (hm' : mem32 mem') := C90_pss_sign exRsa exMsg exMgf mem mem' hm hm' 2 3 toyPriv toyPriv_ok (by decide)
  [0x6d] (by simp) exGen (by simp [exGen]) (by decide) (by decide) 12 (by decide)
example : memB2s (.b2s ⟨[], [], 0, 3, 1, 4, true⟩) ∧ mem32 (.s32 ⟨true, 7, 9, [], List.replicate 64 0xaa⟩) := ⟨⟨_, trivial, rfl⟩, ⟨_, rfl, rfl⟩⟩
/-- The parameter sets of the library have room for OAEP with secrets of up to 190 octets, for PSS with the default salt and for v1.5. -/
example : 190 + 2 * 32 + 2 ≤ PKCS1_RSA_With_SHA256.bits / 8 ∧ 32 + 32 + 2 ≤ (PKCS1_RSA_With_SHA256.bits - 1 + 7) / 8 ∧ 2 ∣ 2048 ∧
    RsaKeygen.ctxSize PKCS1_RSA_With_SHA256.bits PKCS1_RSA_With_SHA256.primes < 2 ^ 32 ∧ PKCS1_RSA_With_SHA256.bits % 8 ≠ 1 := by
  decide
/-- A salt length of `-1` and the library's parameter set. -/
example : (OUT_BYTES PKCS1_RSA_With_SHA256.hash.num).toNat + (-1 : BitVec 32).toNat + 2 - 2 ^ 32 ≤ (PKCS1_RSA_With_SHA256.bits - 1 + 7) / 8 := by decide

end Props
