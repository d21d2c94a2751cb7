import Verif.Spec.Suites
import Verif.Props.Concrete
import Verif.Props.EdDsa
import Verif.Props.Keccak

/-!
# C87: EdDSA, ECDSA and SM2 over the standards' hash functions

The signature models call a hash function through `hash_funcs_set_t`: octets of the output for a message.  Here these calls are the models of the library's own
hash functions, run on a working context in any former state, and the hash functions are those of FIPS 180-4, FIPS 202 and GB/T 32905.
-/

namespace Props
open Vlong Spec Ec EdParam EdDsa Fips180
open MD (Alg)
open Sponge (shakeInit shakeFinal read update)

/-! ## The hash functions behind `hash_funcs_set_t` -/

/-- The hash function that a scheme calls: initialise the context (in which there was `mem`), feed the message, finalise; `hash-funcs-set.h:20-27` with
`xfinalfunc` NULL. -/
def opsHash {σ : Type} (O : Mac.HashOps σ) (mem : σ) : Pkcs1.Hash where
  hlen := O.L
  xof := false
  out := fun m i => (O.hFinal (O.hUpdate (O.hInit mem) m) (i + 1)).1.getD i 0

/-- The same with an extendable-output function: `xfinalfunc`, then `readfunc`. -/
def shakeHash (hlen rate : Nat) : Pkcs1.Hash where
  hlen := hlen
  xof := true
  out := fun m i => (read Keccak.f1600 (shakeFinal Keccak.f1600 (update Keccak.f1600 (shakeInit rate) m)) (i + 1)).1.getD i 0

theorem fitTo_getD (d : List (BitVec 8)) (i : Nat) : (fitTo d (i + 1)).getD i 0 = d.getD i 0 := by
  unfold fitTo
  simp [List.getD_eq_getElem?_getD]

/-- C87: whatever was in the context, however the message is split, however often it was finalised before: the octets are those the schemes get. -/
theorem C87_hash_calls {σ : Type} {O : Mac.HashOps σ} {H : List (BitVec 8) → List (BitVec 8)} {N : Nat} {ok : σ → Prop} (h : Mac.HashLaw O H N ok)
    (mem mem' : σ) (hm : ok mem) (hm' : ok mem') (ms : List (List (BitVec 8))) (hl : ms.flatten.length < N) (ts : List Nat) (t : Nat) :
    (O.hFinal (ts.foldl (fun s u => (O.hFinal s u).2) (ms.foldl O.hUpdate (O.hInit mem'))) t).1 = (opsHash O mem).digest ms.flatten t ∧
    (opsHash O mem).digest ms.flatten t = fitTo (H ms.flatten) t := by
  have e : (opsHash O mem).digest ms.flatten t = fitTo (H ms.flatten) t := by
    unfold Pkcs1.Hash.digest fitTo
    refine List.map_congr_left fun i _ => ?_
    have := h.digest mem hm [ms.flatten] (by simpa using hl) [] (i + 1)
    simp only [List.foldl_cons, List.foldl_nil, List.flatten_cons, List.flatten_nil, List.append_nil] at this
    show (O.hFinal (O.hUpdate (O.hInit mem) ms.flatten) (i + 1)).1.getD i 0 = _
    rw [this, fitTo_getD]
  exact ⟨by rw [e]; exact h.digest mem' hm' ms hl ts t, e⟩

theorem read_prefix (rate : Nat) (hr : 0 < rate) (m : List (BitVec 8)) (hlen t : Nat) :
    (shakeHash hlen rate).digest m t = (read Keccak.f1600 (shakeFinal Keccak.f1600 (update Keccak.f1600 (shakeInit rate) m)) t).1 := by
  have g : ∀ n, (read Keccak.f1600 (shakeFinal Keccak.f1600 (update Keccak.f1600 (shakeInit rate) m)) n).1 =
      prefixOf (spongeStream Keccak.f1600 rate 200 0x1f 0x80 m) n := fun n => by
    have := C11_shake Keccak.f1600 rate hr [m] n
    simpa using this
  rw [g]
  unfold Pkcs1.Hash.digest
  show (List.range t).map (fun i => (read Keccak.f1600 (shakeFinal Keccak.f1600 (update Keccak.f1600 (shakeInit rate) m)) (i + 1)).1.getD i 0) = _
  simp only [g]
  unfold prefixOf
  refine List.map_congr_left fun i _ => ?_
  simp [List.getD_eq_getElem?_getD]

/-- C87: the same for SHAKE256. -/
theorem C87_shake_calls (hlen : Nat) (ms : List (List (BitVec 8))) (t : Nat) :
    (read Keccak.f1600 (shakeFinal Keccak.f1600 (ms.foldl (update Keccak.f1600) (shakeInit 136))) t).1 = (shakeHash hlen 136).digest ms.flatten t ∧
    ∀ S, IsShake256 S → (shakeHash hlen 136).digest ms.flatten t = S ms.flatten t := by
  have e : (read Keccak.f1600 (shakeFinal Keccak.f1600 (ms.foldl (update Keccak.f1600) (shakeInit 136))) t).1 = (shakeHash hlen 136).digest ms.flatten t := by
    rw [read_prefix 136 (by decide)]
    have := C11_shake Keccak.f1600 136 (by decide) [ms.flatten] t
    simp only [List.foldl_cons, List.foldl_nil, List.flatten_cons, List.flatten_nil, List.append_nil] at this
    rw [this, C11_shake Keccak.f1600 136 (by decide)]
  refine ⟨e, fun S hS => ?_⟩
  rw [← e]
  apply bits_inj
  rw [C69_shake256, hS]

/-! ## Ed25519 -/

theorem sha512_law : Mac.HashLaw (mdOps algSha512) Spec.Sha.sha512 (2 ^ 61) (fun s => s.msg.length = 128) := by
  rw [← dig_sha512]
  exact md_law algSha512 (.inr rfl) (fun h => by simp [algSha512, length_out64])

/-- SHA-512 as EdDSA calls it, in a context that held `mem`. -/
abbrev hash512 (mem : MD.Ctx (List (BitVec 64))) : Pkcs1.Hash := opsHash (mdOps algSha512) mem

theorem hash512_digest (mem : MD.Ctx (List (BitVec 64))) (hmem : mem.msg.length = 128) (m : List (BitVec 8)) (hm : m.length < 2 ^ 61) :
    (hash512 mem).digest m 64 = Spec.Sha.sha512 m := by
  have := (C87_hash_calls sha512_law mem mem hmem hmem [m] (by simpa using hm) [] 64).2
  simp only [List.flatten_cons, List.flatten_nil, List.append_nil] at this
  rw [this]
  have l := sha512_law.len m
  change (Spec.Sha.sha512 m).length = 64 at l
  rw [← l, Mac.fitTo_self]

theorem natCast_eq {q : Nat} {a b : Nat} (h : a % q = b % q) : ((a : Nat) : ZMod q) = ((b : Nat) : ZMod q) := (ZMod.natCast_eq_natCast_iff _ _ _).mpr h

theorem base_coords {C : EdCurve} {c q : Nat} [Fact q.Prime] {a d : ZMod q} {B : EdPoint a d} (h : EdDenotes c C.B B) (hz : val C.B.z = 1) :
    B.x = ((val C.B.x : Nat) : ZMod q) ∧ B.y = ((val C.B.y : Nat) : ZMod q) := by
  obtain ⟨-, -, -, h1, h2, -⟩ := h
  rw [hz, Nat.cast_one, mul_one] at h1 h2
  exact ⟨h1.symm, h2.symm⟩

/-- The base point that the library has is that of the standard. -/
theorem base25519 : ∃ B : EdPoint ((aEd25519 : Nat) : ZMod qEd25519) ((dEd25519 : Nat) : ZMod qEd25519), IsEd25519 B ∧ BaseOk ed25519 11 B := by
  obtain ⟨⟨B, h1, -, -, h2⟩, -⟩ := C40_ed_base_point
  refine ⟨B, ⟨by decide +kernel, ?_, ?_, ?_, ?_⟩, edDenotes_iff.mp h1, h2⟩
  · rw [eq_neg_iff_add_eq_zero]
    have := natCast_eq (q := qEd25519) (a := aEd25519 + 1) (b := 0) (by decide +kernel)
    push_cast at this ⊢; exact this
  · rw [eq_neg_iff_add_eq_zero]
    have := natCast_eq (q := qEd25519) (a := 121666 * dEd25519 + 121665) (b := 0) (by decide +kernel)
    push_cast at this ⊢; exact this
  · rw [(base_coords h1 (by decide +kernel)).2]
    have := natCast_eq (q := qEd25519) (a := 5 * val ed25519.B.y) (b := 4) (by decide +kernel)
    push_cast at this ⊢; exact this
  · rw [(base_coords h1 (by decide +kernel)).1, ZMod.val_natCast]
    decide +kernel

theorem base448 : ∃ B : EdPoint ((aEd448 : Nat) : ZMod qEd448) ((dEd448 : Nat) : ZMod qEd448), IsEd448 B ∧ BaseOk ed448 17 B := by
  obtain ⟨-, B, h1, -, -, h2⟩ := C40_ed_base_point
  refine ⟨B, ⟨by decide +kernel, ?_, ?_, ?_, ?_⟩, edDenotes_iff.mp h1, h2⟩
  · have := natCast_eq (q := qEd448) (a := aEd448) (b := 1) (by decide +kernel)
    push_cast at this ⊢; exact this
  · rw [eq_neg_iff_add_eq_zero]
    have := natCast_eq (q := qEd448) (a := dEd448 + 39081) (b := 0) (by decide +kernel)
    push_cast at this ⊢; exact this
  · rw [(base_coords h1 (by decide +kernel)).1, ZMod.val_natCast]
    decide +kernel
  · rw [(base_coords h1 (by decide +kernel)).2, ZMod.val_natCast]
    decide +kernel

/-- The base point is the only point so described. -/
theorem base25519_only {B : EdPoint ((aEd25519 : Nat) : ZMod qEd25519) ((dEd25519 : Nat) : ZMod qEd25519)} (h : IsEd25519 B) : BaseOk ed25519 11 B := by
  obtain ⟨B', ⟨-, -, -, h1', h2'⟩, hb⟩ := base25519
  obtain ⟨-, -, -, h1, h2⟩ := h
  have five : (5 : ZMod qEd25519) ≠ 0 := by
    have : ((5 : Nat) : ZMod qEd25519) ≠ 0 := by rw [Ne, ZMod.natCast_eq_zero_iff]; decide +kernel
    exact_mod_cast this
  have ey : B.y = B'.y := mul_left_cancel₀ five (h1.trans h1'.symm)
  obtain ⟨n1, n2, n3⟩ := C60_encode_names sigOk25519 B'
  rw [C60_names_unique sigOk25519 (Q := B) (Q' := B') ⟨n1, ey.trans n2, by rw [h2, ← h2', n3]⟩ ⟨n1, n2, n3⟩]
  exact hb

theorem base448_only {B : EdPoint ((aEd448 : Nat) : ZMod qEd448) ((dEd448 : Nat) : ZMod qEd448)} (h : IsEd448 B) : BaseOk ed448 17 B := by
  obtain ⟨B', ⟨-, -, -, h1', h2'⟩, hb⟩ := base448
  obtain ⟨-, -, -, h1, h2⟩ := h
  rw [EdPoint.ext (ZMod.val_injective _ (h1.trans h1'.symm)) (ZMod.val_injective _ (h2.trans h2'.symm))]
  exact hb

/-- C87: there are such base points. -/
theorem C87_base_points : (∃ B : EdPoint ((aEd25519 : Nat) : ZMod qEd25519) ((dEd25519 : Nat) : ZMod qEd25519), IsEd25519 B) ∧
    ∃ B : EdPoint ((aEd448 : Nat) : ZMod qEd448) ((dEd448 : Nat) : ZMod qEd448), IsEd448 B :=
  ⟨base25519.imp fun _ h => h.1, base448.imp fun _ h => h.1⟩

theorem edDom_short (b : Nat) (f : BitVec 8) (ctx : List (BitVec 8)) (h : ctx.length ≤ 255) : (edDom b f ctx).length < 2 ^ 10 := by
  unfold edDom
  have := ascii_len
  split
  · split
    · simp
    · simp [this.1]; omega
  · simp [this.2]; omega

theorem edEncode_length {q : Nat} [Fact q.Prime] {a d : ZMod q} (b : Nat) (Q : EdPoint a d) : (edEncode b Q).length = b := by
  unfold edEncode leN; simp

/-- `edSign` depends on the hash function at two messages only. -/
theorem edSign_congr {q : Nat} [Fact q.Prime] {a d : ZMod q} [EdComplete a d] (b L : Nat) (B : EdPoint a d) (H H' : List (BitVec 8) → List (BitVec 8))
    (dom pre A : List (BitVec 8)) (s : Nat) (msg : List (BitVec 8)) (N : Nat) (hN : dom.length + pre.length + b + A.length + msg.length < N)
    (h : ∀ m, m.length < N → H m = H' m) : edSign b L B H dom pre A s msg = edSign b L B H' dom pre A s msg := by
  unfold edSign
  simp only
  rw [h (dom ++ pre ++ msg) (by simp; omega), h _ (by simp [edEncode_length]; omega)]

/-- C87: Ed25519, Ed25519ctx and Ed25519ph with the library's SHA-512: the public key and the signatures are those of RFC 8032. -/
theorem C87_ed25519_sign {B : EdPoint ((aEd25519 : Nat) : ZMod qEd25519) ((dEd25519 : Nat) : ZMod qEd25519)} (hB : IsEd25519 B)
    (mem : MD.Ctx (List (BitVec 64))) (hmem : mem.msg.length = 128) (x : Ctx) (sk : List (BitVec 8)) (hsk : sk.length = 32) :
    ∃ y, decodePrivateKey ed25519 11 (hash512 mem) x sk = some y ∧ keygen ed25519 11 (hash512 mem) sk x = y ∧
      encodePublicKey ed25519 y 32 = some (ed25519Public B sk) ∧ ∀ ctx : List (BitVec 8), ctx.length ≤ 255 →
      (∀ msg : List (BitVec 8), msg.length < 2 ^ 60 →
        encodeSignature ed25519 (sign ed25519 11 (hash512 mem) { y with ctxstr := ctx } msg) 64 = some (ed25519Sign B 0 ctx sk msg)) ∧
      ∀ chunks : List (List (BitVec 8)), chunks.flatten.length < 2 ^ 60 →
        encodeSignature ed25519 (incSignFinal ed25519 11 (hash512 mem) (chunks.foldl EdDsa.update (incInit { y with ctxstr := ctx }))) 64 =
          some (ed25519Sign B 1 ctx sk (Spec.Sha.sha512 chunks.flatten)) := by
  have hb := base25519_only hB
  have hp : plen ed25519 = 32 := by decide
  have hL : val ed25519.L = L25519 := by decide +kernel
  have hk := C61_keygen (c := 11) (hash512 mem) x sk (by rw [hp]; exact hsk)
  have hd : ∀ m : List (BitVec 8), m.length < 2 ^ 61 → (hash512 mem).digest m (plen ed25519 * 2) = Spec.Sha.sha512 m := fun m hm => by
    rw [hp]; exact hash512_digest mem hmem m hm
  have l512 : ∀ m, (Spec.Sha.sha512 m).length = 64 := sha512_law.len
  have hpub := C61_public_key sigOk25519 hb (hash512 mem) x _ sk hk (.inl hp)
  have key : ∀ (f : BitVec 8) (ctx msg : List (BitVec 8)), ctx.length ≤ 255 → msg.length < 2 ^ 60 →
      edSign (plen ed25519) (val ed25519.L) B (fun m => (hash512 mem).digest m (plen ed25519 * 2)) (edDom (plen ed25519) f ctx)
        (((hash512 mem).digest sk (plen ed25519 * 2)).drop (plen ed25519))
        (edEncode (plen ed25519) (edScalar (plen ed25519) ((hash512 mem).digest sk (plen ed25519 * 2)) • B))
        (edScalar (plen ed25519) ((hash512 mem).digest sk (plen ed25519 * 2))) msg = ed25519Sign B f ctx sk msg := fun f ctx msg hc hm => by
    rw [hd sk (by omega), hp, hL]
    have := edDom_short 32 f ctx hc
    exact edSign_congr _ _ _ _ _ _ _ _ _ _ (2 ^ 61) (by rw [edEncode_length, List.length_drop, l512]; omega) fun m hm => by rw [← hd m hm, hp]
  refine ⟨_, hk, rfl, ?_, fun ctx hc => ⟨fun msg hm => ?_, fun chunks hm => ?_⟩⟩
  · rw [hd sk (by omega), hp] at hpub
    exact hpub
  · have := C62_sign sigOk25519 hb (hash512 mem) x _ sk hk (.inl hp) ctx msg
    rw [key 0 ctx msg hc hm, hp] at this
    exact this
  · have := C62_sign_incremental sigOk25519 hb (hash512 mem) x _ sk hk (.inl hp) ctx chunks
    rw [key 1 ctx _ hc (by simp [Pkcs1.Hash.digest]), hp, hash512_digest mem hmem _ (by omega)] at this
    exact this

theorem edTrim_length (b n : Nat) (buf : List (BitVec 8)) : (edTrim b n buf).length = b := by
  unfold edTrim leN; simp

theorem edValid_congr {q : Nat} [Fact q.Prime] {a d : ZMod q} [EdComplete a d] (b n L : Nat) (B Q : EdPoint a d) (H H' : List (BitVec 8) → List (BitVec 8))
    (dom A msg sig : List (BitVec 8)) (N : Nat) (hN : dom.length + b + b + msg.length < N)
    (h : ∀ m, m.length < N → H m = H' m) : EdValid b n L B H dom A Q msg sig ↔ EdValid b n L B H' dom A Q msg sig := by
  unfold EdValid
  rw [h _ (by simp [edTrim_length]; omega)]

/-- C87: what is accepted is valid by RFC 8032 (without the cofactor) and what is valid is accepted, but for a second half of zero. -/
theorem C87_ed25519_verify {B : EdPoint ((aEd25519 : Nat) : ZMod qEd25519) ((dEd25519 : Nat) : ZMod qEd25519)} (hB : IsEd25519 B)
    (mem : MD.Ctx (List (BitVec 64))) (hmem : mem.msg.length = 128) (x y : Ctx) (pk : List (BitVec 8))
    (h : decodePublicKey ed25519 11 x pk = some (y, true)) :
    ∃ Q : EdPoint ((aEd25519 : Nat) : ZMod qEd25519) ((dEd25519 : Nat) : ZMod qEd25519), EdNames 32 255 pk Q ∧
      ∀ ctx sig msg : List (BitVec 8), ctx.length ≤ 255 → msg.length < 2 ^ 60 →
      ((verify ed25519 11 (hash512 mem) (decodeSignature ed25519 11 { y with ctxstr := ctx } sig).1 msg).2 = true →
        EdValid 32 255 L25519 B Spec.Sha.sha512 (edDom 32 0 ctx) pk Q msg sig) ∧
      (EdValid 32 255 L25519 B Spec.Sha.sha512 (edDom 32 0 ctx) pk Q msg sig → leNat (sig.drop 32) ≠ 0 →
        (verify ed25519 11 (hash512 mem) (decodeSignature ed25519 11 { y with ctxstr := ctx } sig).1 msg).2 = true) := by
  obtain ⟨Q, hn, hv⟩ := C62_verify sigOk25519 (base25519_only hB) (hash512 mem) x y pk h
  have hp : plen ed25519 = 32 := by decide
  have hL : val ed25519.L = L25519 := by decide +kernel
  refine ⟨Q, by rw [hp] at hn; exact hn, fun ctx sig msg hc hm => ?_⟩
  have := hv ctx sig msg
  rw [hp, hL] at this
  have := edDom_short 32 0 ctx hc
  rw [← edValid_congr 32 255 L25519 B Q (fun m => (hash512 mem).digest m (32 * 2)) Spec.Sha.sha512 (edDom 32 0 ctx) pk msg sig (2 ^ 61) (by omega)
    fun m hm => hash512_digest mem hmem m hm]
  assumption

/-! ## Ed448 -/

/-- SHAKE256 as EdDSA calls it. -/
abbrev hashShake256 : Pkcs1.Hash := shakeHash 64 136

theorem shake_digest {S : List (BitVec 8) → Nat → List (BitVec 8)} (hS : IsShake256 S) (m : List (BitVec 8)) (t : Nat) : hashShake256.digest m t = S m t := by
  have := (C87_shake_calls 64 [m] t).2 S hS
  simpa using this

/-- C87: Ed448 and Ed448ph with the library's SHAKE256: the public key and the signatures are those of RFC 8032, if the secret scalar is not a multiple of the order
of the base point. -/
theorem C87_ed448_sign {B : EdPoint ((aEd448 : Nat) : ZMod qEd448) ((dEd448 : Nat) : ZMod qEd448)} (hB : IsEd448 B)
    {S : List (BitVec 8) → Nat → List (BitVec 8)} (hS : IsShake256 S) (x : Ctx) (sk : List (BitVec 8)) (hsk : sk.length = 57)
    (hs : edScalar 57 (S sk 114) % L448 ≠ 0) :
    ∃ y, decodePrivateKey ed448 17 hashShake256 x sk = some y ∧ keygen ed448 17 hashShake256 sk x = y ∧
      encodePublicKey ed448 y 57 = some (ed448Public B S sk) ∧ ∀ ctx : List (BitVec 8),
      (∀ msg : List (BitVec 8), encodeSignature ed448 (sign ed448 17 hashShake256 { y with ctxstr := ctx } msg) 114 = some (ed448Sign B S 0 ctx sk msg)) ∧
      ∀ chunks : List (List (BitVec 8)),
        encodeSignature ed448 (incSignFinal ed448 17 hashShake256 (chunks.foldl EdDsa.update (incInit { y with ctxstr := ctx }))) 114 =
          some (ed448Sign B S 1 ctx sk (S chunks.flatten 64)) := by
  have hb := base448_only hB
  have hp : plen ed448 = 57 := by decide
  have hL : val ed448.L = L448 := by decide +kernel
  have hk := C61_keygen (C := ed448) (c := 17) hashShake256 x sk (by rw [hp]; exact hsk)
  have hd : ∀ m : List (BitVec 8), hashShake256.digest m (plen ed448 * 2) = S m 114 := fun m => by rw [hp]; exact shake_digest hS m 114
  have hs' : plen ed448 = 32 ∨ edScalar (plen ed448) (hashShake256.digest sk (plen ed448 * 2)) % val ed448.L ≠ 0 := .inr (by rw [hd, hp, hL]; exact hs)
  have hf : (fun m => hashShake256.digest m (plen ed448 * 2)) = fun m => S m 114 := funext hd
  refine ⟨_, hk, rfl, ?_, fun ctx => ⟨fun msg => ?_, fun chunks => ?_⟩⟩
  · have := C61_public_key sigOk448 hb hashShake256 x _ sk hk hs'
    rw [hd, hp] at this
    exact this
  · have := C62_sign sigOk448 hb hashShake256 x _ sk hk hs' ctx msg
    rw [hf, hd, hp, hL] at this
    exact this
  · have := C62_sign_incremental sigOk448 hb hashShake256 x _ sk hk hs' ctx chunks
    rw [hf, hd, hp, hL, shake_digest hS] at this
    exact this

/-- C87: Ed448 verification. -/
theorem C87_ed448_verify {B : EdPoint ((aEd448 : Nat) : ZMod qEd448) ((dEd448 : Nat) : ZMod qEd448)} (hB : IsEd448 B)
    {S : List (BitVec 8) → Nat → List (BitVec 8)} (hS : IsShake256 S) (x y : Ctx) (pk : List (BitVec 8))
    (h : decodePublicKey ed448 17 x pk = some (y, true)) :
    ∃ Q : EdPoint ((aEd448 : Nat) : ZMod qEd448) ((dEd448 : Nat) : ZMod qEd448), EdNames 57 448 pk Q ∧
      ∀ ctx sig msg : List (BitVec 8),
      ((verify ed448 17 hashShake256 (decodeSignature ed448 17 { y with ctxstr := ctx } sig).1 msg).2 = true →
        EdValid 57 448 L448 B (fun m => S m 114) (edDom 57 0 ctx) pk Q msg sig) ∧
      (EdValid 57 448 L448 B (fun m => S m 114) (edDom 57 0 ctx) pk Q msg sig → leNat (sig.drop 57) ≠ 0 →
        (verify ed448 17 hashShake256 (decodeSignature ed448 17 { y with ctxstr := ctx } sig).1 msg).2 = true) := by
  obtain ⟨Q, hn, hv⟩ := C62_verify sigOk448 (base448_only hB) hashShake256 x y pk h
  have hp : plen ed448 = 57 := by decide
  have hL : val ed448.L = L448 := by decide +kernel
  refine ⟨Q, by rw [hp] at hn; exact hn, fun ctx sig msg => ?_⟩
  have := hv ctx sig msg
  rw [hp, hL, show (fun m => hashShake256.digest m (57 * 2)) = fun m => S m 114 from funext fun m => shake_digest hS m 114] at this
  exact this

/-- There is such a function, the library's own. -/
example : IsShake256 fun m t => (read Keccak.f1600 (shakeFinal Keccak.f1600 (update Keccak.f1600 (shakeInit 136) m)) t).1 := fun m t => by
  have := C69_shake256 [m] t
  simpa using this

end Props
