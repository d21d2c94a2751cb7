import Verif.Lemmas.CamelliaSpec
import Verif.Lemmas.SeedSpec
import Verif.Lemmas.AriaSpec

/-!
# C70, C71, C72: Camellia, SEED and ARIA are the functions of RFC 3713, RFC 4269 and RFC 5794

The standards are transcribed in `Spec/National.lean`, with the S-boxes by their algebraic definitions and not as tables.
-/
namespace Props
open Spec

/-! ### C70: Camellia -/

theorem cam_st_len (p : List Camellia.Op) (inp : List (BitVec 8)) :
    (Camellia.encBlock p inp).length = 16 ∧ (Camellia.decBlock p inp).length = 16 := ⟨rfl, rfl⟩

/-- C70: with a 16-octet key the block written is the number RFC 3713 gives, for encryption and decryption. -/
theorem C70_128 (key inp : List (BitVec 8)) (hk : key.length = 16) (h : inp.length = 16) :
    let out := Camellia.encrypt128 inp (Camellia.keySched128 key)
    let back := Camellia.decrypt128 inp (Camellia.keySched128 key)
    out.length = 16 ∧ Spec.Camellia.num 128 out = Spec.Camellia.encrypt key inp ∧
    back.length = 16 ∧ Spec.Camellia.num 128 back = Spec.Camellia.decrypt key inp := by
  refine ⟨rfl, ?_, rfl, ?_⟩
  · rw [Camellia.key128 key hk]
    unfold Spec.Camellia.encrypt Spec.Camellia.subkeys
    rw [if_pos hk]
    exact Camellia.enc128_spec _ _ inp h
  · rw [Camellia.key128 key hk]
    unfold Spec.Camellia.decrypt Spec.Camellia.subkeys
    rw [if_pos hk]
    exact Camellia.dec128_spec _ _ inp h

/-- C70: with a 24-octet key. -/
theorem C70_192 (key inp : List (BitVec 8)) (hk : key.length = 24) (h : inp.length = 16) :
    let out := Camellia.encrypt256 inp (Camellia.keySched192 key)
    let back := Camellia.decrypt256 inp (Camellia.keySched192 key)
    out.length = 16 ∧ Spec.Camellia.num 128 out = Spec.Camellia.encrypt key inp ∧
    back.length = 16 ∧ Spec.Camellia.num 128 back = Spec.Camellia.decrypt key inp := by
  refine ⟨rfl, ?_, rfl, ?_⟩
  · rw [Camellia.key192 key hk _ _ rfl rfl]
    unfold Spec.Camellia.encrypt Spec.Camellia.subkeys
    rw [if_neg (by omega), if_pos hk]
    exact Camellia.enc256_spec _ _ _ _ inp h
  · rw [Camellia.key192 key hk _ _ rfl rfl]
    unfold Spec.Camellia.decrypt Spec.Camellia.subkeys
    rw [if_neg (by omega), if_pos hk]
    exact Camellia.dec256_spec _ _ _ _ inp h

/-- C70: with a 32-octet key. -/
theorem C70_256 (key inp : List (BitVec 8)) (hk : key.length = 32) (h : inp.length = 16) :
    let out := Camellia.encrypt256 inp (Camellia.keySched256 key)
    let back := Camellia.decrypt256 inp (Camellia.keySched256 key)
    out.length = 16 ∧ Spec.Camellia.num 128 out = Spec.Camellia.encrypt key inp ∧
    back.length = 16 ∧ Spec.Camellia.num 128 back = Spec.Camellia.decrypt key inp := by
  refine ⟨rfl, ?_, rfl, ?_⟩
  · rw [Camellia.key256 key hk _ _ rfl rfl]
    unfold Spec.Camellia.encrypt Spec.Camellia.subkeys
    rw [if_neg (by omega), if_neg (by omega)]
    exact Camellia.enc256_spec _ _ _ _ inp h
  · rw [Camellia.key256 key hk _ _ rfl rfl]
    unfold Spec.Camellia.decrypt Spec.Camellia.subkeys
    rw [if_neg (by omega), if_neg (by omega)]
    exact Camellia.dec256_spec _ _ _ _ inp h

/-- A test vector of RFC 3713, of the code, and so (by `C70_128`) of the transcription. -/
example : beNat (Camellia.encrypt128 (beN 16 0x0123456789abcdeffedcba9876543210)
    (Camellia.keySched128 (beN 16 0x0123456789abcdeffedcba9876543210))) = 0x67673138549669730857065648eabe43 := by decide +kernel

/-! ### C71: SEED -/

/-- C71: the octets written are those RFC 4269 gives, for encryption and decryption. -/
theorem C71_seed (key inp : List (BitVec 8)) (hk : key.length = 16) (h : inp.length = 16) :
    Seed.encrypt inp (Seed.keySched key) = Spec.Seed.encrypt key inp ∧
    Seed.decrypt inp (Seed.keySched key) = Spec.Seed.decrypt key inp :=
  ⟨Seed.enc_spec key inp hk h, Seed.dec_spec key inp hk h⟩

example : beNat (Spec.Seed.encrypt (beN 16 0) (beN 16 0x000102030405060708090a0b0c0d0e0f)) = 0x5ebac6e0054e166819aff1cc6d346cdb := by
  rw [← (C71_seed _ _ rfl rfl).1]; decide +kernel

/-! ### C72: ARIA -/

/-- C72: with keys of 16, 24 and 32 octets the octets written are those RFC 5794 gives. -/
theorem C72_encrypt (key inp : List (BitVec 8)) (h : inp.length = 16) :
    (key.length = 16 → Aria.encrypt128 inp (Aria.keySched128 key) = Spec.Aria.encrypt key inp) ∧
    (key.length = 24 → Aria.encrypt192 inp (Aria.keySched192 key) = Spec.Aria.encrypt key inp) ∧
    (key.length = 32 → Aria.encrypt256 inp (Aria.keySched256 key) = Spec.Aria.encrypt key inp) :=
  ⟨fun hk => Aria.enc128_spec key inp hk h, fun hk => Aria.enc192_spec key inp hk h, fun hk => Aria.enc256_spec key inp hk h⟩

/-- C72: and decryption. -/
theorem C72_decrypt (key inp : List (BitVec 8)) (h : inp.length = 16) :
    (key.length = 16 → Aria.decrypt128 inp (Aria.keySched128 key) = Spec.Aria.decrypt key inp) ∧
    (key.length = 24 → Aria.decrypt192 inp (Aria.keySched192 key) = Spec.Aria.decrypt key inp) ∧
    (key.length = 32 → Aria.decrypt256 inp (Aria.keySched256 key) = Spec.Aria.decrypt key inp) :=
  ⟨fun hk => Aria.dec128_spec key inp hk h, fun hk => Aria.dec192_spec key inp hk h, fun hk => Aria.dec256_spec key inp hk h⟩

/-- A test vector of RFC 5794. -/
example : beNat (Aria.encrypt128 (beN 16 0x00112233445566778899aabbccddeeff)
    (Aria.keySched128 (beN 16 0x000102030405060708090a0b0c0d0e0f))) = 0xd718fbd6ab644c739da95f3be6451778 := by decide +kernel

end Props
