import Verif.Lemmas.AesCipher
import Verif.Lemmas.Sm4
import Verif.Lemmas.Seed
import Verif.Lemmas.Camellia
import Verif.Lemmas.Aria
import Verif.Lemmas.SboxByte

/-!
# C27, C28, C43, C44: block ciphers
-/
namespace Props
open Spec

/-! ### C27: decryption inverts encryption, for every array of round keys. -/

/-- AES (any number of rounds, in particular 10, 12, 14), for every expanded key `w`. -/
theorem C27_aes (w inp : List (BitVec 8)) (Nr : Nat) (h : inp.length = 16) : Aes.invCipher (Aes.cipher inp w Nr) w Nr = inp :=
  Aes.inv_cipher w inp Nr h

example : Aes.invCipher (Aes.cipher (List.replicate 16 0x5a#8) (Aes.keyExpansion (List.replicate 16 7#8) 4 10) 10) (Aes.keyExpansion (List.replicate 16 7#8) 4 10) 10 =
    List.replicate 16 0x5a#8 := C27_aes _ _ _ rfl

/-- SM4. -/
theorem C27_sm4 (inp : List (BitVec 8)) (rk : List (BitVec 32)) (h : inp.length = 16) : Sm4.decrypt (Sm4.encrypt inp rk) rk = inp :=
  Sm4.dec_enc inp rk h

/-- SEED. -/
theorem C27_seed (inp : List (BitVec 8)) (K : List (BitVec 64)) (h : inp.length = 16) : Seed.decrypt (Seed.encrypt inp K) K = inp :=
  Seed.dec_enc inp K h

/-- Camellia with 128-bit keys, and with 192- and 256-bit keys. -/
theorem C27_camellia (inp : List (BitVec 8)) (k : Camellia.Key) (h : inp.length = 16) :
    Camellia.decrypt128 (Camellia.encrypt128 inp k) k = inp ∧ Camellia.decrypt256 (Camellia.encrypt256 inp k) k = inp :=
  ⟨Camellia.dec_enc128 inp k h, Camellia.dec_enc256 inp k h⟩

/-- ARIA with 12, 14 and 16 rounds (keys of 128, 192, 256 bits). -/
theorem C27_aria (inp ek : List (BitVec 8)) (h : inp.length = 16) (c : Nat) (hc : c = 12 ∨ c = 14 ∨ c = 16) :
    Aria.decryptGeneric (Aria.encryptGeneric inp ek c) ek c = inp := by
  rcases hc with rfl | rfl | rfl
  · exact Aria.dec_enc inp ek 5 h
  · exact Aria.dec_enc inp ek 6 h
  · exact Aria.dec_enc inp ek 7 h

example : (List.replicate 16 0x5a#8).length = 16 := rfl

/-! ### C28: the masked table scans are table look-ups. -/

/-- In every byte lane `k`, the word-wide scan of an interleaved table (entry `i` at words `2 i` and `2 i + 1`) returns lane `k`
of the value word whose index word agrees with the input in that lane. -/
theorem C28_wsbox (T : List (BitVec 32)) (w : BitVec 32) (k : Nat) (hk : k < 4) (j : Nat) (hj : j < 256)
    (h : ∀ i, i < 256 → (lane k (T.getD (2 * i + 1) 0) = lane k w ↔ i = j)) : lane k (Sbox.wsbox w T) = lane k (T.getD (2 * j) 0) := by
  rw [Sbox.wsbox_raw]
  exact Sbox.scan_lane (fun i => T.getD (2 * i) 0) (fun i => T.getD (2 * i + 1) 0) w k hk _ j (List.mem_range.mpr hj) (fun i hi => h i (List.mem_range.mp hi))

/-- The inverse scan exchanges the roles of value and index. -/
theorem C28_invwsbox (T : List (BitVec 32)) (w : BitVec 32) (k : Nat) (hk : k < 4) (j : Nat) (hj : j < 256)
    (h : ∀ i, i < 256 → (lane k (T.getD (2 * i) 0) = lane k w ↔ i = j)) : lane k (Sbox.invwsbox w T) = lane k (T.getD (2 * j + 1) 0) := by
  rw [Sbox.invwsbox_raw]
  exact Sbox.scan_lane (fun i => T.getD (2 * i + 1) 0) (fun i => T.getD (2 * i) 0) w k hk _ j (List.mem_range.mpr hj) (fun i hi => h i (List.mem_range.mp hi))

/-- The byte-wide scans. -/
theorem C28_sbox (x : BitVec 8) (t : List (BitVec 8)) : Sbox.sbox x t = t.getD x.toNat 0 := Sbox.sbox_lookup x t
theorem C28_invsbox (x : BitVec 8) (t : List (BitVec 8)) (j : Nat) (hj : j < 256) (ht : ∀ i, i < 256 → (t.getD i 0 = x ↔ i = j)) :
    Sbox.invsbox x t = BitVec.ofNat 8 j := Sbox.invsbox_lookup x t j hj ht

/-- The actual tables: in every lane the AES scan is the AES S-box, the inverse scan its inverse; likewise SM4. -/
theorem C28_aes (w : BitVec 32) (k : Nat) (hk : k < 4) :
    lane k (Sbox.wsbox w Aes.table) = aesSub (lane k w) ∧ aesSub (lane k (Sbox.invwsbox w Aes.table)) = lane k w := by
  constructor
  · rw [Aes.wsbox_table w k hk, ← Aes.sb_spec]; rfl
  · obtain ⟨i, hi, he⟩ := Aes.table_surj (lane k w)
    rw [Aes.invwsbox_table w k hk i hi he, ← Aes.sb_spec]
    show Aes.sboxTable.getD _ 0 = _
    rw [BitVec.toNat_ofNat, Nat.mod_eq_of_lt hi, he]
theorem C28_sm4 (w : BitVec 32) (k : Nat) (hk : k < 4) : lane k (Sbox.wsbox w Sm4.table) = sm4Sbox (lane k w) := Sm4.tau_lane w k hk

/-- A table meeting the hypotheses. -/
example : ∀ i, i < 256 → (lane 2 (Aes.table.getD (2 * i + 1) 0) = lane 2 0x00070000#32 ↔ i = 7) := by
  have : ∀ i : Fin 256, (lane 2 (Aes.table.getD (2 * i.val + 1) 0) = lane 2 0x00070000#32 ↔ i.val = 7) := by decide +kernel
  exact fun i hi => this ⟨i, hi⟩

/-! ### C43: AES is FIPS 197. -/

/-- Encryption under the schedule computed from a key of 16, 24 or 32 bytes is the FIPS 197 cipher. -/
theorem C43_aes_fips197 (key inp : List (BitVec 8)) (h : inp.length = 16) (Nk Nr : Nat)
    (hN : (Nk, Nr) = (4, 10) ∨ (Nk, Nr) = (6, 12) ∨ (Nk, Nr) = (8, 14)) (hk : key.length = 4 * Nk) :
    Aes.cipher inp (Aes.keyExpansion key Nk Nr) Nr = aes Nk Nr key inp := by
  rcases hN with hN | hN | hN <;> (obtain ⟨rfl, rfl⟩ := Prod.mk.inj hN; exact Aes.aes_spec key inp _ _ (by omega) hk (by omega) (by omega) h)

/-- Decryption is the inverse of the FIPS 197 cipher. -/
theorem C43_aes_decrypt (key inp : List (BitVec 8)) (h : inp.length = 16) (Nk Nr : Nat)
    (hN : (Nk, Nr) = (4, 10) ∨ (Nk, Nr) = (6, 12) ∨ (Nk, Nr) = (8, 14)) (hk : key.length = 4 * Nk) :
    Aes.invCipher (aes Nk Nr key inp) (Aes.keyExpansion key Nk Nr) Nr = inp := by
  rw [← C43_aes_fips197 key inp h Nk Nr hN hk]
  exact C27_aes _ _ _ h

example : (List.replicate 24 1#8).length = 4 * 6 ∧ ((6, 12) : Nat × Nat) = (6, 12) := ⟨rfl, rfl⟩

/-! ### C44: SM4 is GB/T 32907. -/

theorem C44_sm4_encrypt (key inp : List (BitVec 8)) (hk : key.length = 16) (h : inp.length = 16) :
    Sm4.encrypt inp (Sm4.keySched key) = sm4Encrypt key inp :=
  Sm4.with_spec inp _ false _ h (fun i hi => Sm4.keySched_spec key hk i hi)

theorem C44_sm4_decrypt (key inp : List (BitVec 8)) (hk : key.length = 16) (h : inp.length = 16) :
    Sm4.decrypt inp (Sm4.keySched key) = sm4Decrypt key inp :=
  Sm4.with_spec inp _ true _ h (fun i hi => Sm4.keySched_spec key hk (31 - i) (by omega))

example : (List.replicate 16 1#8).length = 16 := rfl

end Props
