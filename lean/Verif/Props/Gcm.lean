import Verif.Lemmas.Gcm

/-!
# C22 - C24: GHASH and GCM (`src/1-symm/galois128.c`, `src/2-encryption/gcm.c`)
-/
namespace Props
open Spec

/-- C22.  One GHASH step replaces the accumulator `Y` by `(Y xor X) * H` in GF(2)[x]/(x^128+x^7+x^2+x+1),
for all accumulators, hash subkeys and message blocks. -/
theorem C22_ghash_block (Y H X : List (BitVec 8)) (hY : Y.length = 16) (hX : X.length = 16) :
    IsGfProduct (xorBytes Y X) H (Ghash.hash1block Y H X) :=
  Ghash.hash1block_spec Y H X hY hX

/-- C22.  The product block is unique, so C22 determines the result completely. -/
theorem C22_product_unique (a b c d : List (BitVec 8)) (h1 : IsGfProduct a b c) (h2 : IsGfProduct a b d) : c = d :=
  Ghash.product_unique h1 h2

/-- Non-vacuity for C22, and a test of the modelled code: x^127 * x = x^7+x^2+x+1. -/
example : Ghash.hash1block (List.replicate 16 0) (0x40 :: List.replicate 15 0) (List.replicate 15 0 ++ [1]) = 0xE1#8 :: List.replicate 15 0 := by
  decide +kernel

/-- A multiplication of GF(2^128) blocks exists (the one in the code). -/
theorem gf_mul_exists : ∃ mul : List (BitVec 8) → List (BitVec 8) → List (BitVec 8),
    ∀ a b, a.length = 16 → b.length = 16 → IsGfProduct a b (mul a b) := by
  refine ⟨fun a b => Ghash.hash1block a b (List.replicate 16 0), fun a b ha _ => ?_⟩
  have h := Ghash.hash1block_spec a b (List.replicate 16 0) ha (by simp)
  have e : xorBytes a (List.replicate 16 0) = a := by
    apply Aead.list_ext_getD
    · simp [xorBytes, ha]
    · intro k hk
      have hk' : k < a.length := by simp [xorBytes] at hk; omega
      unfold xorBytes
      rw [List.getD_eq_getElem?_getD, List.getElem?_zipWith, List.getElem?_eq_getElem hk', List.getElem?_replicate, if_pos (by omega)]
      simp [List.getD_eq_getElem?_getD, List.getElem?_eq_getElem hk']
  rwa [e] at h

/-- C23.  Encryption: for every key (keyed block cipher `E`), 12-byte IV, associated data, message, tag length and
placement of input and output, the ciphertext and tag of SP 800-38D are produced, and no other byte of memory changes. -/
theorem C23_gcm_encrypt (mul : List (BitVec 8) → List (BitVec 8) → List (BitVec 8))
    (hm : ∀ a b, a.length = 16 → b.length = 16 → IsGfProduct a b (mul a b))
    (E : List (BitVec 8) → List (BitVec 8)) (hE : ∀ x, x.length = 16 → (E x).length = 16) (kb : Nat)
    (iv A : List (BitVec 8)) (len inp out tlen : Nat) (m : Mem)
    (hiv : iv.length = 12) (hA : A.length < 2 ^ 61) (hlen : len ≤ 2 ^ 36 - 32) (hs : Streamable inp out len) :
    ∃ g, Gcm.init kb kb E = some g ∧
      Gcm.encrypt g iv A len inp out tlen m =
        some (storeAt m out (gcmCipher E iv (bytesAt m inp len)), fitTo (gcmTag mul E iv A (gcmCipher E iv (bytesAt m inp len))) tlen) :=
  ⟨_, if_neg (fun h => h rfl), Gcm.encrypt_spec hm E hE iv A len inp out tlen m hiv hA hlen hs⟩

/-- C23.  Decryption accepts exactly when the supplied tag is the tag of (IV, associated data, ciphertext) cut (or
zero-extended) to its length; on rejection memory is unchanged; on acceptance the plaintext is stored. -/
theorem C23_gcm_decrypt (mul : List (BitVec 8) → List (BitVec 8) → List (BitVec 8))
    (hm : ∀ a b, a.length = 16 → b.length = 16 → IsGfProduct a b (mul a b))
    (E : List (BitVec 8) → List (BitVec 8)) (hE : ∀ x, x.length = 16 → (E x).length = 16) (kb : Nat)
    (iv A T : List (BitVec 8)) (len inp out : Nat) (m : Mem)
    (hiv : iv.length = 12) (hA : A.length < 2 ^ 61) (hlen : len ≤ 2 ^ 36 - 32) (hs : Streamable inp out len) :
    ∃ g, Gcm.init kb kb E = some g ∧
      Gcm.decrypt g iv A len inp out T m =
        if T = fitTo (gcmTag mul E iv A (bytesAt m inp len)) T.length
        then (true, storeAt m out (gcmCipher E iv (bytesAt m inp len)))
        else (false, m) :=
  ⟨_, if_neg (fun h => h rfl), Gcm.decrypt_spec hm E hE iv A T len inp out m hiv hA hlen hs⟩

theorem bytesAt_storeAt (m : Mem) (p : Nat) (s : List (BitVec 8)) : bytesAt (storeAt m p s) p s.length = s := by
  apply Aead.list_ext_getD (by rw [Aead.length_bytesAt])
  intro k hk
  rw [Aead.length_bytesAt] at hk
  rw [Aead.getD_bytesAt _ _ _ _ hk]
  unfold storeAt
  rw [if_pos (by omega), show p + k - p = k by omega]

/-- C23.  Round trip: decrypting what was encrypted (same key, IV, associated data and tag, any placement of the three
areas that can be streamed) succeeds and restores the plaintext. -/
theorem C23_gcm_roundtrip (E : List (BitVec 8) → List (BitVec 8)) (hE : ∀ x, x.length = 16 → (E x).length = 16) (kb : Nat)
    (iv A : List (BitVec 8)) (len inp out out2 tlen : Nat) (m : Mem)
    (hiv : iv.length = 12) (hA : A.length < 2 ^ 61) (hlen : len ≤ 2 ^ 36 - 32) (hs : Streamable inp out len) (hs2 : Streamable out out2 len) :
    ∃ g m1 T, Gcm.init kb kb E = some g ∧ Gcm.encrypt g iv A len inp out tlen m = some (m1, T) ∧
      (Gcm.decrypt g iv A len out out2 T m1).1 = true ∧
      bytesAt (Gcm.decrypt g iv A len out out2 T m1).2 out2 len = bytesAt m inp len := by
  obtain ⟨mul, hm⟩ := gf_mul_exists
  have hEi : ∀ i, ((fun i => E (iv ++ beN 4 (i + 2))) i).length = 16 := fun i => hE _ (by simp [hiv, beN])
  obtain ⟨C, hC⟩ : ∃ C, C = gcmCipher E iv (bytesAt m inp len) := ⟨_, rfl⟩
  have hCl : C.length = len := by
    rw [hC]; unfold gcmCipher
    rw [Aead.length_streamXor 16 (by omega) _ hEi, Aead.length_bytesAt]
  have he := Gcm.encrypt_spec hm E hE iv A len inp out tlen m hiv hA hlen hs
  rw [← hC] at he
  refine ⟨⟨E (List.replicate 16 0), E⟩, _, _, if_neg (fun h => h rfl), he, ?_⟩
  have hb : bytesAt (storeAt m out C) out len = C := by
    have := bytesAt_storeAt m out C
    rwa [hCl] at this
  rw [Gcm.decrypt_spec hm E hE iv A _ len out out2 _ hiv hA hlen hs2, hb, Aead.length_fitTo, if_pos rfl]
  refine ⟨rfl, ?_⟩
  have hP : gcmCipher E iv C = bytesAt m inp len := by
    rw [hC]; unfold gcmCipher
    exact Aead.streamXor_twice 16 (by omega) _ hEi _
  simp only []
  rw [hP]
  have := bytesAt_storeAt (storeAt m out C) out2 (bytesAt m inp len)
  rwa [Aead.length_bytesAt] at this

/-- C23.  Key, IV and data lengths outside the limits are refused and nothing is written. -/
theorem C23_gcm_refusals (g : Gcm.Ctx) (iv A T : List (BitVec 8)) (len inp out tlen : Nat) (m : Mem) :
    (∀ kb klen E, klen ≠ kb → Gcm.init kb klen E = none) ∧
    (iv.length ≠ 12 ∨ 2 ^ 61 ≤ A.length ∨ 2 ^ 36 - 31 ≤ len →
      Gcm.encrypt g iv A len inp out tlen m = none ∧ Gcm.decrypt g iv A len inp out T m = (false, m)) := by
  refine ⟨fun kb klen E h => if_pos h, fun h => ?_⟩
  unfold Gcm.encrypt Gcm.decrypt
  exact ⟨if_pos h, if_pos h⟩

/-- C24 (GCM).  For every accepted message length there are counter blocks depending only on the IV such that the key
stream is `E (B 0) || E (B 1) || ...`, the tag mask is `E J0` and the hash subkey is `E 0`, and the `B i`, `J0` and the
zero block are pairwise distinct. -/
theorem C24_gcm_counters_distinct (mul : List (BitVec 8) → List (BitVec 8) → List (BitVec 8))
    (hm : ∀ a b, a.length = 16 → b.length = 16 → IsGfProduct a b (mul a b))
    (iv : List (BitVec 8)) (hiv : iv.length = 12) (len : Nat) (hlen : len ≤ 2 ^ 36 - 32) :
    ∃ (J0 : List (BitVec 8)) (B : Nat → List (BitVec 8)),
      (∀ i j, i < (len + 15) / 16 → j < (len + 15) / 16 → B i = B j → i = j) ∧
      (∀ i, i < (len + 15) / 16 → B i ≠ J0 ∧ B i ≠ List.replicate 16 0) ∧ J0 ≠ List.replicate 16 0 ∧
      ∀ (E : List (BitVec 8) → List (BitVec 8)), (∀ x, x.length = 16 → (E x).length = 16) →
      ∀ (kb : Nat) (A : List (BitVec 8)) (inp out tlen : Nat) (m : Mem), A.length < 2 ^ 61 → Streamable inp out len →
        ∃ g, Gcm.init kb kb E = some g ∧
        Gcm.encrypt g iv A len inp out tlen m =
          (let C := streamXor 16 (fun i => E (B i)) (bytesAt m inp len)
           some (storeAt m out C, fitTo (xorBytes (E J0) (ghash mul (E (List.replicate 16 0))
            (zeroFill 16 A ++ zeroFill 16 C ++ beN 8 (8 * A.length) ++ beN 8 (8 * C.length)))) tlen)) := by
  have inj : ∀ x y, x < 2 ^ 32 → y < 2 ^ 32 → beN 4 x = beN 4 y → x = y := by
    intro x y hx hy h
    have h' : Gcm.put32 (BitVec.ofNat 32 x) = Gcm.put32 (BitVec.ofNat 32 y) := by
      rw [Gcm.put32_eq, Gcm.put32_eq, BitVec.toNat_ofNat, BitVec.toNat_ofNat, Gcm.beN_mod, Gcm.beN_mod, h]
    have e := congrArg (fun l => Gcm.get32 (iv ++ l)) h'
    simp only [Gcm.get_put32 iv hiv] at e
    have := congrArg BitVec.toNat e
    rw [BitVec.toNat_ofNat, BitVec.toNat_ofNat] at this
    omega
  have z : ∀ x, x < 2 ^ 32 → x ≠ 0 → iv ++ beN 4 x ≠ List.replicate 16 0 := by
    intro x hx h0 he
    have h2 : beN 4 x = List.replicate 4 0 := by
      have := congrArg (List.drop 12) he
      rw [List.drop_left' hiv] at this
      rw [this]; rfl
    exact h0 (inj x 0 hx (by omega) (h2.trans (by decide)))
  refine ⟨iv ++ beN 4 1, fun i => iv ++ beN 4 (i + 2), ?_, ?_, z 1 (by omega) (by omega), ?_⟩
  · intro i j hi hj h
    have := inj _ _ (by omega) (by omega) (List.append_cancel_left h)
    omega
  · intro i hi
    refine ⟨fun h => ?_, z _ (by omega) (by omega)⟩
    have := inj _ _ (by omega) (by omega) (List.append_cancel_left h)
    omega
  · intro E hE kb A inp out tlen m hA hs
    exact C23_gcm_encrypt mul hm E hE kb iv A len inp out tlen m hiv hA hlen hs

/-- Non-vacuity for C23/C24: the hypotheses are met by a real parameter set (in-place operation, 100 bytes). -/
example : ∃ (E : List (BitVec 8) → List (BitVec 8)) (iv A : List (BitVec 8)) (len inp out : Nat),
    (∀ x, x.length = 16 → (E x).length = 16) ∧ iv.length = 12 ∧ A.length < 2 ^ 61 ∧ A ≠ [] ∧ len ≤ 2 ^ 36 - 32 ∧ len = 100 ∧ Streamable inp out len :=
  ⟨fun x => x.map (· ^^^ 0x5a#8), List.replicate 12 7#8, [1#8, 2#8], 100, 1000, 1000, by intro x h; simpa using h, by decide, by simp, by simp, by omega, rfl,
    Or.inl (le_refl _)⟩

end Props
