import Verif.Lemmas.Query
import Verif.Props.Concrete
import Verif.Model.Gcm
import Verif.Model.Chacha
import Verif.Model.Blake2
import Verif.Model.Blake3
import Verif.Model.K12
import Verif.Model.Gimli
import Verif.Props.Keccak

/-!
# Property C88: announced numbers agree with behaviour

`cXXX(q)` are the numbers that `iXXX(q)` returns; `cT` those of a parametrised object.
-/
namespace Props
open Query Spec.Announce
open Fips180

theorem keyOk_pos (v n : Nat) (h : 0 < v) : KeyOk v n ↔ n = v := by
  unfold KeyOk; rw [if_pos (by exact_mod_cast h)]; omega

theorem keyOk_neg (v n : Nat) (h : 4 < v) : KeyOk (-v) n ↔ n ≤ v := by
  unfold KeyOk; rw [if_neg (by omega), if_neg (by omega), if_pos (by omega)]; omega

/-! ## Block ciphers -/

/-- C88: AES. -/
theorem C88_aes : ∀ bits ∈ [128, 192, 256], Sized (cAES bits) 1 (fun key => Aes.keyExpansion key (bits / 32) (bits / 32 + 6))
    (fun x w => Aes.cipher x w (bits / 32 + 6)) (fun x w => Aes.invCipher x w (bits / 32 + 6)) := by
  intro bits h
  simp only [List.mem_cons, List.not_mem_nil, or_false] at h
  rcases h with rfl | rfl | rfl
  · exact aes_sized 4 10 (by decide) rfl (by decide) _ rfl rfl rfl
  · exact aes_sized 6 12 (by decide) rfl (by decide) _ rfl rfl rfl
  · exact aes_sized 8 14 (by decide) rfl (by decide) _ rfl rfl rfl

/-- C88: SM4 and SEED. -/
theorem C88_sm4 : Sized cSM4 4 Sm4.keySched Sm4.encrypt Sm4.decrypt := sm4_sized
theorem C88_seed : Sized cSEED 8 Seed.keySched Seed.encrypt Seed.decrypt := seed_sized

/-- C88: ARIA. -/
theorem C88_aria : Sized (cARIA 128) 1 Aria.keySched128 Aria.encrypt128 Aria.decrypt128 ∧
    Sized (cARIA 192) 1 Aria.keySched192 Aria.encrypt192 Aria.decrypt192 ∧ Sized (cARIA 256) 1 Aria.keySched256 Aria.encrypt256 Aria.decrypt256 := by
  refine ⟨aria_sized _ 5 _ rfl rfl (fun key => aria_kLen _ _ _ _ _ _ _ _ _ _) ?_, aria_sized _ 6 _ rfl rfl (fun key => aria_kLen _ _ _ _ _ _ _ _ _ _) ?_,
    aria_sized _ 7 _ rfl rfl (fun key => aria_kLen _ _ _ _ _ _ _ _ _ _) ?_⟩
  · intro key junk h
    have h : key.length = 16 := Int.ofNat.inj h
    exact aria_kOnly _ _ _ _ _ _ _ _ _ _ _ (by omega)
  · intro key junk h
    have h : key.length = 24 := Int.ofNat.inj h
    unfold Aria.keySched192
    rw [ld64_app _ _ _ (by omega), aria_kOnly _ _ _ _ _ _ _ _ _ _ _ (by omega)]
  · intro key junk h
    have h : key.length = 32 := Int.ofNat.inj h
    unfold Aria.keySched256
    rw [ld64_app _ _ _ (by omega), ld64_app _ _ _ (by omega), aria_kOnly _ _ _ _ _ _ _ _ _ _ _ (by omega)]

/-- C88: Camellia, its schedules as the words of `camellia128_kschd_t` and `camellia256_kschd_t`. -/
theorem C88_camellia :
    Sized (cCamellia 128) 8 (fun k => camWords 4 (Camellia.keySched128 k)) (fun x w => Camellia.encrypt128 x (camKey w)) (fun x w => Camellia.decrypt128 x (camKey w)) ∧
    Sized (cCamellia 192) 8 (fun k => camWords 8 (Camellia.keySched192 k)) (fun x w => Camellia.encrypt256 x (camKey w)) (fun x w => Camellia.decrypt256 x (camKey w)) ∧
    Sized (cCamellia 256) 8 (fun k => camWords 8 (Camellia.keySched256 k)) (fun x w => Camellia.encrypt256 x (camKey w)) (fun x w => Camellia.decrypt256 x (camKey w)) := by
  have ek : ∀ w j : List (BitVec 64), w.length = 8 → camKey (w ++ j) = camKey w := by
    intro w j h
    unfold camKey
    congr 1 <;> exact getD_app _ _ _ _ (by omega)
  have enc : ∀ (p : List Camellia.Op) (x j : List (BitVec 8)), x.length = 16 → Camellia.encBlock p (x ++ j) = Camellia.encBlock p x := by
    intro p x j h
    unfold Camellia.encBlock
    rw [ld64_app _ _ _ (by omega), ld64_app _ _ _ (by omega)]
  have dec : ∀ (p : List Camellia.Op) (x j : List (BitVec 8)), x.length = 16 → Camellia.decBlock p (x ++ j) = Camellia.decBlock p x := by
    intro p x j h
    unfold Camellia.decBlock
    rw [ld64_app _ _ _ (by omega), ld64_app _ _ _ (by omega)]
  refine ⟨⟨fun _ _ => rfl, ?_, fun _ _ => rfl, ?_, fun _ _ => rfl, ?_⟩, ⟨fun _ _ => rfl, ?_, fun _ _ => rfl, ?_, fun _ _ => rfl, ?_⟩,
    ⟨fun _ _ => rfl, ?_, fun _ _ => rfl, ?_, fun _ _ => rfl, ?_⟩⟩
  · intro key junk h
    have h : key.length = 16 := Int.ofNat.inj h
    simp only [Camellia.keySched128]
    rw [ld64_app _ _ _ (by omega), ld64_app _ _ _ (by omega)]
  · intro inp w j j' h h'
    have h : inp.length = 16 := Int.ofNat.inj h
    have h' : 8 * w.length = 32 := Int.ofNat.inj h'
    have e : Camellia.enc128 (camKey (w ++ j')) = Camellia.enc128 (camKey w) := by
      simp only [Camellia.enc128, camKey]
      rw [getD_app _ _ _ 0 (by omega), getD_app _ _ _ 1 (by omega), getD_app _ _ _ 2 (by omega), getD_app _ _ _ 3 (by omega)]
    simp only [Camellia.encrypt128]
    rw [e, enc _ _ _ h]
  · intro inp w j j' h h'
    have h : inp.length = 16 := Int.ofNat.inj h
    have h' : 8 * w.length = 32 := Int.ofNat.inj h'
    have e : Camellia.dec128 (camKey (w ++ j')) = Camellia.dec128 (camKey w) := by
      simp only [Camellia.dec128, camKey]
      rw [getD_app _ _ _ 0 (by omega), getD_app _ _ _ 1 (by omega), getD_app _ _ _ 2 (by omega), getD_app _ _ _ 3 (by omega)]
    simp only [Camellia.decrypt128]
    rw [e, dec _ _ _ h]
  · intro key junk h
    have h : key.length = 24 := Int.ofNat.inj h
    simp only [Camellia.keySched192]
    rw [ld64_app _ _ _ (by omega), ld64_app _ _ _ (by omega), ld64_app _ _ _ (by omega)]
  · intro inp w j j' h h'
    have h : inp.length = 16 := Int.ofNat.inj h
    have h' : 8 * w.length = 64 := Int.ofNat.inj h'
    simp only [Camellia.encrypt256]
    rw [ek _ _ (by omega), enc _ _ _ h]
  · intro inp w j j' h h'
    have h : inp.length = 16 := Int.ofNat.inj h
    have h' : 8 * w.length = 64 := Int.ofNat.inj h'
    simp only [Camellia.decrypt256]
    rw [ek _ _ (by omega), dec _ _ _ h]
  · intro key junk h
    have h : key.length = 32 := Int.ofNat.inj h
    simp only [Camellia.keySched256]
    rw [ld64_app _ _ _ (by omega), ld64_app _ _ _ (by omega), ld64_app _ _ _ (by omega), ld64_app _ _ _ (by omega)]
  · intro inp w j j' h h'
    have h : inp.length = 16 := Int.ofNat.inj h
    have h' : 8 * w.length = 64 := Int.ofNat.inj h'
    simp only [Camellia.encrypt256]
    rw [ek _ _ (by omega), enc _ _ _ h]
  · intro inp w j j' h h'
    have h : inp.length = 16 := Int.ofNat.inj h
    have h' : 8 * w.length = 64 := Int.ofNat.inj h'
    simp only [Camellia.decrypt256]
    rw [ek _ _ (by omega), dec _ _ _ h]

/-! ## Hash functions and HMAC -/

/-- C88: the words of a Camellia schedule read back as the schedule: nothing the cipher uses is lost or moved. -/
theorem C88_camellia_words (k : Camellia.Key) (x : List (BitVec 8)) : camKey (camWords 8 k) = k ∧
    Camellia.encrypt128 x (camKey (camWords 4 k)) = Camellia.encrypt128 x k ∧ Camellia.decrypt128 x (camKey (camWords 4 k)) = Camellia.decrypt128 x k :=
  ⟨rfl, rfl, rfl⟩

theorem hash_sized {σ : Type} (o : Obj) (O : Mac.HashOps σ) (H : List (BitVec 8) → List (BitVec 8)) (ok : σ → Prop) (L : Mac.HashLaw O H (2 ^ 61) ok)
    (hL : o .outBytes = O.L) (hB : o .blockBytes = O.B) (h1 : 4 < O.L) (h2 : O.L ≤ O.B) (h3 : O.B ≤ 256) (h4 : O.L ≤ 64) : HashSized o O H ok where
  len := fun m => by rw [hL, L.len]
  digest := fun s hs ms hm => by
    have := L.digest s hs ms hm [] (o .outBytes).toNat
    simp only [List.foldl_nil] at this
    rw [this, hL, Int.toNat_natCast, ← L.len ms.flatten, Mac.fitTo_self]
  block := hB.symm
  sizes := by
    unfold HMAC_INIT OUT_BYTES
    rw [hL, hB, if_pos (by exact_mod_cast h1)]
    simp [h3, h4, hmacT, u8s]
  keys := fun aux key => by
    show _ ↔ KeyOk (-o .blockBytes) _
    rw [hB, keyOk_neg _ _ (by omega)]
    unfold Mac.hmacStart Mac.hmacSetKey
    by_cases hc : key.length ≤ O.B
    · rw [if_pos hc]; exact ⟨fun _ => hc, fun _ => rfl⟩
    · rw [if_neg hc]; exact ⟨fun h => by simp at h, fun h => absurd h hc⟩
  prfKey := by
    show KeyOk (-o .blockBytes) (OUT_BYTES (cHMAC o)).toNat
    have e : OUT_BYTES (cHMAC o) = O.L := by
      unfold OUT_BYTES
      show (if o .outBytes > 4 then o .outBytes else _) = _
      rw [hL, if_pos (by exact_mod_cast h1)]
    rw [e, hB, Int.toNat_natCast, keyOk_neg _ _ (by omega)]
    exact h2

/-- C88: the Merkle-Damgård hash functions. -/
theorem C88_sha1 : HashSized cSHA1 (mdOps algSha1) Spec.Sha.sha1 (fun s => s.msg.length = 64) := by
  rw [← dig_sha1]
  exact hash_sized _ _ _ _ (md_law algSha1 (.inl rfl) (fun h => by simp [algSha1, length_out32])) rfl rfl (by decide) (by decide) (by decide) (by decide)
theorem C88_sha224 : HashSized cSHA224 (mdOps algSha224) Spec.Sha.sha224 (fun s => s.msg.length = 64) := by
  rw [← dig_sha224]
  exact hash_sized _ _ _ _ (md_law algSha224 (.inl rfl) (fun h => by simp [algSha224, length_out32])) rfl rfl (by decide) (by decide) (by decide) (by decide)
theorem C88_sha256 : HashSized cSHA256 (mdOps algSha256) Spec.Sha.sha256 (fun s => s.msg.length = 64) := by
  rw [← dig_sha256]
  exact hash_sized _ _ _ _ (md_law algSha256 (.inl rfl) (fun h => by simp [algSha256, length_out32])) rfl rfl (by decide) (by decide) (by decide) (by decide)
theorem C88_sha384 : HashSized cSHA384 (mdOps algSha384) Spec.Sha.sha384 (fun s => s.msg.length = 128) := by
  rw [← dig_sha384]
  exact hash_sized _ _ _ _ (md_law algSha384 (.inr rfl) (fun h => by simp [algSha384, length_out64])) rfl rfl (by decide) (by decide) (by decide) (by decide)
theorem C88_sha512 : HashSized cSHA512 (mdOps algSha512) Spec.Sha.sha512 (fun s => s.msg.length = 128) := by
  rw [← dig_sha512]
  exact hash_sized _ _ _ _ (md_law algSha512 (.inr rfl) (fun h => by simp [algSha512, length_out64])) rfl rfl (by decide) (by decide) (by decide) (by decide)
theorem C88_sm3 : HashSized cSM3 (mdOps algSm3) Spec.Sha.sm3 (fun s => s.msg.length = 64) := by
  rw [← dig_sm3]
  exact hash_sized _ _ _ _ (md_law algSm3 (.inl rfl) (fun h => by simp [algSm3, length_out32])) rfl rfl (by decide) (by decide) (by decide) (by decide)

theorem dig_sha512_224 : mdDigest algSha512t224 = Spec.Sha.sha512_224 := by
  funext m
  unfold mdDigest Spec.Sha.sha512_224
  have hl := mdHash_inv algSha512t224.comp algSha512t224.H0 (16 * algSha512t224.w) (2 * algSha512t224.w) m (fun s => s.length = 8) rfl (fun _ _ _ => rfl)
  rw [← h0_t224, ← sha512_comp]
  exact congrArg (List.take 28) (out64_8 _ hl)
theorem dig_sha512_256 : mdDigest algSha512t256 = Spec.Sha.sha512_256 := by
  funext m
  unfold mdDigest Spec.Sha.sha512_256
  have hl := mdHash_inv algSha512t256.comp algSha512t256.H0 (16 * algSha512t256.w) (2 * algSha512t256.w) m (fun s => s.length = 8) rfl (fun _ _ _ => rfl)
  rw [← h0_t256, ← sha512_comp]
  exact congrArg (List.take 32) (out64_8 _ hl)
theorem C88_sha512_224 : HashSized cSHA512t224 (mdOps algSha512t224) Spec.Sha.sha512_224 (fun s => s.msg.length = 128) := by
  rw [← dig_sha512_224]
  exact hash_sized _ _ _ _ (md_law algSha512t224 (.inr rfl) (fun h => by simp [algSha512t224, length_out64])) rfl rfl (by decide) (by decide) (by decide) (by decide)
theorem C88_sha512_256 : HashSized cSHA512t256 (mdOps algSha512t256) Spec.Sha.sha512_256 (fun s => s.msg.length = 128) := by
  rw [← dig_sha512_256]
  exact hash_sized _ _ _ _ (md_law algSha512t256 (.inr rfl) (fun h => by simp [algSha512t256, length_out64])) rfl rfl (by decide) (by decide) (by decide) (by decide)

/-- C88: SHA-3. -/
theorem C88_sha3 (d : Nat) (hd : d = 224 ∨ d = 256 ∨ d = 384 ∨ d = 512) :
    ∃ H, IsSha3 d H ∧ HashSized (cSHA3 d) (sha3Ops Keccak.f1600 ((1600 - 2 * d) / 8)) H (fun _ => True) := by
  rcases hd with rfl | rfl | rfl | rfl
  · exact ⟨_, sha3Digest_is 144 (by decide) (by decide) (by decide), hash_sized _ _ _ _ (sha3_law Keccak.f1600 144 (by decide) _) rfl rfl (by decide) (by decide) (by decide) (by decide)⟩
  · exact ⟨_, sha3Digest_is 136 (by decide) (by decide) (by decide), hash_sized _ _ _ _ (sha3_law Keccak.f1600 136 (by decide) _) rfl rfl (by decide) (by decide) (by decide) (by decide)⟩
  · exact ⟨_, sha3Digest_is 104 (by decide) (by decide) (by decide), hash_sized _ _ _ _ (sha3_law Keccak.f1600 104 (by decide) _) rfl rfl (by decide) (by decide) (by decide) (by decide)⟩
  · exact ⟨_, sha3Digest_is 72 (by decide) (by decide) (by decide), hash_sized _ _ _ _ (sha3_law Keccak.f1600 72 (by decide) _) rfl rfl (by decide) (by decide) (by decide) (by decide)⟩

/-- C88: SHAKE128 and SHAKE256 are the functions with the announced block size, and the announced recommended output length is twice the
security strength of FIPS 202. -/
theorem C88_shake (ms : List (List (BitVec 8))) (n : Nat) :
    Spec.Keccak.bits (Sponge.read Keccak.f1600 (Sponge.shakeFinal Keccak.f1600 (ms.foldl (Sponge.update Keccak.f1600)
      (Sponge.shakeInit (cSHAKE 128 .blockBytes).toNat))) n).1 = Spec.Keccak.shake128 (Spec.Keccak.bits ms.flatten) (8 * n) ∧
    Spec.Keccak.bits (Sponge.read Keccak.f1600 (Sponge.shakeFinal Keccak.f1600 (ms.foldl (Sponge.update Keccak.f1600)
      (Sponge.shakeInit (cSHAKE 256 .blockBytes).toNat))) n).1 = Spec.Keccak.shake256 (Spec.Keccak.bits ms.flatten) (8 * n) ∧
    OUT_BYTES (cSHAKE 128) * 8 = 2 * 128 ∧ OUT_BYTES (cSHAKE 256) * 8 = 2 * 256 :=
  ⟨C69_shake128 ms n, C69_shake256 ms n, by decide, by decide⟩

/-- C88: the arrays of the hash contexts have the sizes of the state that the functions keep in them: the chaining value and the block of the
Merkle-Damgård functions, the state and the saved state of the sponges, block and chaining value of BLAKE2, key, stack and nodes of BLAKE3, the
nodes of KangarooTwelve. -/
theorem C88_states :
    (sha1T.map Field.size = [4, 4, 8, 4 * algSha1.H0.length, 4, 16 * algSha1.w] ∧ cSHA1 .blockBytes = 16 * algSha1.w) ∧
    (sha256T.map Field.size = [4, 4, 8, 4 * algSha256.H0.length, 16 * algSha256.w] ∧ algSha224.H0.length = algSha256.H0.length ∧
      algSm3.H0.length = algSha256.H0.length ∧ algSha224.w = algSha256.w ∧ algSm3.w = algSha256.w) ∧
    (sha512T.map Field.size = [4, 4, 8, 8 * algSha512.H0.length, 16 * algSha512.w] ∧ algSha384.H0.length = algSha512.H0.length ∧
      algSha512t224.H0.length = algSha512.H0.length ∧ algSha512t256.H0.length = algSha512.H0.length ∧
      algSha384.w = algSha512.w ∧ algSha512t224.w = algSha512.w ∧ algSha512t256.w = algSha512.w) ∧
    (∀ r, sha3T.map Field.size = [cSizeOf spongeT, (Sponge.shakeInit r).state.length, (Sponge.shakeInit r).saved.length] ∧
      sha3T.map Field.size = [cSizeOf spongeT, (Sponge.sha3Init r).state.length, (Sponge.sha3Init r).saved.length]) ∧
    gimliT.map Field.size = [cSizeOf spongeT, Gimli.xofInit.state.length, Gimli.xofInit.saved.length] ∧ cGimli_XOF .blockBytes = Gimli.xofInit.rate ∧
    (∀ n x, Blake2.init Blake2.prmB n [] = some x → (blake2bT.map Field.size).take 2 = [x.b.length, 8 * x.h.length] ∧ cBLAKE2b (8 * n) .blockBytes = x.b.length ∧
      cBLAKE2b (8 * n) .outBytes = x.outlen) ∧
    (∀ n x, Blake2.init Blake2.prmS n [] = some x → (blake2sT.map Field.size).take 2 = [x.b.length, 4 * x.h.length] ∧ cBLAKE2s (8 * n) .blockBytes = x.b.length ∧
      cBLAKE2s (8 * n) .outBytes = x.outlen) ∧
    (∀ junk, (blake3T.map Field.size).head? = some (4 * (Blake3.init junk).k.length)) ∧
    (blake3T.map Field.size).drop 6 = [2 * Blake3.NODES, Blake3.NODES * cSizeOf blake3NodeT] ∧
    (blake3NodeT.map Field.size).getLast? = some (cBLAKE3 .chunkBytes).toNat ∧
    (k12T.map Field.size).head? = some (K12.NODES * cSizeOf k12NodeT) ∧ (k12NodeT.map Field.size).getLast? = some K12.Node.empty.buf.length ∧
    cKT128 .chunkBytes = K12.Node.empty.buf.length ∧ cKT256 .chunkBytes = K12.Node.empty.buf.length ∧
    [cKMAC 128, cKT128].map (· .blockBytes) = [cSHAKE 128 .blockBytes, cSHAKE 128 .blockBytes] ∧
    [cKMAC 256, cKT256].map (· .blockBytes) = [cSHAKE 256 .blockBytes, cSHAKE 256 .blockBytes] := by
  have hz : K12.Node.empty.buf.length = 8192 := by show K12.zeroBuf.length = _; rw [K12.zeroBuf]; exact List.length_replicate
  refine ⟨by decide, by decide, by decide, fun r => ?_, by decide, by decide, ?_, ?_, ?_, by decide, by decide, by decide, ?_, ?_, ?_, by decide, by decide⟩
  · show _ = [_, (List.replicate 200 (0 : BitVec 8)).length, (List.replicate 200 (0 : BitVec 8)).length] ∧
      _ = [_, (List.replicate 200 (0 : BitVec 8)).length, (List.replicate 200 (0 : BitVec 8)).length]
    rw [List.length_replicate]; decide
  · intro n x h
    unfold Blake2.init at h
    split at h
    · simp at h
    · simp only [List.length_nil, gt_iff_lt, Nat.lt_irrefl, if_false, Option.some.injEq] at h
      subst h
      refine ⟨by simp [blake2bT, u8s, u64s, Blake2.bsize, Blake2.prmB], by simp [cBLAKE2b, Blake2.bsize], ?_⟩
      show ((8 * n : Nat) : Int) / 8 = n
      omega
  · intro n x h
    unfold Blake2.init at h
    split at h
    · simp at h
    · simp only [List.length_nil, gt_iff_lt, Nat.lt_irrefl, if_false, Option.some.injEq] at h
      subst h
      refine ⟨by simp [blake2sT, u8s, u32s, Blake2.bsize, Blake2.prmS], by simp [cBLAKE2s, Blake2.bsize], ?_⟩
      show ((8 * n : Nat) : Int) / 8 = n
      omega
  · intro junk
    have : (Blake3.init junk).k.length = 8 := by simp [Blake3.init]
    rw [this]; decide
  · rw [hz]; decide
  · rw [hz]; decide
  · rw [hz]; decide

/-! ## Keys, nonces -/

/-- The block ciphers of the suite. -/
def suiteCiphers : List Obj := [cAES 128, cAES 192, cAES 256, cSM4, cSEED, cARIA 128, cARIA 192, cARIA 256, cCamellia 128, cCamellia 192, cCamellia 256]

/-- C88: CMAC, GCM and CCM over each block cipher of the suite, by name or parametrised, accept the keys they announce, no others; so does the
ChaCha20-Poly1305 AEAD. -/
theorem C88_cipher_mode_keys : ∀ bc ∈ suiteCiphers, ∀ klen : Nat,
    (∀ E, (Mac.cmacStart E (bc .keyBytes).toNat klen).isSome = true ↔ KeyOk (cT (.tCMAC (.info bc)) .keyBytes) klen) ∧
    (∀ E, (Gcm.init (bc .keyBytes).toNat klen E).isSome = true ↔ KeyOk (cT (.tGCM (.info bc)) .keyBytes) klen) ∧
    (ccmInit (bc .keyBytes).toNat klen = true ↔ KeyOk (cT (.tCCM (.info bc)) .keyBytes) klen) := by
  have gen : ∀ k : Nat, 0 < k → k < 64 → ∀ klen : Nat,
      (∀ E, (Mac.cmacStart E k klen).isSome = true ↔ KeyOk k klen) ∧ (∀ E, (Gcm.init k klen E).isSome = true ↔ KeyOk k klen) ∧
      (ccmInit k klen = true ↔ KeyOk k klen) := by
    intro k h0 h1 klen
    have e : KeyOk k klen ↔ klen = k := by unfold KeyOk; rw [if_pos (by exact_mod_cast h0)]; exact_mod_cast Iff.rfl
    have ef : ((Mac.cmacInit k).flags &&& 0x3f#8).toNat = k := by
      show (BitVec.ofNat 8 k &&& 0x3f#8 &&& 0x3f#8).toNat = k
      have : ∀ k : Fin 64, (BitVec.ofNat 8 k.val &&& 0x3f#8 &&& 0x3f#8).toNat = k.val := by decide +kernel
      exact this ⟨k, h1⟩
    refine ⟨fun E => ?_, fun E => ?_, ?_⟩
    · rw [e]; unfold Mac.cmacStart Mac.cmacSetKey
      rw [ef]; split <;> simp_all
    · rw [e]; unfold Gcm.init; split <;> simp_all
    · rw [e]; unfold ccmInit; split <;> simp_all
  intro bc hb klen
  simp only [suiteCiphers, List.mem_cons, List.not_mem_nil, or_false] at hb
  rcases hb with rfl | rfl | rfl | rfl | rfl | rfl | rfl | rfl | rfl | rfl | rfl <;> exact gen _ (by decide) (by decide) klen

theorem C88_chacha_keys (x : Chacha.Ctx) (K : List (BitVec 8)) : (Chacha.init x K).isSome = true ↔ KeyOk (cChaCha_AEAD .keyBytes) K.length := by
  show _ ↔ KeyOk ((32 : Nat) : Int) _
  rw [keyOk_pos _ _ (by decide)]
  unfold Chacha.init
  split <;> simp_all

/-- C88: keyed BLAKE2, of every output size up to the largest. -/
theorem C88_blake2_keys (bits : Nat) (hb : 8 ≤ bits) (key : List (BitVec 8)) :
    (bits ≤ 512 → ((Blake2.init Blake2.prmB (ckBLAKE2b bits .outBytes).toNat key).isSome = true ↔ KeyOk (ckBLAKE2b bits .keyBytes) key.length)) ∧
    (bits ≤ 256 → ((Blake2.init Blake2.prmS (ckBLAKE2s bits .outBytes).toNat key).isSome = true ↔ KeyOk (ckBLAKE2s bits .keyBytes) key.length)) := by
  refine ⟨fun h => ?_, fun h => ?_⟩
  · have e : (ckBLAKE2b bits .outBytes).toNat = bits / 8 := by show ((bits : Int) / 8).toNat = _; omega
    rw [e]
    show _ ↔ KeyOk (-((64 : Nat) : Int)) _
    rw [keyOk_neg _ _ (by decide)]
    unfold Blake2.init
    have e1 : Blake2.prmB.maxOut = 64 := rfl
    have e2 : Blake2.prmB.maxKey = 64 := rfl
    rw [e1, e2]
    by_cases c : key.length > 64
    · rw [if_pos (by omega)]; simp; omega
    · rw [if_neg (by omega)]
      simp only []
      split <;> simp <;> omega
  · have e : (ckBLAKE2s bits .outBytes).toNat = bits / 8 := by show ((bits : Int) / 8).toNat = _; omega
    rw [e]
    show _ ↔ KeyOk (-((32 : Nat) : Int)) _
    rw [keyOk_neg _ _ (by decide)]
    unfold Blake2.init
    have e1 : Blake2.prmS.maxOut = 32 := rfl
    have e2 : Blake2.prmS.maxKey = 32 := rfl
    rw [e1, e2]
    by_cases c : key.length > 32
    · rw [if_pos (by omega)]; simp; omega
    · rw [if_neg (by omega)]
      simp only []
      split <;> simp <;> omega

/-- C88 does not hold of KMAC and of keyed BLAKE3: KMAC128 and KMAC256 announce at most 32 and 64 octets of key and accept any number; BLAKE3, which has a
keyed initialisation that accepts 32 octets, announces no key length. -/
theorem C88_kmac_keys_not (perm : List (BitVec 8) → List (BitVec 8)) : cKMAC 128 .keyBytes = -32 ∧ cKMAC 256 .keyBytes = -64 ∧
    (∀ bits, 8 ≤ bits → ∀ k s : List (BitVec 8), (Sponge.kmacInit perm k s (cKMAC bits .blockBytes).toNat).isSome = true) ∧
    (∃ k : List (BitVec 8), (Sponge.kmacInit perm k [] (cKMAC 128 .blockBytes).toNat).isSome = true ∧ ¬ KeyOk (cKMAC 128 .keyBytes) k.length) := by
  have all : ∀ r, r < 200 → ∀ k s : List (BitVec 8), (Sponge.kmacInit perm k s r).isSome = true := by
    intro r hr k s
    unfold Sponge.kmacInit
    rw [if_neg (by omega)]
    rfl
  refine ⟨rfl, rfl, fun bits hb k s => ?_, List.replicate 33 0, all 168 (by decide) _ _, by simp; decide⟩
  refine all _ ?_ k s
  show ((200 : Int) - ((bits : Int) / 8) * 2).toNat < 200
  omega
theorem C88_blake3_keys_not (junk : List Blake3.Node) : cBLAKE3 .keyBytes = 0 ∧ ∀ key : List (BitVec 8), (Blake3.kinit junk key).isSome = true ↔ key.length = 32 := by
  refine ⟨rfl, fun key => ?_⟩
  unfold Blake3.kinit
  split <;> simp_all

/-- C88: nonces.  Within the limits on the other inputs, GCM and ChaCha20-Poly1305 encrypt exactly when the nonce has the announced length; CCM announces the
largest length only, and also needs 7 octets. -/
theorem C88_nonces (iv aad : List (BitVec 8)) (len inp out tlen : Nat) (mem : Spec.Mem) :
    (∀ bc g, aad.length < 2 ^ 61 → len < 2 ^ 36 - 31 → ((Gcm.encrypt g iv aad len inp out tlen mem).isSome = true ↔ KeyOk (cGCM bc .ivBytes) iv.length)) ∧
    (∀ x, len < 2 ^ 38 → ((Chacha.encrypt x iv aad len inp out tlen mem).isSome = true ↔ KeyOk (cChaCha_AEAD .ivBytes) iv.length)) ∧
    (∀ bc E fuel, 4 ≤ tlen → tlen ≤ 16 → tlen % 2 = 0 → len < 2 ^ 16 →
      (Ccm.encrypt E iv aad len inp out tlen mem fuel ≠ .refused ↔ 7 ≤ iv.length ∧ KeyOk (cCCM bc .ivBytes) iv.length)) := by
  refine ⟨fun bc g ha hl => ?_, fun x hl => ?_, fun bc E fuel h1 h2 h3 hl => ?_⟩
  · have e : KeyOk (cGCM bc .ivBytes) iv.length ↔ iv.length = 12 := by
      exact keyOk_pos 12 _ (by decide)
    rw [e]
    unfold Gcm.encrypt
    by_cases c : iv.length = 12
    · rw [if_neg (by omega)]; simp [c]
    · rw [if_pos (by omega)]; simp [c]
  · have e : KeyOk (cChaCha_AEAD .ivBytes) iv.length ↔ iv.length = 12 := by
      exact keyOk_pos 12 _ (by decide)
    rw [e]
    unfold Chacha.encrypt
    by_cases c : iv.length = 12
    · rw [if_neg (by omega)]; simp [c]
    · rw [if_pos (by omega)]; simp [c]
  · have e : KeyOk (cCCM bc .ivBytes) iv.length ↔ iv.length ≤ 13 := by
      exact keyOk_neg 13 _ (by decide)
    rw [e]
    unfold Ccm.encrypt
    have hb : Ccm.bad iv.length len tlen ↔ ¬ (7 ≤ iv.length ∧ iv.length ≤ 13) := by
      unfold Ccm.bad
      constructor
      · rintro (h | h | ⟨_, h⟩) hc
        · omega
        · omega
        · have : 2 ^ 16 ≤ 2 ^ ((15 - iv.length) * 8) := Nat.pow_le_pow_right (by decide) (by omega)
          omega
      · intro h; left; omega
    split
    · rename_i h
      rw [hb] at h
      simp [h]
    · rename_i h
      rw [hb, not_not] at h
      split <;> simp [h]

/-! ## Where the parts of the contexts are -/

/-- C88: the part that a construction finds through an offset is the member that the compiler puts there, for each context structure of the suite. -/
theorem C88_members :
    (∀ t ∈ [sha1T, sha256T, sha512T, sha3T, blake2bT, blake2sT], offsets [inner 1 hmacT, inner 1 t] = [0, (HMAC_INIT cSHA256).offset] ∧
      cSizeOf [inner 1 hmacT, inner 1 t] = cSizeOf hmacT + cSizeOf t ∧ alignOf t ∣ (HMAC_INIT cSHA256).offset) ∧
    (∀ t ∈ [cmacT, gcmT, ccmT], ∀ n, offsets [inner 1 t, u8s n] = [0, cSizeOf t] ∧ (8 ∣ n → cSizeOf [inner 1 t, u8s n] = cSizeOf t + n)) ∧
    (∀ bc ∈ suiteCiphers, 8 ∣ bc .keyschedBytes) ∧
    (offsets sha3T = [0, cSizeOf spongeT + 200 * 0, cSizeOf spongeT + 200 * 1] ∧ offsets gimliT = [0, cSizeOf spongeT + 48 * 0, cSizeOf spongeT + 48 * 1]) := by
  refine ⟨by decide, ?_, by decide, by decide⟩
  intro t ht n
  have e1 : ∀ m, alignUp m 1 = m := fun m => by unfold alignUp; omega
  have e8 : ∀ m, 8 ∣ m → alignUp m 8 = m := fun m h => by unfold alignUp; omega
  simp only [List.mem_cons, List.not_mem_nil, or_false] at ht
  have g : ∀ s, 8 ∣ s → cSizeOf t = s → alignOf t = 8 →
      offsets [inner 1 t, u8s n] = [0, cSizeOf t] ∧ (8 ∣ n → cSizeOf [inner 1 t, u8s n] = cSizeOf t + n) := by
    intro s hs h1 h2
    have a : alignOf [inner 1 t, u8s n] = 8 := by unfold alignOf inner u8s; simp [h2]
    have p : place 0 [inner 1 t, u8s n] = ([0, s], s + n) := by
      simp only [place, inner, u8s, h1, h2, e1, e8 0 (by decide)]
      simp
    refine ⟨?_, fun hn => ?_⟩
    · unfold offsets; rw [p, h1]
    · unfold cSizeOf at h1 ⊢
      rw [p, a, e8 _ (by exact Nat.dvd_add hs hn)]
      exact congrArg (· + n) h1.symm
  rcases ht with rfl | rfl | rfl
  · exact g 80 (by decide) (by decide) (by decide)
  · exact g 32 (by decide) (by decide) (by decide)
  · exact g 16 (by decide) (by decide) (by decide)

/-- C88: the announced size of a context is the sizes of its parts, which are apart and aligned: the header and the hash context of HMAC, the header and the
schedule of CMAC, GCM and CCM. -/
theorem C88_contexts (h bc : Obj) (c k : Nat) (hc : h .contextBytes = c) (hk : bc .keyschedBytes = k) :
    Fills [⟨0, cSizeOf hmacT, 8⟩, ⟨(HMAC_INIT h).offset, c, 8⟩] (cHMAC h .contextBytes).toNat ∧
    Fills [⟨0, cSizeOf cmacT, 8⟩, ⟨cSizeOf cmacT, k, 8⟩] (cCMAC bc .contextBytes).toNat ∧
    Fills [⟨0, cSizeOf gcmT, 8⟩, ⟨cSizeOf gcmT, k, 8⟩] (cGCM bc .contextBytes).toNat ∧
    Fills [⟨0, cSizeOf ccmT, 8⟩, ⟨cSizeOf ccmT, k, 8⟩] (cCCM bc .contextBytes).toNat := by
  have e1 : (cHMAC h .contextBytes).toNat = cSizeOf hmacT + c := by show ((cSizeOf hmacT : Int) + h .contextBytes).toNat = _; rw [hc]; omega
  have e2 : (cCMAC bc .contextBytes).toNat = cSizeOf cmacT + k := by show ((cSizeOf cmacT : Int) + bc .keyschedBytes).toNat = _; rw [hk]; omega
  have e3 : (cGCM bc .contextBytes).toNat = cSizeOf gcmT + k := by show ((cSizeOf gcmT : Int) + bc .keyschedBytes).toNat = _; rw [hk]; omega
  have e4 : (cCCM bc .contextBytes).toNat = cSizeOf ccmT + k := by show ((cSizeOf ccmT : Int) + bc .keyschedBytes).toNat = _; rw [hk]; omega
  have g : ∀ s n : Nat, s % 8 = 0 → Fills [⟨0, s, 8⟩, ⟨s, n, 8⟩] (s + n) := by
    intro s n h8
    refine ⟨by simp, ?_, by simp⟩
    intro x hx
    simp only [List.mem_cons, List.not_mem_nil, or_false] at hx
    rcases hx with rfl | rfl <;> simp [h8]
  rw [e1, e2, e3, e4]
  exact ⟨g _ _ (by decide), g _ _ (by decide), g _ _ (by decide), g _ _ (by decide)⟩

/-- C88: a parametrised object answers as the one by name does. -/
theorem C88_parametrised (p : Param) (q : Q) : cT (.tHMAC p) q = cHMAC (cT p) q ∧ cT (.tCMAC p) q = cCMAC (cT p) q ∧ cT (.tGCM p) q = cGCM (cT p) q ∧
    cT (.tCCM p) q = cCCM (cT p) q ∧ cT (.tHMAC_DRBG p) q = cHMAC_DRBG (cT p) q ∧ cT (.tCTR_DRBG p) q = cCTR_DRBG (cT p) q :=
  ⟨rfl, rfl, rfl, rfl, rfl, rfl⟩

/-- C88: the parts of the random generators: `K`, `V` and the PRF context of HMAC_DRBG; the schedule, `K` and, right after it, `V` of CTR_DRBG. -/
theorem C88_drbg_contexts (prf bc : Obj) (n c b k s : Nat) (hn : OUT_BYTES prf = n) (h4 : 4 ∣ n) (hc : prf .contextBytes = c)
    (hb : bc .blockBytes = b) (hk : bc .keyBytes = k) (hs : bc .keyschedBytes = s) :
    Fills [⟨0, cSizeOf hmacDrbgT, 8⟩, ⟨(HMAC_DRBG_INIT prf).offset_k, n, 1⟩, ⟨(HMAC_DRBG_INIT prf).offset_v, n, 1⟩,
      ⟨(HMAC_DRBG_INIT prf).prf_ctx_offset, c, 8⟩] (cHMAC_DRBG prf .contextBytes).toNat ∧ (HMAC_DRBG_INIT prf).prf_outlen = n ∧
    Fills [⟨0, cSizeOf ctrDrbgT, 8⟩, ⟨(CTR_DRBG_INIT bc).kschd_offset, (CTR_DRBG_INIT bc).bc_kschdsize, 8⟩,
      ⟨(CTR_DRBG_INIT bc).offset_k, (CTR_DRBG_INIT bc).bc_keysize, 1⟩, ⟨(CTR_DRBG_INIT bc).offset_v, (CTR_DRBG_INIT bc).bc_blksize, 1⟩] (cCTR_DRBG bc .contextBytes).toNat ∧
    (CTR_DRBG_INIT bc).offset_v = (CTR_DRBG_INIT bc).offset_k + (CTR_DRBG_INIT bc).bc_keysize := by
  have e1 : (cHMAC_DRBG prf .contextBytes).toNat = 48 + n * 2 + c := by
    show ((cSizeOf hmacDrbgT : Int) + OUT_BYTES prf * 2 + prf .contextBytes).toNat = _
    rw [hc, hn, show cSizeOf hmacDrbgT = 48 by decide]; omega
  have e2 : (cCTR_DRBG bc .contextBytes).toNat = 64 + b + k + s := by
    show ((cSizeOf ctrDrbgT : Int) + bc .blockBytes + bc .keyBytes + bc .keyschedBytes).toNat = _
    rw [hb, hk, hs, show cSizeOf ctrDrbgT = 64 by decide]; omega
  have e3 : HMAC_DRBG_INIT prf = ⟨48, 48 + n, n, 48 + n * 2⟩ := by
    unfold HMAC_DRBG_INIT; rw [hn, show cSizeOf hmacDrbgT = 48 by decide]; simp
  have e4 : CTR_DRBG_INIT bc = ⟨b, k, 64 + s, 64 + (s + k), s, 64⟩ := by
    unfold CTR_DRBG_INIT; rw [hb, hk, hs, show cSizeOf ctrDrbgT = 64 by decide]; simp
  rw [e1, e2, e3, e4, show cSizeOf hmacDrbgT = 48 by decide, show cSizeOf ctrDrbgT = 64 by decide]
  refine ⟨⟨by simp; omega, ?_, by simp; omega⟩, rfl, ⟨by simp; omega, ?_, by simp; omega⟩, by show 64 + (s + k) = 64 + s + k; omega⟩
  · intro x hx
    simp only [List.mem_cons, List.not_mem_nil, or_false] at hx
    rcases hx with rfl | rfl | rfl | rfl <;> constructor <;> simp <;> omega
  · intro x hx
    simp only [List.mem_cons, List.not_mem_nil, or_false] at hx
    rcases hx with rfl | rfl | rfl | rfl <;> constructor <;> simp <;> omega

/-- C88: every block cipher of the suite is one that CTR_DRBG accepts, and the sizes that `C88_drbg_contexts` needs are what the hash functions have. -/
theorem C88_drbg_objects : (∀ bc ∈ suiteCiphers, ctrInstOk (CTR_DRBG_INIT bc) = true) ∧
    (∀ h ∈ [cSHA1, cSHA224, cSHA256, cSHA384, cSHA512, cSHA512t224, cSHA512t256, cSM3, cSHA3 224, cSHA3 256, cSHA3 384, cSHA3 512],
      4 ∣ OUT_BYTES (cT (.tHMAC (.info h))) ∧ 0 < OUT_BYTES (cHMAC h) ∧ 0 ≤ cHMAC h .contextBytes) := by
  refine ⟨by decide +kernel, by decide +kernel⟩

/-- Non-vacuity for C88: a context that the keyed mode makes, and the numbers for AES-256-GCM and HMAC_DRBG over HMAC-SHA256. -/
example : cGCM (cAES 256) .contextBytes = 272 ∧ cGCM (cAES 256) .keyBytes = 32 ∧ KeyOk (cGCM (cAES 256) .keyBytes) 32 ∧ ¬ KeyOk (cGCM (cAES 256) .keyBytes) 16 ∧
    cHMAC cSHA256 .contextBytes = 480 ∧ cHMAC_DRBG (cHMAC cSHA256) .contextBytes = 592 ∧ KeyOk (cHMAC cSHA256 .keyBytes) 64 ∧ ¬ KeyOk (cHMAC cSHA256 .keyBytes) 65 ∧
    cSizeOf blake3T = 68296 ∧ cSizeOf k12T = 525064 := by
  decide +kernel

end Props
