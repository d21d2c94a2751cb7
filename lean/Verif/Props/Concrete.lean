import Verif.Props.Mac
import Verif.Props.Sha
import Verif.Props.Keccak

/-!
# Property C81: HMAC, HMAC_DRBG over the actual hash functions

The theorems of C19 and C30 are over any lawful hash; here the hash is the one the library passes (`hmac-sha.c`, `hmac-sha3.c`,
`hmac-drbg-sha.c`), and the right-hand side mentions only the standards' functions of `Verif.Spec.Sha` and `Verif.Spec.Keccak`.
-/

namespace Props
open MD Fips180 Mac
open Spec (fitTo hmac)

theorem dig_sha1 : mdDigest algSha1 = Spec.Sha.sha1 := by
  funext m
  unfold mdDigest Spec.Sha.sha1
  have hc : sha1 = Spec.Sha.comp1 := by funext H b; exact sha1_comp H b
  have hl := mdHash_inv algSha1.comp algSha1.H0 (16 * algSha1.w) (2 * algSha1.w) m (fun s => s.length = 5) rfl (fun _ _ _ => rfl)
  rw [List.take_of_length_le (by simp [algSha1, length_out32])]
  rw [← hc]
  exact out32_5 _ hl

theorem dig_sha224 : mdDigest algSha224 = Spec.Sha.sha224 := by
  funext m
  unfold mdDigest Spec.Sha.sha224
  have hl := mdHash_inv algSha224.comp algSha224.H0 (16 * algSha224.w) (2 * algSha224.w) m (fun s => s.length = 8) rfl (fun _ _ _ => rfl)
  rw [← h0_224, ← sha256_comp]
  exact congrArg (List.take 28) (out32_8 _ hl)

theorem dig_sha256 : mdDigest algSha256 = Spec.Sha.sha256 := by
  funext m
  unfold mdDigest Spec.Sha.sha256
  have hl := mdHash_inv algSha256.comp algSha256.H0 (16 * algSha256.w) (2 * algSha256.w) m (fun s => s.length = 8) rfl (fun _ _ _ => rfl)
  rw [← h0_256, ← sha256_comp, List.take_of_length_le (by simp [algSha256, length_out32])]
  exact out32_8 _ hl

theorem dig_sha384 : mdDigest algSha384 = Spec.Sha.sha384 := by
  funext m
  unfold mdDigest Spec.Sha.sha384
  have hl := mdHash_inv algSha384.comp algSha384.H0 (16 * algSha384.w) (2 * algSha384.w) m (fun s => s.length = 8) rfl (fun _ _ _ => rfl)
  rw [← h0_384, ← sha512_comp]
  exact congrArg (List.take 48) (out64_8 _ hl)

theorem dig_sha512 : mdDigest algSha512 = Spec.Sha.sha512 := by
  funext m
  unfold mdDigest Spec.Sha.sha512
  have hl := mdHash_inv algSha512.comp algSha512.H0 (16 * algSha512.w) (2 * algSha512.w) m (fun s => s.length = 8) rfl (fun _ _ _ => rfl)
  rw [← h0_512, ← sha512_comp, List.take_of_length_le (by simp [algSha512, length_out64])]
  exact out64_8 _ hl

theorem dig_sm3 : mdDigest algSm3 = Spec.Sha.sm3 := by
  funext m
  unfold mdDigest Spec.Sha.sm3
  have hc : sm3 = Spec.Sha.comp3 := by funext H b; exact sm3_comp H b
  have hl := mdHash_inv algSm3.comp algSm3.H0 (16 * algSm3.w) (2 * algSm3.w) m (fun s => s.length = 8) rfl (fun _ _ _ => rfl)
  rw [← hc, List.take_of_length_le (by simp [algSm3, length_out32])]
  exact out32_8 _ hl

/-- What a user of `HMAC_*_Init`, any number of `HMAC_Update`, any number of earlier `HMAC_Final` and one more `HMAC_Final` sees: the
key is accepted and the octets written are `tag`. -/
def HmacGives {σ : Type} (O : HashOps σ) (mem : σ) (key : List (BitVec 8)) (ms : List (List (BitVec 8))) (ts : List Nat) (t : Nat) (tag : List (BitVec 8)) : Prop :=
  ∃ h, hmacStart O mem key = some h ∧
    (hmacFinal O (ts.foldl (fun s u => (hmacFinal O s u).2) (ms.foldl (hmacUpdate O) h)) t).1 = tag

section
variable (key : List (BitVec 8)) (ms : List (List (BitVec 8))) (hlen : ms.flatten.length < 2 ^ 60) (ts : List Nat) (t : Nat)
include hlen

/-- C81: `HMAC_SHA1` .. `HMAC_SHA512`, and HMAC over SM3 (through `tHMAC`): FIPS 198-1 with the FIPS 180-4 (GB/T 32905) function, for
every key of at most one block, every splitting of the message, whatever the memory held. -/
theorem C81_hmac_sha1 (mem : MD.Ctx (List (BitVec 32))) (hmem : mem.msg.length = 64) (hk : key.length ≤ 64) :
    HmacGives (mdOps algSha1) mem key ms ts t (fitTo (hmac Spec.Sha.sha1 64 key ms.flatten) t) := by
  rw [← dig_sha1]
  exact C19_hmac_sha algSha1 (.inl rfl) (fun h => by simp [algSha1, length_out32]) (by decide) mem hmem key hk ms hlen ts t
theorem C81_hmac_sha224 (mem : MD.Ctx (List (BitVec 32))) (hmem : mem.msg.length = 64) (hk : key.length ≤ 64) :
    HmacGives (mdOps algSha224) mem key ms ts t (fitTo (hmac Spec.Sha.sha224 64 key ms.flatten) t) := by
  rw [← dig_sha224]
  exact C19_hmac_sha algSha224 (.inl rfl) (fun h => by simp [algSha224, length_out32]) (by decide) mem hmem key hk ms hlen ts t
theorem C81_hmac_sha256 (mem : MD.Ctx (List (BitVec 32))) (hmem : mem.msg.length = 64) (hk : key.length ≤ 64) :
    HmacGives (mdOps algSha256) mem key ms ts t (fitTo (hmac Spec.Sha.sha256 64 key ms.flatten) t) := by
  rw [← dig_sha256]
  exact C19_hmac_sha algSha256 (.inl rfl) (fun h => by simp [algSha256, length_out32]) (by decide) mem hmem key hk ms hlen ts t
theorem C81_hmac_sha384 (mem : MD.Ctx (List (BitVec 64))) (hmem : mem.msg.length = 128) (hk : key.length ≤ 128) :
    HmacGives (mdOps algSha384) mem key ms ts t (fitTo (hmac Spec.Sha.sha384 128 key ms.flatten) t) := by
  rw [← dig_sha384]
  exact C19_hmac_sha algSha384 (.inr rfl) (fun h => by simp [algSha384, length_out64]) (by decide) mem hmem key hk ms hlen ts t
theorem C81_hmac_sha512 (mem : MD.Ctx (List (BitVec 64))) (hmem : mem.msg.length = 128) (hk : key.length ≤ 128) :
    HmacGives (mdOps algSha512) mem key ms ts t (fitTo (hmac Spec.Sha.sha512 128 key ms.flatten) t) := by
  rw [← dig_sha512]
  exact C19_hmac_sha algSha512 (.inr rfl) (fun h => by simp [algSha512, length_out64]) (by decide) mem hmem key hk ms hlen ts t
theorem C81_hmac_sm3 (mem : MD.Ctx (List (BitVec 32))) (hmem : mem.msg.length = 64) (hk : key.length ≤ 64) :
    HmacGives (mdOps algSm3) mem key ms ts t (fitTo (hmac Spec.Sha.sm3 64 key ms.flatten) t) := by
  rw [← dig_sm3]
  exact C19_hmac_sha algSm3 (.inl rfl) (fun h => by simp [algSm3, length_out32]) (by decide) mem hmem key hk ms hlen ts t
end

/-- A function on octet strings that is a FIPS 202 function on bit strings: the digest of `d` bits. -/
def IsSha3 (d : Nat) (H : List (BitVec 8) → List (BitVec 8)) : Prop := ∀ m, Spec.Keccak.bits (H m) = Spec.Keccak.sha3 d (Spec.Keccak.bits m)

theorem sha3Digest_is (rate : Nat) (hr : 0 < rate) (hr2 : rate ≤ 200) (hc : 1600 - 2 * (8 * ((200 - rate) / 2)) = 8 * rate) :
    IsSha3 (8 * ((200 - rate) / 2)) (sha3Digest Keccak.f1600 rate) := by
  intro m
  unfold sha3Digest
  rw [Keccak.bits_stream Keccak.f1600_perm rate hr hr2 0x06 _ Keccak.dom_06, ← hc]
  rfl

/-- C81: HMAC over SHA3-224, -256, -384, -512. -/
theorem C81_hmac_sha3 (d : Nat) (hd : d = 224 ∨ d = 256 ∨ d = 384 ∨ d = 512) (mem : Sponge.Ctx) (key : List (BitVec 8))
    (hk : key.length ≤ (1600 - 2 * d) / 8) (ms : List (List (BitVec 8))) (ts : List Nat) (t : Nat) :
    ∃ H, IsSha3 d H ∧
      HmacGives (sha3Ops Keccak.f1600 ((1600 - 2 * d) / 8)) mem key ms ts t (fitTo (hmac H ((1600 - 2 * d) / 8) key ms.flatten) t) := by
  refine ⟨sha3Digest Keccak.f1600 ((1600 - 2 * d) / 8), ?_, ?_⟩
  · rcases hd with rfl | rfl | rfl | rfl
    · exact sha3Digest_is 144 (by decide) (by decide) (by decide)
    · exact sha3Digest_is 136 (by decide) (by decide) (by decide)
    · exact sha3Digest_is 104 (by decide) (by decide) (by decide)
    · exact sha3Digest_is 72 (by decide) (by decide) (by decide)
  · exact C19_hmac_sha3 Keccak.f1600 _ (by rcases hd with rfl | rfl | rfl | rfl <;> decide) (by omega) mem key hk ms ts t

theorem bits_inj {a b : List (BitVec 8)} (e : Spec.Keccak.bits a = Spec.Keccak.bits b) : a = b := by
  have hl : a.length = b.length := by
    have := congrArg List.length e
    rw [Keccak.bits_length, Keccak.bits_length] at this
    omega
  refine List.ext_getElem hl fun i h1 h2 => ?_
  refine BitVec.eq_of_getLsbD_eq fun j hj => ?_
  have := congrArg (fun l => l[8 * i + j]?) e
  simp only [Keccak.bits_get?] at this
  rw [show (8 * i + j) / 8 = i by omega, show (8 * i + j) % 8 = j by omega, List.getElem?_eq_getElem h1, List.getElem?_eq_getElem h2] at this
  simpa using this

/-- The function of `IsSha3` is determined, so `C81_hmac_sha3` determines the tag. -/
theorem C81_sha3_unique (d : Nat) (H H' : List (BitVec 8) → List (BitVec 8)) (h : IsSha3 d H) (h' : IsSha3 d H') : H = H' := by
  funext m
  have e : Spec.Keccak.bits (H m) = Spec.Keccak.bits (H' m) := (h m).trans (h' m).symm
  exact bits_inj e

/-! ## HMAC_DRBG -/

section
variable (seed : List (BitVec 8)) (ops : List DrbgOp) (hs : seedsBelow (2 ^ 60) (.seed seed :: ops))
include hs

/-- C81: HMAC_DRBG over HMAC-SHA-1, -SHA-256, -SHA-384 (`hmac-drbg-sha.c`): the outputs of every history of instantiate, reseed and
generate calls are those of SP 800-90A with HMAC of FIPS 198-1 over the FIPS 180-4 function. -/
theorem C81_drbg_sha1 (x : Drbg (Hmac (MD.Ctx (List (BitVec 32))))) (hx : x.H.aux.msg.length = 64) :
    drbgRun (hmacPrf (mdOps algSha1)) x (.seed seed :: ops) = some (drbgSpecRun (hmac Spec.Sha.sha1 64) 20 ([], []) (.seed seed :: ops)) := by
  rw [← dig_sha1]
  exact C30_drbg_hmac_sha algSha1 (.inl rfl) (fun h => by simp [algSha1, length_out32]) (by decide) (by decide) x hx seed ops hs
theorem C81_drbg_sha256 (x : Drbg (Hmac (MD.Ctx (List (BitVec 32))))) (hx : x.H.aux.msg.length = 64) :
    drbgRun (hmacPrf (mdOps algSha256)) x (.seed seed :: ops) =
      some (drbgSpecRun (hmac Spec.Sha.sha256 64) 32 ([], []) (.seed seed :: ops)) := by
  rw [← dig_sha256]
  exact C30_drbg_hmac_sha algSha256 (.inl rfl) (fun h => by simp [algSha256, length_out32]) (by decide) (by decide) x hx seed ops hs
theorem C81_drbg_sha384 (x : Drbg (Hmac (MD.Ctx (List (BitVec 64))))) (hx : x.H.aux.msg.length = 128) :
    drbgRun (hmacPrf (mdOps algSha384)) x (.seed seed :: ops) =
      some (drbgSpecRun (hmac Spec.Sha.sha384 128) 48 ([], []) (.seed seed :: ops)) := by
  rw [← dig_sha384]
  exact C30_drbg_hmac_sha algSha384 (.inr rfl) (fun h => by simp [algSha384, length_out64]) (by decide) (by decide) x hx seed ops hs
end

/-- RFC 4231, test case 2 (key "Jefe"), through the code, the message in two pieces. -/
example : HmacGives (mdOps algSha256) (MD.init algSha256 (List.replicate 64 5)) [0x4a, 0x65, 0x66, 0x65]
    [[0x77, 0x68, 0x61, 0x74, 0x20, 0x64, 0x6f, 0x20, 0x79, 0x61, 0x20], [0x77, 0x61, 0x6e, 0x74, 0x20, 0x66, 0x6f, 0x72, 0x20, 0x6e,
      0x6f, 0x74, 0x68, 0x69, 0x6e, 0x67, 0x3f]] [7] 4 [0x5b, 0xdc, 0xc1, 0x46] :=
  ⟨(hmacStart (mdOps algSha256) (MD.init algSha256 (List.replicate 64 5)) [0x4a, 0x65, 0x66, 0x65]).get (by decide +kernel), by simp,
    by decide +kernel⟩

end Props
