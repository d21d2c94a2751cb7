import Verif.Lemmas.ShaNi3
import Verif.Lemmas.ArmNi
import Verif.Props.Sha
import Verif.Props.Keccak
import Verif.Props.BlockCipher

/-!
# C76, C77: the accelerated hash functions, SM3, SM4 and Keccak

`compressfunc_*_ni`, `NI_SM4*` and `KeccakP1600_Permute_ni`, with the instructions of `Spec/IsaHash.lean`.
-/
namespace Props
open MD Fips180
open Spec (fitTo)

/-! ### C76: SHA-1 and SHA-2 -/

/-- On every chaining value and every block the x86 and Arm compression functions are those of FIPS 180-4. -/
theorem C76_compress (H : List (BitVec 32)) (G : List (BitVec 64)) (M : List (BitVec 8)) :
    (x86Sha1 H M = Spec.Sha.comp1 H M ∧ armSha1 H M = Spec.Sha.comp1 H M) ∧
    (x86Sha256 H M = Spec.Sha.comp256 H M ∧ armSha256 H M = Spec.Sha.comp256 H M) ∧
    (x86Sha512 G M = Spec.Sha.comp512 G M ∧ armSha512 G M = Spec.Sha.comp512 G M) :=
  ⟨⟨x86Sha1_eq H M, armSha1_eq H M⟩, ⟨x86Sha256_eq H M, armSha256_eq H M⟩, congrFun (congrFun sha512_comp G) M, armSha512_eq G M⟩

/-- They are the portable functions, as functions. -/
theorem C76_variants : (x86Sha1 = sha1 ∧ armSha1 = sha1) ∧ (x86Sha256 = sha2 par256 ∧ armSha256 = sha2 par256) ∧
    (x86Sha512 = sha2 par512 ∧ armSha512 = sha2 par512) := by
  refine ⟨⟨?_, ?_⟩, ⟨?_, ?_⟩, rfl, ?_⟩ <;> funext H M
  · rw [x86Sha1_eq, sha1_comp]
  · rw [armSha1_eq, sha1_comp]
  · rw [x86Sha256_eq, sha256_comp]
  · rw [armSha256_eq, sha256_comp]
  · rw [armSha512_eq, sha512_comp]

/-- The digest of a message in any pieces with the accelerated functions in place of the portable ones: SHA-1. -/
theorem C76_sha1 (c : List (BitVec 32) → List (BitVec 8) → List (BitVec 32)) (hc : c = x86Sha1 ∨ c = armSha1) (junk : List (BitVec 8))
    (hj : junk.length = 64) (ms : List (List (BitVec 8))) (hlen : ms.flatten.length < 2 ^ 61) (t : Nat) :
    let A := { algSha1 with comp := c }
    (finalOut A (ms.foldl (update A) (init A junk)) t).1 = fitTo (Spec.Sha.sha1 ms.flatten) t := by
  have e : c = sha1 := by
    rcases hc with rfl | rfl
    · exact C76_variants.1.1
    · exact C76_variants.1.2
  subst e
  exact C68_sha1 junk hj ms hlen t

/-- SHA-224 and SHA-256. -/
theorem C76_sha256 (c : List (BitVec 32) → List (BitVec 8) → List (BitVec 32)) (hc : c = x86Sha256 ∨ c = armSha256) (junk : List (BitVec 8))
    (hj : junk.length = 64) (ms : List (List (BitVec 8))) (hlen : ms.flatten.length < 2 ^ 61) (t : Nat) :
    let A := { algSha224 with comp := c }
    let B := { algSha256 with comp := c }
    (finalOut A (ms.foldl (update A) (init A junk)) t).1 = fitTo (Spec.Sha.sha224 ms.flatten) t ∧
    (finalOut B (ms.foldl (update B) (init B junk)) t).1 = fitTo (Spec.Sha.sha256 ms.flatten) t := by
  have e : c = sha2 par256 := by
    rcases hc with rfl | rfl
    · exact C76_variants.2.1.1
    · exact C76_variants.2.1.2
  subst e
  exact ⟨C68_sha224 junk hj ms hlen t, C68_sha256 junk hj ms hlen t⟩

/-- SHA-384, SHA-512, SHA-512/224 and SHA-512/256. -/
theorem C76_sha512 (c : List (BitVec 64) → List (BitVec 8) → List (BitVec 64)) (hc : c = x86Sha512 ∨ c = armSha512) (junk : List (BitVec 8))
    (hj : junk.length = 128) (ms : List (List (BitVec 8))) (hlen : ms.flatten.length < 2 ^ 61) (t : Nat) :
    let run := fun A : Alg (List (BitVec 64)) => (finalOut A (ms.foldl (update A) (init A junk)) t).1
    run { algSha384 with comp := c } = fitTo (Spec.Sha.sha384 ms.flatten) t ∧
    run { algSha512 with comp := c } = fitTo (Spec.Sha.sha512 ms.flatten) t ∧
    run { algSha512t224 with comp := c } = fitTo (Spec.Sha.sha512_224 ms.flatten) t ∧
    run { algSha512t256 with comp := c } = fitTo (Spec.Sha.sha512_256 ms.flatten) t := by
  have e : c = sha2 par512 := by
    rcases hc with rfl | rfl
    · exact C76_variants.2.2.1
    · exact C76_variants.2.2.2
  subst e
  exact ⟨C68_sha384 junk hj ms hlen t, C68_sha512 junk hj ms hlen t, C68_sha512_224 junk hj ms hlen t, C68_sha512_256 junk hj ms hlen t⟩

/-- The block of `abc` with its padding. -/
def abcBlock (n : Nat) : List (BitVec 8) := [0x61, 0x62, 0x63, 0x80] ++ List.replicate (n - 5) 0 ++ [0x18]

set_option maxRecDepth 1000000 in
/-- FIPS 180 example digests of `abc`, from the x86 and Arm code. -/
example : x86Sha1 algSha1.H0 (abcBlock 64) = [0xa9993e36, 0x4706816a, 0xba3e2571, 0x7850c26c, 0x9cd0d89d] ∧
    armSha1 algSha1.H0 (abcBlock 64) = [0xa9993e36, 0x4706816a, 0xba3e2571, 0x7850c26c, 0x9cd0d89d] := by decide +kernel
set_option maxRecDepth 1000000 in
example : x86Sha256 algSha256.H0 (abcBlock 64) =
      [0xba7816bf, 0x8f01cfea, 0x414140de, 0x5dae2223, 0xb00361a3, 0x96177a9c, 0xb410ff61, 0xf20015ad] ∧
    armSha256 algSha256.H0 (abcBlock 64) =
      [0xba7816bf, 0x8f01cfea, 0x414140de, 0x5dae2223, 0xb00361a3, 0x96177a9c, 0xb410ff61, 0xf20015ad] := by decide +kernel
set_option maxRecDepth 1000000 in
example : (armSha512 algSha512.H0 (abcBlock 128)).take 2 = [0xddaf35a193617aba, 0xcc417349ae204131] := by decide +kernel

/-! ### C77: SM3, SM4 and Keccak on Arm -/

/-- If a shift of a 32-bit word by 32 or more uses the count modulo 32 (as the Arm instruction does), the Arm compression function is that of
GB/T 32905, and so the portable one. -/
theorem C77_sm3 (shl : BitVec 32 → Nat → BitVec 32) (hs : ∀ x k, k < 64 → shl x k = x <<< (k % 32)) (V : List (BitVec 32))
    (M : List (BitVec 8)) : armSm3 shl V M = Spec.Sha.comp3 V M ∧ armSm3 shl V M = sm3 V M :=
  ⟨armSm3_eq shl hs V M, by rw [armSm3_eq shl hs, sm3_comp]⟩

/-- And the digest of a message in any pieces. -/
theorem C77_sm3_digest (shl : BitVec 32 → Nat → BitVec 32) (hs : ∀ x k, k < 64 → shl x k = x <<< (k % 32)) (junk : List (BitVec 8))
    (hj : junk.length = 64) (ms : List (List (BitVec 8))) (hlen : ms.flatten.length < 2 ^ 61) (t : Nat) :
    let A := { algSm3 with comp := armSm3 shl }
    (finalOut A (ms.foldl (update A) (init A junk)) t).1 = fitTo (Spec.Sha.sm3 ms.flatten) t := by
  have e : armSm3 shl = sm3 := by funext V M; exact (C77_sm3 shl hs V M).2
  rw [e]
  exact C68_sm3 junk hj ms hlen t

set_option maxRecDepth 1000000 in
/-- C defines a left shift of a 32-bit word for counts below 32 only; the code shifts by up to 63.  Two readings that both follow C wherever C
says something give different digests: the result is up to the compiler. -/
theorem C77_sm3_undefined : ∃ shl shl' : BitVec 32 → Nat → BitVec 32, (∀ x k, k < 32 → shl x k = x <<< k) ∧ (∀ x k, k < 32 → shl' x k = x <<< k) ∧
    armSm3 shl algSm3.H0 (abcBlock 64) = Spec.Sha.comp3 algSm3.H0 (abcBlock 64) ∧
    armSm3 shl' algSm3.H0 (abcBlock 64) ≠ Spec.Sha.comp3 algSm3.H0 (abcBlock 64) := by
  refine ⟨fun x k => x <<< (k % 32), fun x k => x <<< k, fun x k h => by show x <<< (k % 32) = x <<< k; rw [Nat.mod_eq_of_lt h], fun _ _ _ => rfl,
    armSm3_eq _ (fun _ _ _ => rfl) _ _, ?_⟩
  rw [← armSm3_eq (fun x k => x <<< (k % 32)) (fun _ _ _ => rfl)]
  decide +kernel

set_option maxRecDepth 1000000 in
/-- The digest of `abc` given by GB/T 32905, from the Arm code. -/
example : armSm3 (fun x k => x <<< (k % 32)) algSm3.H0 (abcBlock 64) =
    [0x66c7f0f4, 0x62eeedd9, 0xd1f2d46b, 0xdc10e4e2, 0x4167c487, 0x5cf2f7a2, 0x297da02b, 0x8f4ba8e0] := by decide +kernel

/-- The Arm SM4 functions are GB/T 32907, key schedule included. -/
theorem C77_sm4 (key inp : List (BitVec 8)) (hk : key.length = 16) (h : inp.length = 16) :
    Sm4.armEncrypt inp (Sm4.armKeySched key) = Spec.sm4Encrypt key inp ∧ Sm4.armDecrypt inp (Sm4.armKeySched key) = Spec.sm4Decrypt key inp := by
  unfold Sm4.armEncrypt Sm4.armDecrypt
  rw [Sm4.armKeySched_eq, Sm4.armFeistel_eq, Sm4.armFeistel_eq]
  exact ⟨Sm4.with_spec inp _ false _ h (fun i hi => Sm4.keySched_spec key hk i hi),
    Sm4.with_spec inp _ true _ h (fun i hi => Sm4.keySched_spec key hk (31 - i) (by omega))⟩

/-- They are the portable functions on every input, so key schedules made by one can be used with the other. -/
theorem C77_sm4_variants (key inp : List (BitVec 8)) (rk : List (BitVec 32)) :
    Sm4.armEncrypt inp rk = Sm4.encrypt inp rk ∧ Sm4.armDecrypt inp rk = Sm4.decrypt inp rk ∧ Sm4.armKeySched key = Sm4.keySched key :=
  ⟨Sm4.armFeistel_eq inp rk false, Sm4.armFeistel_eq inp rk true, Sm4.armKeySched_eq key⟩

set_option maxRecDepth 1000000 in
/-- The example of GB/T 32907, from the Arm code. -/
example : let k : List (BitVec 8) := [0x01, 0x23, 0x45, 0x67, 0x89, 0xab, 0xcd, 0xef, 0xfe, 0xdc, 0xba, 0x98, 0x76, 0x54, 0x32, 0x10]
    let c : List (BitVec 8) := [0x68, 0x1e, 0xdf, 0x34, 0xd2, 0x06, 0x96, 0x5e, 0x86, 0xb3, 0xe9, 0x4f, 0x53, 0x6e, 0x42, 0x46]
    Sm4.armEncrypt k (Sm4.armKeySched k) = c ∧ Sm4.armDecrypt c (Sm4.armKeySched k) = k := by decide +kernel

/-- The Arm Keccak permutation is the portable one and so Keccak-p[1600, nr]. -/
theorem C77_keccak (nr : Nat) (hn : nr ≤ 24) (b : List (BitVec 8)) (hb : b.length = 200) :
    Keccak.permuteNi nr b = Keccak.permute nr b ∧ Spec.Keccak.bits (Keccak.permuteNi nr b) = Spec.Keccak.keccakP nr (Spec.Keccak.bits b) := by
  rw [Keccak.permuteNi_eq]
  exact ⟨rfl, (C69_permutation nr hn b hb).2⟩

set_option maxRecDepth 10000000 in
/-- The first octets of Keccak-f[1600] of the zero state, from the Arm code. -/
example : (Keccak.permuteNi 24 (List.replicate 200 0)).take 8 = [0xe7, 0xdd, 0xe1, 0x40, 0x79, 0x8f, 0x25, 0xf1] := by decide +kernel

end Props
