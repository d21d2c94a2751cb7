import Verif.Lemmas.ShaConst
import Verif.Props.MD

/-!
# Property C68: the SHA-1, SHA-2 and SM3 hash functions of the library are the ones of FIPS 180-4 and GB/T 32905

The standards are in `Verif.Spec.Sha`.  Every history of updates, every buffer contents before initialisation, every output length.
-/

namespace Props
open MD Fips180
open Spec (fitTo)

/-- Congruence for the iteration. -/
theorem mdHash_inv {σ : Type} (comp : σ → List (BitVec 8) → σ) (H0 : σ) (B lw : Nat) (m : List (BitVec 8)) (p : σ → Prop) (h0 : p H0)
    (h : ∀ s b, p s → p (comp s b)) : p (Spec.mdHash comp H0 B lw m) := by
  unfold Spec.mdHash
  generalize Spec.blocks B (Spec.mdPad B lw m) = l
  induction l generalizing H0 with
  | nil => exact h0
  | cons b l ih => exact ih _ (h _ _ h0)

theorem sha2_len {n : Nat} (P : Par n) (H : List (BitVec n)) (b : List (BitVec 8)) : (sha2 P H b).length = 8 := rfl

/-- C68: SHA-1. -/
theorem C68_sha1 (junk : List (BitVec 8)) (hj : junk.length = 64) (ms : List (List (BitVec 8))) (hlen : ms.flatten.length < 2 ^ 61) (t : Nat) :
    (finalOut algSha1 (ms.foldl (update algSha1) (init algSha1 junk)) t).1 = fitTo (Spec.Sha.sha1 ms.flatten) t := by
  rw [C15_digest algSha1 (.inl rfl) junk hj ms hlen (fun h => by simp [algSha1, length_out32]) t]
  congr 1
  unfold mdDigest Spec.Sha.sha1
  have hc : sha1 = Spec.Sha.comp1 := by funext H b; exact sha1_comp H b
  have hl := mdHash_inv algSha1.comp algSha1.H0 (16 * algSha1.w) (2 * algSha1.w) ms.flatten (fun s => s.length = 5) rfl (fun _ _ _ => rfl)
  rw [List.take_of_length_le (by simp [algSha1, length_out32])]
  rw [← hc]
  exact out32_5 _ hl

/-- C68: SHA-224. -/
theorem C68_sha224 (junk : List (BitVec 8)) (hj : junk.length = 64) (ms : List (List (BitVec 8))) (hlen : ms.flatten.length < 2 ^ 61) (t : Nat) :
    (finalOut algSha224 (ms.foldl (update algSha224) (init algSha224 junk)) t).1 = fitTo (Spec.Sha.sha224 ms.flatten) t := by
  rw [C15_digest algSha224 (.inl rfl) junk hj ms hlen (fun h => by simp [algSha224, length_out32]) t]
  congr 1
  unfold mdDigest Spec.Sha.sha224
  have hl := mdHash_inv algSha224.comp algSha224.H0 (16 * algSha224.w) (2 * algSha224.w) ms.flatten (fun s => s.length = 8) rfl
    (fun _ _ _ => rfl)
  rw [← h0_224, ← sha256_comp]
  exact congrArg (List.take 28) (out32_8 _ hl)

/-- C68: SHA-256. -/
theorem C68_sha256 (junk : List (BitVec 8)) (hj : junk.length = 64) (ms : List (List (BitVec 8))) (hlen : ms.flatten.length < 2 ^ 61) (t : Nat) :
    (finalOut algSha256 (ms.foldl (update algSha256) (init algSha256 junk)) t).1 = fitTo (Spec.Sha.sha256 ms.flatten) t := by
  rw [C15_digest algSha256 (.inl rfl) junk hj ms hlen (fun h => by simp [algSha256, length_out32]) t]
  congr 1
  unfold mdDigest Spec.Sha.sha256
  have hl := mdHash_inv algSha256.comp algSha256.H0 (16 * algSha256.w) (2 * algSha256.w) ms.flatten (fun s => s.length = 8) rfl
    (fun _ _ _ => rfl)
  rw [← h0_256, ← sha256_comp, List.take_of_length_le (by simp [algSha256, length_out32])]
  exact out32_8 _ hl

/-- C68: SHA-384. -/
theorem C68_sha384 (junk : List (BitVec 8)) (hj : junk.length = 128) (ms : List (List (BitVec 8))) (hlen : ms.flatten.length < 2 ^ 61) (t : Nat) :
    (finalOut algSha384 (ms.foldl (update algSha384) (init algSha384 junk)) t).1 = fitTo (Spec.Sha.sha384 ms.flatten) t := by
  rw [C15_digest algSha384 (.inr rfl) junk hj ms hlen (fun h => by simp [algSha384, length_out64]) t]
  congr 1
  unfold mdDigest Spec.Sha.sha384
  have hl := mdHash_inv algSha384.comp algSha384.H0 (16 * algSha384.w) (2 * algSha384.w) ms.flatten (fun s => s.length = 8) rfl
    (fun _ _ _ => rfl)
  rw [← h0_384, ← sha512_comp]
  exact congrArg (List.take 48) (out64_8 _ hl)

/-- C68: SHA-512. -/
theorem C68_sha512 (junk : List (BitVec 8)) (hj : junk.length = 128) (ms : List (List (BitVec 8))) (hlen : ms.flatten.length < 2 ^ 61) (t : Nat) :
    (finalOut algSha512 (ms.foldl (update algSha512) (init algSha512 junk)) t).1 = fitTo (Spec.Sha.sha512 ms.flatten) t := by
  rw [C15_digest algSha512 (.inr rfl) junk hj ms hlen (fun h => by simp [algSha512, length_out64]) t]
  congr 1
  unfold mdDigest Spec.Sha.sha512
  have hl := mdHash_inv algSha512.comp algSha512.H0 (16 * algSha512.w) (2 * algSha512.w) ms.flatten (fun s => s.length = 8) rfl
    (fun _ _ _ => rfl)
  rw [← h0_512, ← sha512_comp, List.take_of_length_le (by simp [algSha512, length_out64])]
  exact out64_8 _ hl

/-- C68: SHA-512/224. -/
theorem C68_sha512_224 (junk : List (BitVec 8)) (hj : junk.length = 128) (ms : List (List (BitVec 8))) (hlen : ms.flatten.length < 2 ^ 61)
    (t : Nat) : (finalOut algSha512t224 (ms.foldl (update algSha512t224) (init algSha512t224 junk)) t).1 =
      fitTo (Spec.Sha.sha512_224 ms.flatten) t := by
  rw [C15_digest algSha512t224 (.inr rfl) junk hj ms hlen (fun h => by simp [algSha512t224, length_out64]) t]
  congr 1
  unfold mdDigest Spec.Sha.sha512_224
  have hl := mdHash_inv algSha512t224.comp algSha512t224.H0 (16 * algSha512t224.w) (2 * algSha512t224.w) ms.flatten (fun s => s.length = 8)
    rfl (fun _ _ _ => rfl)
  rw [← h0_t224, ← sha512_comp]
  exact congrArg (List.take 28) (out64_8 _ hl)

/-- C68: SHA-512/256. -/
theorem C68_sha512_256 (junk : List (BitVec 8)) (hj : junk.length = 128) (ms : List (List (BitVec 8))) (hlen : ms.flatten.length < 2 ^ 61)
    (t : Nat) : (finalOut algSha512t256 (ms.foldl (update algSha512t256) (init algSha512t256 junk)) t).1 =
      fitTo (Spec.Sha.sha512_256 ms.flatten) t := by
  rw [C15_digest algSha512t256 (.inr rfl) junk hj ms hlen (fun h => by simp [algSha512t256, length_out64]) t]
  congr 1
  unfold mdDigest Spec.Sha.sha512_256
  have hl := mdHash_inv algSha512t256.comp algSha512t256.H0 (16 * algSha512t256.w) (2 * algSha512t256.w) ms.flatten (fun s => s.length = 8)
    rfl (fun _ _ _ => rfl)
  rw [← h0_t256, ← sha512_comp]
  exact congrArg (List.take 32) (out64_8 _ hl)

/-- C68: SM3. -/
theorem C68_sm3 (junk : List (BitVec 8)) (hj : junk.length = 64) (ms : List (List (BitVec 8))) (hlen : ms.flatten.length < 2 ^ 61) (t : Nat) :
    (finalOut algSm3 (ms.foldl (update algSm3) (init algSm3 junk)) t).1 = fitTo (Spec.Sha.sm3 ms.flatten) t := by
  rw [C15_digest algSm3 (.inl rfl) junk hj ms hlen (fun h => by simp [algSm3, length_out32]) t]
  congr 1
  unfold mdDigest Spec.Sha.sm3
  have hc : sm3 = Spec.Sha.comp3 := by funext H b; exact sm3_comp H b
  have hl := mdHash_inv algSm3.comp algSm3.H0 (16 * algSm3.w) (2 * algSm3.w) ms.flatten (fun s => s.length = 8) rfl (fun _ _ _ => rfl)
  rw [← hc, List.take_of_length_le (by simp [algSm3, length_out32])]
  exact out32_8 _ hl

/-- The digests of `abc` given by the standards, of the code for the input in two pieces, with a longer output than the digest. -/
example : (finalOut algSha1 ([[0x61, 0x62], [0x63]].foldl (update algSha1) (init algSha1 (List.replicate 64 9))) 21).1 =
    [0xa9, 0x99, 0x3e, 0x36, 0x47, 0x06, 0x81, 0x6a, 0xba, 0x3e, 0x25, 0x71, 0x78, 0x50, 0xc2, 0x6c, 0x9c, 0xd0, 0xd8, 0x9d, 0] := by
  decide +kernel
example : Spec.beNat (finalOut algSha256 ([[0x61, 0x62], [0x63]].foldl (update algSha256) (init algSha256 (List.replicate 64 9))) 32).1 =
    0xba7816bf8f01cfea414140de5dae2223b00361a396177a9cb410ff61f20015ad := by
  decide +kernel
example : Spec.beNat (finalOut algSha512 ([[0x61, 0x62], [0x63]].foldl (update algSha512) (init algSha512 (List.replicate 128 9))) 64).1 =
    0xddaf35a193617abacc417349ae20413112e6fa4e89a97ea20a9eeee64b55d39a2192992a274fc1a836ba3c23a3feebbd454d4423643ce80e2a9ac94fa54ca49f := by
  decide +kernel
example : Spec.beNat (finalOut algSm3 ([[0x61, 0x62], [0x63]].foldl (update algSm3) (init algSm3 (List.replicate 64 9))) 32).1 =
    0x66c7f0f462eeedd9d1f2d46bdc10e4e24167c4875cf2f7a2297da02b8f4ba8e0 := by
  decide +kernel
/-- And so the standard's definition gives the published value: the root of the chain of definitions is met. -/
example : Spec.beNat (fitTo (Spec.Sha.sha256 [0x61, 0x62, 0x63]) 32) =
    0xba7816bf8f01cfea414140de5dae2223b00361a396177a9cb410ff61f20015ad := by
  rw [show [0x61, 0x62, 0x63] = [[0x61, 0x62], [(0x63 : BitVec 8)]].flatten from rfl,
    ← C68_sha256 (List.replicate 64 9) rfl [[0x61, 0x62], [0x63]] (by decide)]
  decide +kernel

end Props
