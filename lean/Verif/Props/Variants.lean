import Verif.Lemmas.GhashNi
import Verif.Lemmas.AesNi

/-!
# C74, C75: the accelerated variants

`galois128_hash1block_ni` and the `NI_AES*` functions, one source file per architecture, compute the same functions as the portable code,
the instructions being those of `Spec/Intrinsics.lean`.
-/
namespace Props
open Spec

/-! ### C74: GHASH with carry-less multiplication -/

/-- The x86, Arm and Power block functions write the product in GF(2^128) of `Y` (plus `X` when it is given) and `H`. -/
theorem C74_product (Y H X : List (BitVec 8)) (hY : Y.length = 16) (hX : X.length = 16) :
    IsGfProduct (xorBytes Y X) H (Ghash.hash1blockX86 Y H (some X)) ∧ IsGfProduct (xorBytes Y X) H (Ghash.hash1blockArm Y H (some X)) ∧
    IsGfProduct (xorBytes Y X) H (Ghash.hash1blockPpc Y H (some X)) := by
  have e := Ghash.variants_eq Y H (some X)
  have h : IsGfProduct (xorBytes Y X) H (Ghash.hash1blockX86 Y H (some X)) := by
    rw [e.1]
    exact ⟨Ghash.isa_store_length _, by rw [Ghash.gfPoly_xor _ _ (by omega)]; exact Ghash.core_product Y H (some X)⟩
  exact ⟨h, by rw [e.2.1, ← e.1]; exact h, by rw [e.2.2, ← e.1]; exact h⟩

/-- Without a message block (`X` NULL) the product of `Y` and `H`. -/
theorem C74_product_null (Y H : List (BitVec 8)) :
    IsGfProduct Y H (Ghash.hash1blockX86 Y H none) ∧ IsGfProduct Y H (Ghash.hash1blockArm Y H none) ∧ IsGfProduct Y H (Ghash.hash1blockPpc Y H none) := by
  have e := Ghash.variants_eq Y H none
  have h : IsGfProduct Y H (Ghash.hash1blockX86 Y H none) := by
    rw [e.1]
    exact ⟨Ghash.isa_store_length _, by have := Ghash.core_product Y H none; rwa [add_zero] at this⟩
  exact ⟨h, by rw [e.2.1, ← e.1]; exact h, by rw [e.2.2, ← e.1]; exact h⟩

/-- All four implementations agree on every input. -/
theorem C74_variants (Y H X : List (BitVec 8)) (hY : Y.length = 16) (hX : X.length = 16) :
    Ghash.hash1blockX86 Y H (some X) = Ghash.hash1block Y H X ∧ Ghash.hash1blockArm Y H (some X) = Ghash.hash1block Y H X ∧
    Ghash.hash1blockPpc Y H (some X) = Ghash.hash1block Y H X := by
  have h := C74_product Y H X hY hX
  have p := Ghash.hash1block_spec Y H X hY hX
  exact ⟨Ghash.product_unique h.1 p, Ghash.product_unique h.2.1 p, Ghash.product_unique h.2.2 p⟩

set_option maxRecDepth 1000000 in
/-- The first block of test case 2 of the GCM specification (H = 66e94bd4..., X = 0388dace...): 5e2ec746.... -/
example : Ghash.hash1blockX86 (List.replicate 16 0)
    [0x66, 0xe9, 0x4b, 0xd4, 0xef, 0x8a, 0x2c, 0x3b, 0x88, 0x4c, 0xfa, 0x59, 0xca, 0x34, 0x2b, 0x2e]
    (some [0x03, 0x88, 0xda, 0xce, 0x60, 0xb6, 0xa3, 0x92, 0xf3, 0x28, 0xc2, 0xb9, 0x71, 0xb2, 0xfe, 0x78]) =
    [0x5e, 0x2e, 0xc7, 0x46, 0x91, 0x70, 0x62, 0x88, 0x2c, 0x85, 0xb0, 0x68, 0x53, 0x53, 0xde, 0xb7] := by decide +kernel

/-! ### C75: AES with the AES instructions -/

/-- With any expanded key the x86, Arm and Power ciphers are the portable one, forward and inverse. -/
theorem C75_variants (inp w : List (BitVec 8)) (Nr : Nat) (h : inp.length = 16) :
    (Aes.cipherX86 inp w Nr = Aes.cipher inp w Nr ∧ Aes.cipherArm inp w Nr = Aes.cipher inp w Nr ∧ Aes.cipherPpc inp w Nr = Aes.cipher inp w Nr) ∧
    (Aes.invCipherX86 inp w Nr = Aes.invCipher inp w Nr ∧ Aes.invCipherArm inp w Nr = Aes.invCipher inp w Nr ∧
      Aes.invCipherPpc inp w Nr = Aes.invCipher inp w Nr) :=
  ⟨⟨Aes.cipherX86_eq inp w Nr h, Aes.cipherArm_eq inp w Nr h, Aes.cipherPpc_eq inp w Nr h⟩,
    Aes.invCipherX86_eq inp w Nr h, Aes.invCipherArm_eq inp w Nr h, Aes.invCipherPpc_eq inp w Nr h⟩

/-- Encryption under a 128, 192 or 256-bit key is the FIPS 197 cipher in every variant. -/
theorem C75_encrypt (key inp : List (BitVec 8)) (h : inp.length = 16) (Nk Nr : Nat)
    (hN : (Nk, Nr) = (4, 10) ∨ (Nk, Nr) = (6, 12) ∨ (Nk, Nr) = (8, 14)) (hk : key.length = 4 * Nk) :
    Aes.cipherX86 inp (Aes.keyExpansion key Nk Nr) Nr = aes Nk Nr key inp ∧ Aes.cipherArm inp (Aes.keyExpansion key Nk Nr) Nr = aes Nk Nr key inp ∧
    Aes.cipherPpc inp (Aes.keyExpansion key Nk Nr) Nr = aes Nk Nr key inp := by
  rw [(C75_variants inp _ Nr h).1.1, (C75_variants inp _ Nr h).1.2.1, (C75_variants inp _ Nr h).1.2.2]
  have : Aes.cipher inp (Aes.keyExpansion key Nk Nr) Nr = aes Nk Nr key inp := by
    rcases hN with hN | hN | hN <;> (obtain ⟨rfl, rfl⟩ := Prod.mk.inj hN; exact Aes.aes_spec key inp _ _ (by omega) hk (by omega) (by omega) h)
  exact ⟨this, this, this⟩

/-- Decryption is INVCIPHER of FIPS 197 in the portable code and in every variant. -/
theorem C75_decrypt (key inp : List (BitVec 8)) (h : inp.length = 16) (Nk Nr : Nat)
    (hN : (Nk, Nr) = (4, 10) ∨ (Nk, Nr) = (6, 12) ∨ (Nk, Nr) = (8, 14)) (hk : key.length = 4 * Nk) :
    Aes.invCipher inp (Aes.keyExpansion key Nk Nr) Nr = aesInv Nk Nr key inp ∧
    Aes.invCipherX86 inp (Aes.keyExpansion key Nk Nr) Nr = aesInv Nk Nr key inp ∧
    Aes.invCipherArm inp (Aes.keyExpansion key Nk Nr) Nr = aesInv Nk Nr key inp ∧
    Aes.invCipherPpc inp (Aes.keyExpansion key Nk Nr) Nr = aesInv Nk Nr key inp := by
  rw [(C75_variants inp _ Nr h).2.1, (C75_variants inp _ Nr h).2.2.1, (C75_variants inp _ Nr h).2.2.2]
  have : Aes.invCipher inp (Aes.keyExpansion key Nk Nr) Nr = aesInv Nk Nr key inp := by
    rcases hN with hN | hN | hN <;> (obtain ⟨rfl, rfl⟩ := Prod.mk.inj hN; exact Aes.aesInv_spec key inp _ _ (by omega) hk (by omega) (by omega) h)
  exact ⟨this, this, this, this⟩

set_option maxRecDepth 1000000 in
/-- FIPS 197, appendix C.1, encrypted and decrypted with the x86 and Arm code. -/
example : let key : List (BitVec 8) := (List.range 16).map fun i => BitVec.ofNat 8 i
    let pt : List (BitVec 8) := (List.range 16).map fun i => BitVec.ofNat 8 (17 * i)
    let ct : List (BitVec 8) := [0x69, 0xc4, 0xe0, 0xd8, 0x6a, 0x7b, 0x04, 0x30, 0xd8, 0xcd, 0xb7, 0x80, 0x70, 0xb4, 0xc5, 0x5a]
    Aes.cipherX86 pt (Aes.keyExpansion key 4 10) 10 = ct ∧ Aes.invCipherArm ct (Aes.keyExpansion key 4 10) 10 = pt := by decide +kernel

end Props
