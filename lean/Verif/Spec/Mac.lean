import Verif.Spec.Words
import Verif.Spec.MD

/-!
# Specification: HMAC (RFC 2104), CMAC (SP 800-38B), HMAC_DRBG (SP 800-90A, 10.1.2)
-/
namespace Spec

/-- HMAC for keys of at most `B` bytes, `H` a hash function with block size `B`. -/
def hmac (H : List (BitVec 8) → List (BitVec 8)) (B : Nat) (K m : List (BitVec 8)) : List (BitVec 8) :=
  let K0 := K ++ List.replicate (B - K.length) 0
  H (K0.map (· ^^^ 0x5c) ++ H (K0.map (· ^^^ 0x36) ++ m))

/-- A string of 16 bytes as a 128-bit block (first byte most significant), and back. -/
def block128 (l : List (BitVec 8)) : BitVec 128 := BitVec.ofNat 128 (beNat l)
def bytes128 (v : BitVec 128) : List (BitVec 8) := beN 16 v.toNat

/-- Doubling, SP 800-38B section 5.3 / 6.1: shift left by one bit and fold the bit shifted out. -/
def dbl (v : BitVec 128) : BitVec 128 := if v.msb then (v <<< 1) ^^^ 0x87 else v <<< 1

/-- CMAC, SP 800-38B section 6.2, with the block cipher `E` (already keyed). -/
def cmac (E : List (BitVec 8) → List (BitVec 8)) (m : List (BitVec 8)) : List (BitVec 8) :=
  let L := block128 (E (List.replicate 16 0))
  let K1 := bytes128 (dbl L)
  let K2 := bytes128 (dbl (dbl L))
  let last := lastBlock 16 m
  let Mn := if last.length = 16 then xorBytes K1 last
            else xorBytes K2 (last ++ [0x80] ++ List.replicate (15 - last.length) 0)
  let C := (initBlocks 16 m).foldl (fun C b => E (xorBytes C b)) (List.replicate 16 0)
  E (xorBytes C Mn)

/-- HMAC_DRBG_Update, 10.1.2.2; the state is `(K, V)`. -/
def drbgUpdate (prf : List (BitVec 8) → List (BitVec 8) → List (BitVec 8)) (s : List (BitVec 8) × List (BitVec 8))
    (data : List (BitVec 8)) : List (BitVec 8) × List (BitVec 8) :=
  let K := prf s.1 (s.2 ++ [0x00] ++ data)
  let V := prf K s.2
  if data = [] then (K, V)
  else
    let K := prf K (V ++ [0x01] ++ data)
    (K, prf K V)

/-- HMAC_DRBG_Instantiate, 10.1.2.3, for PRF outputs of `L` bytes. -/
def drbgInstantiate (prf : List (BitVec 8) → List (BitVec 8) → List (BitVec 8)) (L : Nat) (seed : List (BitVec 8)) :=
  drbgUpdate prf (List.replicate L 0x00, List.replicate L 0x01) seed

/-- The values of `V` after 1, 2, 3, ... iterations of `V = HMAC(K, V)`. -/
def drbgV (prf : List (BitVec 8) → List (BitVec 8) → List (BitVec 8)) (K V : List (BitVec 8)) : Nat → List (BitVec 8)
  | 0 => V
  | n + 1 => prf K (drbgV prf K V n)

/-- HMAC_DRBG_Generate, 10.1.2.5, without additional input: `n` bytes, with `ceil (n / L)` iterations. -/
def drbgGenerate (prf : List (BitVec 8) → List (BitVec 8) → List (BitVec 8)) (L : Nat) (s : List (BitVec 8) × List (BitVec 8))
    (n : Nat) : List (BitVec 8) × (List (BitVec 8) × List (BitVec 8)) :=
  let k := (n + L - 1) / L
  (((List.range k).flatMap fun i => drbgV prf s.1 s.2 (i + 1)).take n,
   drbgUpdate prf (s.1, drbgV prf s.1 s.2 k) [])

end Spec
