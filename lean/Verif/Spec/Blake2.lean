import Verif.Spec.Blocks

/-!
# Specification: BLAKE2 (RFC 7693)

The working vector is a function from index to word; everything else is written as in the RFC.
-/

namespace Spec.Blake2

/-- What distinguishes BLAKE2b (`W = 64`) and BLAKE2s (`W = 32`), RFC 7693 section 2.1. -/
structure Variant (W : Nat) where
  rounds : Nat
  R1 : Nat
  R2 : Nat
  R3 : Nat
  R4 : Nat
  IV : Nat → BitVec W

/-- Rotation to the right. -/
def ror {W : Nat} (x : BitVec W) (n : Nat) : BitVec W := x.rotateRight n

/-- The message schedule, RFC 7693 section 2.7, row by row. -/
def SIGMA (round i : Nat) : Nat :=
  (([[0, 1, 2, 3, 4, 5, 6, 7, 8, 9, 10, 11, 12, 13, 14, 15],
     [14, 10, 4, 8, 9, 15, 13, 6, 1, 12, 0, 2, 11, 7, 5, 3],
     [11, 8, 12, 0, 5, 2, 15, 13, 10, 14, 3, 6, 7, 1, 9, 4],
     [7, 9, 3, 1, 13, 12, 11, 14, 2, 6, 5, 10, 4, 0, 15, 8],
     [9, 0, 5, 7, 2, 4, 10, 15, 14, 1, 11, 12, 6, 8, 3, 13],
     [2, 12, 6, 10, 0, 11, 8, 3, 4, 13, 7, 5, 15, 14, 1, 9],
     [12, 5, 1, 15, 14, 13, 4, 10, 0, 7, 6, 3, 9, 2, 8, 11],
     [13, 11, 7, 14, 12, 1, 3, 9, 5, 0, 15, 4, 8, 6, 2, 10],
     [6, 15, 14, 9, 11, 3, 0, 8, 12, 2, 13, 7, 1, 4, 10, 5],
     [10, 2, 8, 4, 7, 6, 1, 5, 15, 11, 9, 14, 3, 12, 13, 0]] : List (List Nat)).getD (round % 10) []).getD i 0

variable {W : Nat} (P : Variant W)

/-- The mixing function G, RFC 7693 section 3.1, on a working vector `v`. -/
def G (v : Nat → BitVec W) (a b c d : Nat) (x y : BitVec W) : Nat → BitVec W :=
  let a1 := v a + v b + x
  let d1 := ror (v d ^^^ a1) P.R1
  let c1 := v c + d1
  let b1 := ror (v b ^^^ c1) P.R2
  let a2 := a1 + b1 + y
  let d2 := ror (d1 ^^^ a2) P.R3
  let c2 := c1 + d2
  let b2 := ror (b1 ^^^ c2) P.R4
  fun i => if i = a then a2 else if i = b then b2 else if i = c then c2 else if i = d then d2 else v i

/-- One round: the four columns, then the four diagonals of the 4x4 matrix of words. -/
def round (m : Nat → BitVec W) (r : Nat) (v : Nat → BitVec W) : Nat → BitVec W :=
  let cols := (List.range 4).foldl (fun v i =>
    G P v i (4 + i) (8 + i) (12 + i) (m (SIGMA r (2 * i))) (m (SIGMA r (2 * i + 1)))) v
  (List.range 4).foldl (fun v i =>
    G P v i (4 + (i + 1) % 4) (8 + (i + 2) % 4) (12 + (i + 3) % 4)
      (m (SIGMA r (8 + 2 * i))) (m (SIGMA r (8 + 2 * i + 1)))) cols

/-- Little-endian word number `i` of a byte string. -/
def leWord (W : Nat) (b : List (BitVec 8)) (i : Nat) : BitVec W :=
  BitVec.ofNat W (((List.range (W / 8)).map fun j => (b.getD (W / 8 * i + j) 0).toNat * 256 ^ j).sum)

/-- The compression function F, RFC 7693 section 3.2; `t` is the offset counter. -/
def F (h : Nat → BitVec W) (block : List (BitVec 8)) (t : Nat) (final : Bool) : Nat → BitVec W :=
  let v0 : Nat → BitVec W := fun i =>
    if i < 8 then h i
    else if i = 12 then P.IV 4 ^^^ BitVec.ofNat W t
    else if i = 13 then P.IV 5 ^^^ BitVec.ofNat W (t / 2 ^ W)
    else if i = 14 ∧ final then P.IV 6 ^^^ BitVec.allOnes W
    else P.IV (i - 8)
  let v := (List.range P.rounds).foldl (fun v r => round P (leWord W block) r v) v0
  fun i => h i ^^^ v i ^^^ v (i + 8)

/-- The data that is hashed: the key padded to a block (if there is one), then the message. -/
def input (B : Nat) (key m : List (BitVec 8)) : List (BitVec 8) :=
  (if key = [] then [] else key ++ List.replicate (B - key.length) 0) ++ m

/-- The iteration of RFC 7693 section 3.3 over an arbitrary compression function. -/
def iterate {σ : Type} (F : σ → List (BitVec 8) → Nat → Bool → σ) (B : Nat) (h0 : σ)
    (data : List (BitVec 8)) : σ :=
  let h := (initBlocks B data).zipIdx.foldl (fun h p => F h p.1 ((p.2 + 1) * B) false) h0
  F h (lastBlock B data ++ List.replicate (B - (lastBlock B data).length) 0) data.length true

/-- The parameter block: `h[0] := h[0] ^ 0x01010000 ^ (kk << 8) ^ nn`. -/
def h0 (nn kk : Nat) : Nat → BitVec W := fun i =>
  if i = 0 then P.IV 0 ^^^ BitVec.ofNat W (0x01010000 ^^^ kk * 256 ^^^ nn) else P.IV i

/-- Byte `i` of the little-endian serialisation of words. -/
def leByte (h : Nat → BitVec W) (i : Nat) : BitVec 8 :=
  BitVec.ofNat 8 ((h (i / (W / 8))).toNat / 256 ^ (i % (W / 8)))

/-- BLAKE2 with `nn` output bytes, RFC 7693 section 3.3; the block is 16 words. -/
def hash (nn : Nat) (key m : List (BitVec 8)) : List (BitVec 8) :=
  (List.range nn).map (leByte (iterate (F P) (16 * (W / 8)) (h0 P nn key.length) (input (16 * (W / 8)) key m)))

/-- RFC 7693 section 2.6 (the SHA-512 and SHA-256 initial values) and 2.1. -/
def blake2b : Variant 64 :=
  { rounds := 12, R1 := 32, R2 := 24, R3 := 16, R4 := 63,
    IV := fun i => ([0x6A09E667F3BCC908, 0xBB67AE8584CAA73B, 0x3C6EF372FE94F82B, 0xA54FF53A5F1D36F1,
      0x510E527FADE682D1, 0x9B05688C2B3E6C1F, 0x1F83D9ABFB41BD6B, 0x5BE0CD19137E2179] : List (BitVec 64)).getD i 0 }

def blake2s : Variant 32 :=
  { rounds := 10, R1 := 16, R2 := 12, R3 := 8, R4 := 7,
    IV := fun i => ([0x6A09E667, 0xBB67AE85, 0x3C6EF372, 0xA54FF53A,
      0x510E527F, 0x9B05688C, 0x1F83D9AB, 0x5BE0CD19] : List (BitVec 32)).getD i 0 }

end Spec.Blake2
