import Verif.Spec.Aead
import Mathlib.Logic.Function.Iterate

/-!
# Specification: ChaCha20 (RFC 8439, 2.1 - 2.4)
-/
namespace Spec

/-- The 32-bit little-endian word number `i` of a byte string. -/
def leWord (b : List (BitVec 8)) (i : Nat) : BitVec 32 := BitVec.ofNat 32 (leNat ((b.drop (4 * i)).take 4))

/-- RFC 8439, 2.1. -/
def chachaQuarter (s : Nat → BitVec 32) (x y z w : Nat) : Nat → BitVec 32 :=
  let a := s x; let b := s y; let c := s z; let d := s w
  let a := a + b; let d := (d ^^^ a).rotateLeft 16
  let c := c + d; let b := (b ^^^ c).rotateLeft 12
  let a := a + b; let d := (d ^^^ a).rotateLeft 8
  let c := c + d; let b := (b ^^^ c).rotateLeft 7
  fun i => if i = x then a else if i = y then b else if i = z then c else if i = w then d else s i

/-- RFC 8439, 2.3: four column rounds and four diagonal rounds. -/
def chachaDouble (s : Nat → BitVec 32) : Nat → BitVec 32 :=
  let s := chachaQuarter s 0 4 8 12
  let s := chachaQuarter s 1 5 9 13
  let s := chachaQuarter s 2 6 10 14
  let s := chachaQuarter s 3 7 11 15
  let s := chachaQuarter s 0 5 10 15
  let s := chachaQuarter s 1 6 11 12
  let s := chachaQuarter s 2 7 8 13
  chachaQuarter s 3 4 9 14

/-- RFC 8439, 2.3: the initial state. -/
def chachaState (key nonce : List (BitVec 8)) (ctr : Nat) (i : Nat) : BitVec 32 :=
  if i < 4 then [0x61707865#32, 0x3320646e#32, 0x79622d32#32, 0x6b206574#32].getD i 0
  else if i < 12 then leWord key (i - 4)
  else if i = 12 then BitVec.ofNat 32 ctr
  else leWord nonce (i - 13)

/-- RFC 8439, 2.3: the block function on a state: twenty rounds, feed-forward, serialization. -/
def chachaCore (s : Nat → BitVec 32) : List (BitVec 8) :=
  let w := chachaDouble^[10] s
  (List.range 16).flatMap fun i => leN 4 (w i + s i).toNat

/-- RFC 8439, 2.3: the 64-byte key stream block. -/
def chachaBlock (key nonce : List (BitVec 8)) (ctr : Nat) : List (BitVec 8) := chachaCore (chachaState key nonce ctr)

/-- RFC 8439, 2.6: the one-time Poly1305 key. -/
def chachaPolyKey (key nonce : List (BitVec 8)) : List (BitVec 8) := (chachaBlock key nonce 0).take 32

/-- RFC 8439, 2.8: the ciphertext. -/
def chachaCipher (key nonce P : List (BitVec 8)) : List (BitVec 8) := streamXor 64 (fun i => chachaBlock key nonce (i + 1)) P

/-- RFC 8439, 2.8: the tag, as a number below 2^128. -/
def chachaTag (key nonce A C : List (BitVec 8)) : Nat := poly1305 (chachaPolyKey key nonce) (blocks 16 (chachaMacData A C))

/-- The final value of the Poly1305 accumulator (before adding `s`) in the computation of the tag. -/
def chachaAcc (key nonce A C : List (BitVec 8)) : Nat :=
  poly1305Acc (leNat ((chachaPolyKey key nonce).take 16) &&& clampMask) 0 (blocks 16 (chachaMacData A C))

end Spec
