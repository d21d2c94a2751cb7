import Verif.Spec.Words
import Verif.Spec.Lane

/-!
# Specification: SM4 (GB/T 32907-2016)
-/
namespace Spec

/-- Product in GF(2)[x] modulo `x^8 + x^7 + x^6 + x^5 + x^4 + x^2 + 1` (`0x1f5`): carry-less product, then long division. -/
def sm4Mul (a b : BitVec 8) : BitVec 8 :=
  let p := (List.range 8).foldl (fun p i => if b.getLsbD i then p ^^^ (a.toNat <<< i) else p) 0
  BitVec.ofNat 8 ([6, 5, 4, 3, 2, 1, 0].foldl (fun p i => if p.testBit (8 + i) then p ^^^ (0x1f5 <<< i) else p) p)

/-- The multiplicative inverse `a^254` (0 for 0). -/
def sm4Inv (a : BitVec 8) : BitVec 8 :=
  let a2 := sm4Mul a a
  let a4 := sm4Mul a2 a2
  let a8 := sm4Mul a4 a4
  let a16 := sm4Mul a8 a8
  let a32 := sm4Mul a16 a16
  let a64 := sm4Mul a32 a32
  let a128 := sm4Mul a64 a64
  sm4Mul a2 (sm4Mul a4 (sm4Mul a8 (sm4Mul a16 (sm4Mul a32 (sm4Mul a64 a128)))))

/-- The affine map `A x + C` with the circulant matrix and constant `0xd3`. -/
def sm4Affine (b : BitVec 8) : BitVec 8 :=
  b ^^^ b.rotateLeft 1 ^^^ b.rotateLeft 3 ^^^ b.rotateLeft 6 ^^^ b.rotateLeft 7 ^^^ 0xd3#8

/-- The S-box, in the algebraic form `S(x) = A (A x + C)^{-1} + C`. -/
def sm4Sbox (x : BitVec 8) : BitVec 8 := sm4Affine (sm4Inv (sm4Affine x))

/-- τ: the S-box on each byte of a word. -/
def sm4Tau (w : BitVec 32) : BitVec 32 := sm4Sbox (lane 3 w) ++ sm4Sbox (lane 2 w) ++ sm4Sbox (lane 1 w) ++ sm4Sbox (lane 0 w)

def sm4T (w : BitVec 32) : BitVec 32 :=
  let b := sm4Tau w
  b ^^^ b.rotateLeft 2 ^^^ b.rotateLeft 10 ^^^ b.rotateLeft 18 ^^^ b.rotateLeft 24

def sm4T' (w : BitVec 32) : BitVec 32 :=
  let b := sm4Tau w
  b ^^^ b.rotateLeft 13 ^^^ b.rotateLeft 23

/-- The sequence `X_0, X_1, ...` with `X_{i+4} = X_i ^ T(X_{i+1} ^ X_{i+2} ^ X_{i+3} ^ c_i)`. -/
def sm4Seq (T : BitVec 32 → BitVec 32) (c : Nat → BitVec 32) (x : Nat → BitVec 32) (n : Nat) : BitVec 32 :=
  if h : n < 4 then x n
  else sm4Seq T c x (n - 4) ^^^ T (sm4Seq T c x (n - 3) ^^^ sm4Seq T c x (n - 2) ^^^ sm4Seq T c x (n - 1) ^^^ c (n - 4))
termination_by n
decreasing_by all_goals omega

/-- Big-endian word `i` of a byte string. -/
def beWord (b : List (BitVec 8)) (i : Nat) : BitVec 32 := BitVec.ofNat 32 (beNat ((b.drop (4 * i)).take 4))

/-- The system parameter `FK` and the fixed parameter `CK`, whose bytes are `ck_{i,j} = 7 (4 i + j) mod 256`. -/
def sm4FK : Nat → BitVec 32
  | 0 => 0xA3B1BAC6#32
  | 1 => 0x56AA3350#32
  | 2 => 0x677D9197#32
  | _ => 0xB27022DC#32
def sm4CK (i : Nat) : BitVec 32 :=
  BitVec.ofNat 8 (7 * (4 * i)) ++ BitVec.ofNat 8 (7 * (4 * i + 1)) ++ BitVec.ofNat 8 (7 * (4 * i + 2)) ++ BitVec.ofNat 8 (7 * (4 * i + 3))

/-- Round key `rk_i = K_{i+4}`. -/
def sm4RoundKey (key : List (BitVec 8)) (i : Nat) : BitVec 32 := sm4Seq sm4T' sm4CK (fun j => beWord key j ^^^ sm4FK j) (i + 4)

/-- The big-endian bytes of a word. -/
def beBytes32 (w : BitVec 32) : List (BitVec 8) := [lane 3 w, lane 2 w, lane 1 w, lane 0 w]

/-- SM4 with the given round keys: output `(X_35, X_34, X_33, X_32)`. -/
def sm4With (rk : Nat → BitVec 32) (inp : List (BitVec 8)) : List (BitVec 8) :=
  let X := sm4Seq sm4T rk (beWord inp)
  beBytes32 (X 35) ++ beBytes32 (X 34) ++ beBytes32 (X 33) ++ beBytes32 (X 32)

/-- SM4 encryption; decryption uses the round keys in reverse order. -/
def sm4Encrypt (key inp : List (BitVec 8)) : List (BitVec 8) := sm4With (sm4RoundKey key) inp
def sm4Decrypt (key inp : List (BitVec 8)) : List (BitVec 8) := sm4With (fun i => sm4RoundKey key (31 - i)) inp

end Spec
