import Verif.Spec.MD
import Verif.Spec.Sponge
import Verif.Spec.Words

/-!
# Specification: CTR_DRBG (SP 800-90A rev. 1, 10.2.1 and 10.3.2-10.3.3) with a 32-bit counter field

`E key block` is the block cipher, `b` and `k` its block and key sizes in bytes; strings are byte strings.
-/
namespace Spec.CtrDrbg
abbrev Byte := BitVec 8

/-- `V` with its rightmost 32 bits increased by `i`. -/
def ctr (b : Nat) (V : List Byte) (i : Nat) : List Byte := V.take (b - 4) ++ beN 4 (beNat (V.drop (b - 4)) + i)

/-- Number of `b`-byte blocks needed for `n` bytes. -/
def nblk (b n : Nat) : Nat := (n + (b - 1)) / b

variable (E : List Byte → List Byte → List Byte) (b k : Nat)

/-- The first `n` counter-mode blocks after `V`. -/
def keystream (K V : List Byte) (n : Nat) : List Byte := (List.range n).flatMap fun i => E K (ctr b V (i + 1))

/-- `CTR_DRBG_Update` (10.2.1.2): the provided data, zero-padded or cut to `seedlen = k + b`, is added to the next `seedlen` keystream bytes. -/
def update (D : List Byte) (s : List Byte × List Byte) : List Byte × List Byte :=
  let t := xorBytes ((keystream E b s.1 s.2 (nblk b (k + b))).take (k + b)) (fitTo D (k + b))
  (t.take k, t.drop k)

/-- Instantiation without a derivation function (10.2.1.3.1). -/
def instantiate (D : List Byte) : List Byte × List Byte := update E b k D (List.replicate k 0, List.replicate b 0)

/-- The output of a generate request without additional input (10.2.1.5.1, step 4). -/
def output (s : List Byte × List Byte) (n : Nat) : List Byte := (keystream E b s.1 s.2 (nblk b n)).take n

/-- The state after it (step 6: the counter has moved past the blocks given out). -/
def generate (s : List Byte × List Byte) (n : Nat) : List Byte × List Byte := update E b k [] (s.1, ctr b s.2 (nblk b n))

/-- `BCC` (10.3.3). -/
def bcc (K data : List Byte) : List Byte := (blocks b data).foldl (fun c x => E K (xorOnto c x)) (List.replicate b 0)

/-- `Block_Cipher_df` (10.3.2): `n` bytes derived from `input`. -/
def df (input : List Byte) (n : Nat) : List Byte :=
  let S := beN 4 input.length ++ beN 4 n ++ input ++ [0x80]
  let S := S ++ zeroPad b S.length
  let K := (List.range k).map (BitVec.ofNat 8)
  let temp := ((List.range (nblk b (k + b))).flatMap fun i => bcc E b K (beN 4 i ++ List.replicate (b - 4) 0 ++ S)).take (k + b)
  ((List.range (nblk b n)).flatMap fun i => (E (temp.take k))^[i + 1] (temp.drop k)).take n

/-- Instantiation with the derivation function (10.2.1.3.2). -/
def instantiateDf (seed : List Byte) : List Byte × List Byte := instantiate E b k (df E b k seed (k + b))

/-- Reseeding with the derivation function (10.2.1.4.2). -/
def reseedDf (s : List Byte × List Byte) (seed : List Byte) : List Byte × List Byte := update E b k (df E b k seed (k + b)) s

end Spec.CtrDrbg
