import Verif.Model.Ghash
import Verif.Spec.Mem

/-!
# Model of `src/2-encryption/gcm.c` (and `gcm.c.h`, `gcm.h`)

The input and output areas live in a byte-addressed memory and may overlap; `iv`, `aad` and `T` are separate
byte strings whose lengths are the `ivlen`, `alen`, `tlen` arguments.  The block cipher under its key schedule is a
parameter.  Block indices `j` are natural numbers: `size_t` cannot wrap for the lengths that pass the checks.
-/
namespace Gcm
open Ghash
abbrev Byte := BitVec 8
abbrev Mem := Spec.Mem

/-- `gcm_t`, `gcm.h:11-18`, with the key schedule folded into `enc`. -/
structure Ctx where
  H : List Byte
  enc : List Byte → List Byte

/-- `GCM_*_Init(x, k, klen)`, `gcm.c.h:3-17`, and `GCM_T_Init`, `gcm.c:166-178`; `cipher` is the block cipher for `k`. -/
def init (keyBytes klen : Nat) (cipher : List Byte → List Byte) : Option Ctx :=
  if klen ≠ keyBytes then none
  else some { H := cipher (List.replicate 16 0), enc := cipher }

/-- The four bytes of `htobe32(v)`. -/
def put32 (v : BitVec 32) : List Byte :=
  [(v >>> 24).setWidth 8, (v >>> 16).setWidth 8, (v >>> 8).setWidth 8, v.setWidth 8]

/-- `be32toh` of bytes 12..15. -/
def get32 (p : List Byte) : BitVec 32 := p.getD 12 0 ++ p.getD 13 0 ++ p.getD 14 0 ++ p.getD 15 0

/-- `CB[3] = htobe32(be32toh(CB[3])+1);`, `gcm.c:54`, `:142`. -/
def incr (CB : List Byte) : List Byte := CB.take 12 ++ put32 (get32 CB + 1)

/-- `for(i=0; i<16; i++) X[i] = i+j < n ? src[i+j] : 0;`, `gcm.c:41-42`, `:108-109`, `:117-118`. -/
def gather (src : Nat → Byte) (n j : Nat) : List Byte := (List.range 16).map fun i => if i + j < n then src (i + j) else 0

/-- `for(j=0; j<n; j+=16) { gather; ghash128(S, H, X); }`, `gcm.c:39-45`, `:106-112`, `:115-121`. -/
def absorb {σ : Type} (step : σ → List Byte → σ) (src : Nat → Byte) (n j : Nat) (S : σ) : σ :=
  if j < n then absorb step src n (j + 16) (step S (gather src n j)) else S
termination_by n - j

/-- `for(i=0; i<16; i++) X[i] = i+j < len ? (optr[i+j] = iptr[i+j]^X[i]) : 0;`, `gcm.c:57-58`. -/
def encBlock (len inp out j : Nat) (s : List Byte × Mem) : List Byte × Mem :=
  (List.range 16).foldl (fun s i =>
    if i + j < len then
      let b := s.2 (inp + (i + j)) ^^^ s.1.getD i 0
      (s.1.set i b, Spec.poke s.2 (out + (i + j)) b)
    else (s.1.set i 0, s.2)) s

/-- The loop of `gcm.c:52-61`. -/
def encLoop (g : Ctx) (len inp out : Nat) (j : Nat) (CB S : List Byte) (mem : Mem) : List Byte × Mem :=
  if j < len then
    let CB := incr CB
    let X := g.enc CB
    let (X, mem) := encBlock len inp out j (X, mem)
    encLoop g len inp out (j + 16) CB (hash1block S g.H X) mem
  else (S, mem)
termination_by len - j

/-- `GCM_Encrypt`, `gcm.c:8-74`.  `none`: NULL is returned, nothing has been written.  Otherwise the new memory and
the `tlen` bytes stored at `T`. -/
def encrypt (g : Ctx) (iv aad : List Byte) (len inp out tlen : Nat) (mem : Mem) : Option (Mem × List Byte) :=
  if iv.length ≠ 12 ∨ aad.length ≥ 2 ^ 61 ∨ len ≥ 2 ^ 36 - 31 then none
  else
    let J0 := iv ++ put32 1#32
    let S := absorb (fun S X => hash1block S g.H X) (fun i => aad.getD i 0) aad.length 0 (List.replicate 16 0)
    let (S, mem) := encLoop g len inp out 0 J0 S mem
    let X := put64 (BitVec.ofNat 64 (aad.length * 8)) ++ put64 (BitVec.ofNat 64 (len * 8))
    let S := hash1block S g.H X
    let X := g.enc J0
    let X := List.zipWith (· ^^^ ·) X S
    some (mem, (List.range tlen).map fun i => if i < 16 then X.getD i 0 else 0)

/-- `for(i=0; i<16 && i+j<len; i++) optr[i+j] = iptr[i+j] ^ X[i];`, `gcm.c:145`. -/
def decBlock (len inp out j : Nat) (X : List Byte) (mem : Mem) : Mem :=
  (List.range (min 16 (len - j))).foldl (fun mem i => Spec.poke mem (out + (i + j)) (mem (inp + (i + j)) ^^^ X.getD i 0)) mem

/-- The loop of `gcm.c:140-146`. -/
def decLoop (g : Ctx) (len inp out : Nat) (j : Nat) (CB : List Byte) (mem : Mem) : Mem :=
  if j < len then
    let CB := incr CB
    let X := g.enc CB
    decLoop g len inp out (j + 16) CB (decBlock len inp out j X mem)
  else mem
termination_by len - j

/-- `GCM_Decrypt`, `gcm.c:76-149`: whether a non-NULL pointer is returned, and the memory afterwards. -/
def decrypt (g : Ctx) (iv aad : List Byte) (len inp out : Nat) (T : List Byte) (mem : Mem) : Bool × Mem :=
  if iv.length ≠ 12 ∨ aad.length ≥ 2 ^ 61 ∨ len ≥ 2 ^ 36 - 31 then (false, mem)
  else
    let J0 := iv ++ put32 1#32
    let S := absorb (fun S X => hash1block S g.H X) (fun i => aad.getD i 0) aad.length 0 (List.replicate 16 0)
    let S := absorb (fun S X => hash1block S g.H X) (fun i => mem (inp + i)) len 0 S
    let X := put64 (BitVec.ofNat 64 (aad.length * 8)) ++ put64 (BitVec.ofNat 64 (len * 8))
    let S := hash1block S g.H X
    let X := g.enc J0
    let X := List.zipWith (· ^^^ ·) X S
    let b := (List.range T.length).foldl (fun (b : BitVec 32) i => b ||| (T.getD i 0 ^^^ (if i < 16 then X.getD i 0 else 0)).setWidth 32) 0#32
    if b ≠ 0#32 then (false, mem)
    else (true, decLoop g len inp out 0 J0 mem)

end Gcm
