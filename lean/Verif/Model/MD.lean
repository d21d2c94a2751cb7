import Verif.Spec.Words

/-!
# Model of `src/2-hash/sha.c` and `src/2-hash/sm3.c`

The four streaming engines (SHA-1, SHA-224/256, SHA-384/512/512t, SM3) are textually the same code over a block of
16 words; they differ in the word size `w` (4 or 8 bytes), the compression function, the bytes of the
chaining value and the digest length, which are the fields of `Alg`.
-/

namespace MD
abbrev Byte := BitVec 8

/-- What distinguishes one hash from another. `comp` takes the 16-word block as its `16*w` bytes
(the compression functions start with `be32toh`/`be64toh` of the words). -/
structure Alg (σ : Type) where
  w : Nat                       -- sizeof(uint32_t) or sizeof(uint64_t)
  comp : σ → List Byte → σ      -- compressfunc_*
  out : σ → List Byte           -- the bytes of htobe(H[i]) in order
  H0 : σ                        -- initial value set by *_Init
  hlen : Nat                    -- digest length

/-- `sha1_t`, `sha256_t`, `sha512_t` (`sha.h:11-62`), `sm3_t`. -/
structure Ctx (σ : Type) where
  finalized : Bool
  filled : Nat
  len : BitVec 64
  H : σ
  msg : List Byte

variable {σ : Type} (A : Alg σ)

/-- `*_Init`, `sha.c:9-19`, `:157-170`, `:186-199`, `:281-294`, `:310-323`, `:339-352`, `:368-381`,
`sm3.c:70-83`.  `Msg8` is left uninitialised by the code: `junk`. -/
def init (junk : List Byte) : Ctx σ :=
  { finalized := false, filled := 0, len := 0, H := A.H0, msg := junk }

/-- The body of the `while(len)` loop of the `*_Update` functions, `sha.c:31-40`, `:104-113`,
`:227-236`, `sm3.c:17-26`. -/
def pushByte (s : Ctx σ) (b : Byte) : Ctx σ :=
  let s := { s with msg := s.msg.set s.filled b, filled := s.filled + 1 }
  if s.filled = 16 * A.w then { s with H := A.comp s.H s.msg, filled := 0 } else s

/-- `*_Update`, `sha.c:21-43`, `:94-116`, `:217-239`, `sm3.c:7-29`. -/
def update (s : Ctx σ) (data : List Byte) : Ctx σ :=
  let s := data.foldl (pushByte A) s
  { s with len := s.len + BitVec.ofNat 64 data.length * 8#64 }

/-- `while( filled < sizeof(Msg8) ) Msg8[filled++] = 0;`, `n` iterations from `filled`. -/
def zeroLoop : (n filled : Nat) → List Byte → List Byte
  | 0, _, msg => msg
  | n + 1, filled, msg => zeroLoop n (filled + 1) (msg.set filled 0)

/-- Write bytes at an offset (`Msg32[14] = ..; Msg32[15] = ..;`). -/
def writeAt (msg : List Byte) (off : Nat) : List Byte → List Byte
  | [] => msg
  | b :: bs => writeAt (msg.set off b) (off + 1) bs

/-- Bytes of a big-endian 64-bit word. -/
def be64 (v : BitVec 64) : List Byte := (List.range 8).map fun i => (v >>> (8 * (7 - i))).setWidth 8

/-- The two words written at index 14 and 15: `htobe32(len >> 32), htobe32(len)` (`sha.c:77-78`,
`:149-150`, `sm3.c:62-63`) or `htobe64(0), htobe64(len)` (`sha.c:272-273`). -/
def lenField (w : Nat) (len : BitVec 64) : List Byte :=
  if w = 4 then be64 len else List.replicate 8 0 ++ be64 len

/-- `SHA1_Final` up to the label `finalized`, `sha256_final`, `sha512_final`, `sm3_final`:
`sha.c:55-82`, `:127-154`, `:250-278`, `sm3.c:40-67`. -/
def final (s : Ctx σ) : Ctx σ :=
  if s.finalized then s
  else
    let B := 16 * A.w
    let s :=
      if s.filled / A.w ≥ 14 then
        let msg := zeroLoop (B - (s.filled + 1)) (s.filled + 1) (s.msg.set s.filled 0x80)
        let H := A.comp s.H msg
        { s with H := H, msg := zeroLoop B 0 msg, filled := 0 }
      else
        { s with msg := zeroLoop (B - (s.filled + 1)) (s.filled + 1) (s.msg.set s.filled 0x80), filled := 0 }
    let msg := writeAt s.msg (14 * A.w) (lenField A.w s.len)
    let H := A.comp s.H msg
    { s with H := H, msg := writeAt msg 0 (A.out H), finalized := true }

/-- `*_Final(sha, out, t)` with non-NULL `out`: `sha.c:84-89`, `:172-184` and the like. -/
def finalOut (s : Ctx σ) (t : Nat) : List Byte × Ctx σ :=
  let s := final A s
  ((List.range t).map fun i => if i < A.hlen then s.msg.getD i 0 else 0, s)

end MD
