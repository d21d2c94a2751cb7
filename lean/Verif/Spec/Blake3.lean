import Verif.Spec.Blake2

/-!
# Specification: BLAKE3 (after the BLAKE3 paper, sections 2.1-2.6)

Plain and keyed hashing with extendable output, written recursively over the message.
-/

namespace Spec.Blake3
abbrev Byte := BitVec 8
abbrev Word := BitVec 32

def CHUNK_START : Word := 1
def CHUNK_END : Word := 2
def PARENT : Word := 4
def ROOT : Word := 8
def KEYED_HASH : Word := 16

def IV : List Word :=
  [0x6A09E667, 0xBB67AE85, 0x3C6EF372, 0xA54FF53A, 0x510E527F, 0x9B05688C, 0x1F83D9AB, 0x5BE0CD19]

/-- The permutation applied to the message words after each round. -/
def PERM (i : Nat) : Nat :=
  ([2, 6, 3, 10, 7, 0, 4, 13, 1, 11, 12, 5, 9, 14, 15, 8] : List Nat).getD i 0

/-- The message words as seen in round `r`: `m` permuted `r` times. -/
def permuted (m : Nat → Word) : Nat → Nat → Word
  | 0 => m
  | r + 1 => fun i => permuted m r (PERM i)

/-- One round: the mixing function on the columns, then on the diagonals. -/
def round (m : Nat → Word) (v : Nat → Word) : Nat → Word :=
  let cols := (List.range 4).foldl (fun v i =>
    Blake2.G Blake2.blake2s v i (4 + i) (8 + i) (12 + i) (m (2 * i)) (m (2 * i + 1))) v
  (List.range 4).foldl (fun v i =>
    Blake2.G Blake2.blake2s v i (4 + (i + 1) % 4) (8 + (i + 2) % 4) (12 + (i + 3) % 4)
      (m (8 + 2 * i)) (m (8 + 2 * i + 1))) cols

/-- The compression function, section 2.2: 16 output words. -/
def compress (h : List Word) (block : List Byte) (t : BitVec 64) (b d : Word) : List Word :=
  let v0 : Nat → Word := fun i =>
    if i < 8 then h.getD i 0
    else if i < 12 then IV.getD (i - 8) 0
    else if i = 12 then t.setWidth 32
    else if i = 13 then (t >>> 32).setWidth 32
    else if i = 14 then b
    else d
  let v := (List.range 7).foldl (fun v r => round (permuted (Blake2.leWord 32 block) r) v) v0
  (List.range 16).map fun i => if i < 8 then v i ^^^ v (i + 8) else v i ^^^ h.getD (i - 8) 0

/-- Little-endian bytes of words. -/
def leBytes (ws : List Word) : List Byte :=
  ws.flatMap fun w => (List.range 4).map fun j => BitVec.ofNat 8 (w.toNat / 256 ^ j)

section tree
-- everything below is independent of the compression function
variable (comp : List Word → List Byte → BitVec 64 → Word → Word → List Word)

/-- The last compression of a node, not yet carried out: it is done without the ROOT flag to obtain the
chaining value, or with it, once per output block, for the root. -/
structure Output where
  cv : List Word
  block : List Byte
  counter : Nat
  blen : Nat
  flags : Word

def Output.chainingValue (o : Output) : List Word :=
  (comp o.cv o.block (BitVec.ofNat 64 o.counter) (BitVec.ofNat 32 o.blen) o.flags).take 8

/-- Byte `j` of the extendable output. -/
def Output.rootByte (o : Output) (j : Nat) : Byte :=
  (leBytes (comp o.cv o.block (BitVec.ofNat 64 (j / 64)) (BitVec.ofNat 32 o.blen) (o.flags ||| ROOT))).getD (j % 64) 0

variable (key : List Word) (mode : Word)

/-- A chunk (at most 1024 bytes), section 2.4: all blocks but the last are compressed in a chain. -/
def chunkOutput (c : List Byte) (t : Nat) : Output :=
  let blks := initBlocks 64 c
  let last := lastBlock 64 c
  { cv := blks.zipIdx.foldl (fun h p =>
      (comp h p.1 (BitVec.ofNat 64 t) 64 (mode ||| if p.2 = 0 then CHUNK_START else 0)).take 8) key,
    block := last ++ List.replicate (64 - last.length) 0,
    counter := t,
    blen := last.length,
    flags := mode ||| (if blks = [] then CHUNK_START else 0) ||| CHUNK_END }

/-- A parent node, section 2.5. -/
def parentOutput (l r : List Word) : Output :=
  { cv := key, block := leBytes l ++ leBytes r, counter := 0, blen := 64, flags := mode ||| PARENT }

/-- Size of the left subtree: the largest power of two of whole chunks that leaves at least one byte. -/
def leftLen (n : Nat) : Nat := 1024 * 2 ^ Nat.log2 ((n - 1) / 1024)

theorem leftLen_pos (n : Nat) : 0 < leftLen n := Nat.mul_pos (by decide) (Nat.pow_pos (by decide))

theorem leftLen_lt (n : Nat) (h : 1024 < n) : leftLen n < n := by
  unfold leftLen
  have h1 : (n - 1) / 1024 ≠ 0 := by omega
  have := Nat.log2_self_le h1
  omega

/-- The tree over a message whose first chunk has index `t`. -/
def output (m : List Byte) (t : Nat) : Output :=
  if h : m.length ≤ 1024 then chunkOutput comp key mode m t
  else
    parentOutput key mode
      ((output (m.take (leftLen m.length)) t).chainingValue comp)
      ((output (m.drop (leftLen m.length)) (t + leftLen m.length / 1024)).chainingValue comp)
termination_by m.length
decreasing_by
  · rw [List.length_take]
    have := leftLen_lt m.length (by omega)
    omega
  · rw [List.length_drop]
    have := leftLen_lt m.length (by omega)
    have := leftLen_pos m.length
    omega

/-- Byte `j` of the BLAKE3 output for a message. -/
def xofByte (m : List Byte) (j : Nat) : Byte := (output comp key mode m 0).rootByte comp j

/-- Reading pieces of an output stream `f` from position `pos` on: each read has a length and says whether it
starts over from the beginning. -/
def readStream (f : Nat → Byte) : Nat → List (Nat × Bool) → List (List Byte)
  | _, [] => []
  | pos, (n, rewind) :: rest =>
    (List.range n).map (fun j => f ((if rewind then 0 else pos) + j)) ::
      readStream f ((if rewind then 0 else pos) + n) rest

end tree

end Spec.Blake3
