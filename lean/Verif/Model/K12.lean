import Verif.Model.Sponge

/-!
# Model of `src/2-hash/KangarooTwelve.c` (KT128 / KangarooTwelve, KT256, MarsupilamiFourteen)

The permutation (12 or 14 rounds) is a parameter.  Job scheduling: `tc->enqueue` hands a node to some thread and `tc->wait`
returns when all are done (C41, C42) and runs the callback; a job reads the rate and reads and writes its own node only, so an
execution is a sequential order of the jobs, chosen by an arbitrary `sched`.  The 64-bit counters `total`, `clen` are
natural numbers (inputs below 2^64 bytes); the inner nodes are a function of the index, of which 0..63 exist.
-/
namespace K12
open Sponge (update final read)
abbrev Byte := BitVec 8

/-- `K12_NODES_COUNT`, `KangarooTwelve.h:36`. -/
def NODES : Nat := 64

/-- `k12_inner_node_t`, `KangarooTwelve.h:23-28`; `me` is the index, `hashed` is never read. -/
structure Node where
  filled : Nat
  buf : List Byte

/-- A cleared buffer, `KangarooTwelve.h:27`. -/
@[irreducible] def zeroBuf : List Byte := List.replicate 8192 0

/-- A cleared node (`memset`, `*x = (k12_inner_node_t){...}`), `KangarooTwelve.c:63-82`, `:127-138`. -/
def Node.empty : Node := { filled := 0, buf := zeroBuf }

/-- `K12_Ctx_t`, `KangarooTwelve.h:41-54`. -/
structure Ctx where
  inodes : Nat → Node
  fin : Sponge.Ctx
  total : Nat
  clen : Nat
  ifilled : Nat
  finalized : Bool

/-- `KT_Init`, `KangarooTwelve.c:63-82` (rate 168, 136), `MarsupilamiFourteen_Init`, `:94-113` (rate 136). -/
def init (rate : Nat) : Ctx :=
  { inodes := fun _ => Node.empty, fin := Sponge.init rate 0x07 0x80 200, total := 0, clen := 0, ifilled := 0, finalized := false }

def Ctx.setNode (x : Ctx) (t : Nat) (n : Node) : Ctx := { x with inodes := fun i => if i = t then n else x.inodes i }

section
variable (perm : List Byte → List Byte)

/-- `hash1inode_nr12`, `hash1inode_nr14`, `KangarooTwelve.c:15-51`. -/
def hashNode (rate : Nat) (n : Node) : Node :=
  let cvsize := 200 - rate
  let p := Sponge.init rate 0x0B 0x80 200
  let p := update perm p (n.buf.take n.filled)
  let p := final perm p
  let cv := (read perm p cvsize).1
  { filled := cvsize, buf := cv ++ n.buf.drop cvsize }

/-- `job_leaf2cv`, `KangarooTwelve.c:115-125`. -/
def job (x : Ctx) (t : Nat) : Ctx := x.setNode t (hashNode perm x.fin.rate (x.inodes t))

/-- `cv2final`, `KangarooTwelve.c:127-138`. -/
def cv2final (x : Ctx) : Ctx :=
  let x := (List.range x.ifilled).foldl (fun x t =>
    ({ x with fin := update perm x.fin ((x.inodes t).buf.take (x.inodes t).filled) }).setNode t Node.empty) x
  { x with ifilled := 0 }

variable (sched : Ctx → List Nat → List Nat)

/-- Enqueuing the filled nodes and waiting, `KangarooTwelve.c:184-190`, `:234-240`. -/
def flush (x : Ctx) : Ctx := cv2final perm ((sched x (List.range x.ifilled)).foldl (job perm) x)

/-- The body of the last loop of `K12_Update4`, `KangarooTwelve.c:165-192`. -/
def pushByte (x : Ctx) (b : Byte) : Ctx :=
  let n := x.inodes x.ifilled
  let n := { n with buf := n.buf.set n.filled b, filled := n.filled + 1 }
  let x := { x.setNode x.ifilled n with total := x.total + 1 }
  let x := if n.filled = 8192 then { x with ifilled := x.ifilled + 1 } else x
  if x.ifilled = NODES then flush perm sched x else x

/-- `K12_Update4`, `KangarooTwelve.c:140-194`.  The first loop runs at most once: it stops when the data or the 8192 bytes are used up. -/
def update4 (x : Ctx) (data : List Byte) : Ctx :=
  let ulen := if data.length + x.total > 8192 then 8192 - x.total else data.length
  let (x, data) := if data.length ≠ 0 ∧ x.total < 8192 then
      ({ x with fin := update perm x.fin (data.take ulen), total := x.total + ulen }, data.drop ulen)
    else (x, data)
  let x := if data.length ≠ 0 ∧ x.total = 8192 then
      { x with fin := update perm { x.fin with lopad := 0x06 } [0x03, 0, 0, 0, 0, 0, 0, 0] }
    else x
  data.foldl (pushByte perm sched) x

/-- `K12_Xctrl(x, K12_cmd_Feed_CStr, ...)`, `KangarooTwelve.c:301-304`. -/
def feedC (x : Ctx) (data : List Byte) : Ctx := update4 perm sched { x with clen := x.clen + data.length } data

/-- `while( l < 8 && n >= (1 << (l << 3)) ) l++;`, `KangarooTwelve.c:214`, `:245`: shifting the `int` 1 by more than 30 is undefined (`none`). -/
def encLen (n : Nat) : (fuel l : Nat) → Option Nat
  | 0, l => some l
  | fuel + 1, l => if l < 8 then (if l * 8 ≤ 30 then (if n ≥ 2 ^ (l * 8) then encLen n fuel (l + 1) else some l) else none) else some l

/-- The bytes written by `KangarooTwelve.c:216-221`, `:247-252`. -/
def encode (n : Nat) : Option (List Byte) :=
  (encLen n 8 0).map fun l => (List.range l).map (fun i => BitVec.ofNat 8 (n / 2 ^ ((l - 1 - i) * 8))) ++ [BitVec.ofNat 8 l]

/-- `K12_Final2`, `KangarooTwelve.c:196-270`; the bytes of the first encoding are passed one call at a time. -/
def final2 (x : Ctx) : Option Ctx := do
  if x.finalized then return x
  let e ← encode x.clen
  let x := e.foldl (fun x c => update4 perm sched x [c]) x
  let x ← if x.total ≤ 8192 then pure x else do
    let x := if (x.inodes x.ifilled).filled > 0 then { x with ifilled := x.ifilled + 1 } else x
    let x := flush perm sched x
    let e ← encode ((x.total + 8191) / 8192 - 1)
    let x := e.foldl (fun (x : Ctx) c => { x with fin := update perm x.fin [c] }) x
    let x := { x with fin := update perm x.fin [0xff] }
    pure { x with fin := update perm x.fin [0xff] }
  let x := { x with fin := final perm x.fin }
  let n := x.inodes 0
  let x := x.setNode 0 { n with buf := x.fin.state ++ n.buf.drop 200 }
  return { x with finalized := true }

/-- `K12_Read4`, `KangarooTwelve.c:272-289`. -/
def read4 (x : Ctx) (len : Nat) (rewind : Bool) : List Byte × Ctx :=
  let x := if rewind then { x with fin := { x.fin with state := (x.inodes 0).buf.take 200, filled := 0 } } else x
  let (out, s) := read perm x.fin len
  (out, { x with fin := s })

end
end K12
