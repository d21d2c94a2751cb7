import Verif.Model.Blake2

/-!
# Model of `src/2-hash/blake3.c`

Host is little-endian.  Job scheduling: `tc->enqueue` hands a leaf to some thread and `tc->wait` returns
when all are done (properties C41, C42); a job reads `x->k`, `x->keyed`, `x->finalize` and reads and writes
its own node only, so an execution is a sequential order of the jobs; the order is chosen by an arbitrary
`sched`.
-/

namespace Blake3
abbrev Byte := BitVec 8
abbrev Word := BitVec 32

/-- `blake3.c:8-12`. -/
def CHUNK_START : Word := 1#32 <<< 0
def CHUNK_END : Word := 1#32 <<< 1
def PARENT : Word := 1#32 <<< 2
def ROOT : Word := 1#32 <<< 3
def KEYED_HASH : Word := 1#32 <<< 4

/-- `IV0..IV7`, `blake-common.c.h:19-26`. -/
def IV : List Word :=
  [0x6a09e667, 0xbb67ae85, 0x3c6ef372, 0xa54ff53a, 0x510e527f, 0x9b05688c, 0x1f83d9ab, 0x5be0cd19]

/-- `tab`, `blake3.c:99-100`. -/
def tab : List Nat := [2, 6, 3, 10, 7, 0, 4, 13, 1, 11, 12, 5, 9, 14, 15, 8]

/-- `blake3_compress`, `blake3.c:89-132`.  `inner_block_word` (`blake3.c:73-87`) is the same text as in
`blake2.c`.  `h` is read in its first 8 words and written in all 16. -/
def compress (h : List Word) (m : List Byte) (t : BitVec 64) (b d : Word) : List Word :=
  let v := (List.range 8).map (fun i => h.getD i 0) ++
    [IV.getD 0 0, IV.getD 1 0, IV.getD 2 0, IV.getD 3 0, t.setWidth 32, (t >>> 32).setWidth 32, b, d]
  let (v, _) := (List.range 7).foldl (fun (vl : List Word × List Nat) _ =>
    (Blake2.innerBlock Blake2.prmS vl.1 m vl.2, vl.2.map fun l => tab.getD l 0)) (v, List.range 16)
  (List.range 8).map (fun i => v.getD i 0 ^^^ v.getD (i + 8) 0) ++
  (List.range 8).map (fun i => h.getD i 0 ^^^ v.getD (i + 8) 0)

/-- Storing 32-bit words in memory (little-endian host). -/
def wordBytes (ws : List Word) : List Byte :=
  ws.flatMap fun (w : Word) => [w.setWidth 8, (w >>> 8).setWidth 8, (w >>> 16).setWidth 8, (w >>> 24).setWidth 8]

/-- `blake3_node_t`, `blake3.h:11-21`; `me` (the node's own array index) is not modelled: jobs are given
the index. -/
structure Node where
  hashed : Bool
  height : Nat
  remain : Nat
  d : Word
  t : BitVec 64
  buf : List Byte
deriving Inhabited

/-- `blake3_t`, `blake3.h:36-60`. -/
structure Ctx where
  k : List Word
  t : BitVec 64
  keyed : Bool
  finalize : Bool
  lf : Nat               -- leaves_filled
  bf : Nat               -- branches_filled
  nind : List Nat
  nodes : List Node

/-- `BLAKE3_NODES_COUNT`, `blake3.h:31`. -/
def NODES : Nat := 65

/-- `init1node`, `blake3.c:14-29`; `t` keeps its value. -/
def init1node (keyed : Bool) (n : Node) : Node :=
  { n with hashed := false, height := 0, remain := 0, d := if keyed then KEYED_HASH else 0,
           buf := List.replicate 1024 0 }

/-- `BLAKE3_Init`, `blake3.c:31-49`; `junk` is what the memory of the nodes held. -/
def init (junk : List Node) : Ctx :=
  { k := List.replicate 8 0, t := 0, keyed := false, finalize := false, lf := 0, bf := 0,
    nind := List.range NODES, nodes := junk.map (init1node false) }

/-- `BLAKE3_KInit`, `blake3.c:51-71`; NULL is `none`. -/
def kinit (junk : List Node) (key : List Byte) : Option Ctx :=
  if key.length ≠ 32 then none
  else some
    { k := (List.range 8).map fun i => Blake2.loadWord 32 key i, t := 0, keyed := true, finalize := false,
      lf := 0, bf := 0, nind := List.range NODES, nodes := junk.map (init1node true) }

section
variable (comp : List Word → List Byte → BitVec 64 → Word → Word → List Word)

/-- The loop of `hash1node`, `blake3.c:149-178`, from counter `t` on: the chaining words, the node, and
whether it left through `goto finish` (then with the chaining words copied to `x->k`). -/
def hashLoop (finalize : Bool) : (fuel t : Nat) → List Word → Node → List Word × Node × Bool
  | 0, _, h, n => (h, n, false)
  | fuel + 1, t, h, n =>
    let d := n.d
    let b := 64
    let d := if t = 0 ∧ n.height = 0 then d ||| CHUNK_START else d
    let d := if n.height > 0 then d ||| PARENT else d
    let b := if n.remain < b then n.remain else b
    let d := if n.remain ≤ 64 ∧ n.height = 0 then d ||| CHUNK_END else d
    if n.remain ≤ 64 ∧ finalize then
      (h, { n with remain := n.remain + t * 64, d := d ||| ROOT }, true)
    else
      let h := comp h ((n.buf.drop (t * 64)).take 64) n.t (BitVec.ofNat 32 b) d
      let n := { n with remain := n.remain - b }
      if n.remain = 0 then (h, n, false) else hashLoop finalize fuel (t + 1) h n

/-- `hash1node`, `blake3.c:134-185`: the new `x->k` and the new node. -/
def hashNode (k : List Word) (keyed finalize : Bool) (n : Node) : List Word × Node :=
  let h := (if keyed then k else IV) ++ List.replicate 8 0
  match hashLoop comp finalize 16 0 h n with
  | (h, n, true) => (h.take 8, n)
  | (h, n, false) => (k, { n with buf := wordBytes (h.take 16) ++ n.buf.drop 64 })

/-- The node in place `i` of the order: `x->nodes + x->nind[i]`. -/
def node (x : Ctx) (i : Nat) : Node := x.nodes.getD (x.nind.getD i 0) default

/-- Writing the node in place `i`. -/
def setNode (x : Ctx) (i : Nat) (n : Node) : Ctx := { x with nodes := x.nodes.set (x.nind.getD i 0) n }

/-- `commit1parent`, `blake3.c:228-232`. -/
def commit (x : Ctx) (i : Nat) : Ctx :=
  let (k, n) := hashNode comp x.k x.keyed x.finalize (node x i)
  { setNode x i { n with hashed := true } with k := k }

/-- `job_hash1leaf`, `chunk2leaf`, `blake3.c:187-192`, `:234-242`, on the node with array index `p`. -/
def job (x : Ctx) (p : Nat) : Ctx :=
  let (k, n) := hashNode comp x.k x.keyed x.finalize (x.nodes.getD p default)
  { x with k := k, nodes := x.nodes.set p { n with hashed := true, height := 0 } }

/-- `bury1node`, `blake3.c:194-207`. -/
def bury (x : Ctx) (ni : Nat) : Ctx :=
  { x with nind := x.nind.take ni ++ x.nind.drop (ni + 1) ++ [x.nind.getD ni 0] }

/-- `join2nodes`, `blake3.c:209-226`. -/
def join (x : Ctx) (li : Nat) : Ctx :=
  let n1 := node x li
  let n2 := node x (li + 1)
  setNode x li { hashed := false, height := n1.height + 1, remain := 64,
                 d := if x.keyed then KEYED_HASH else 0, t := 0,
                 buf := n1.buf.take 32 ++ n2.buf.take 32 ++ n1.buf.drop 64 }

/-- `while( node->remain < 1024 ) { node->buf.u8[node->remain++] = *inPtr++; if( --inLen == 0 ) break; }`,
`blake3.c:268-272`. -/
def fillNode : Node → List Byte → Node × List Byte
  | n, [] => (n, [])
  | n, b :: ds =>
    if n.remain < 1024 then fillNode { n with buf := n.buf.set n.remain b, remain := n.remain + 1 } ds
    else (n, b :: ds)

theorem fillNode_length (ds : List Byte) : ∀ n : Node, (fillNode n ds).2.length ≤ ds.length := by
  induction ds with
  | nil => intro n; simp [fillNode]
  | cons b ds ih =>
    intro n
    unfold fillNode
    split
    · exact Nat.le_trans (ih _) (by simp)
    · simp

/-- `update_fill`, `blake3.c:244-276`: returns the unconsumed data.  A node with `remain > 1024` (excluded
by the `assert`) ends the loop. -/
def updateFill (x : Ctx) (i : Nat) (data : List Byte) : Ctx × List Byte :=
  match data with
  | [] => (x, [])
  | b :: ds =>
    if i < NODES then
      let n := node x i
      if n.remain = 1024 then
        updateFill { setNode x i { n with t := x.t } with t := x.t + 1, lf := x.lf + 1 } (i + 1) (b :: ds)
      else if n.remain < 1024 then
        -- the first byte, then the rest of the inner loop
        let r := fillNode { n with buf := n.buf.set n.remain b, remain := n.remain + 1 } ds
        updateFill (setNode x i r.1) i r.2
      else (x, b :: ds)
    else (x, b :: ds)
termination_by (data.length, NODES - i)
decreasing_by
  · apply Prod.Lex.right; omega
  · apply Prod.Lex.left
    have := fillNode_length ds
      { node x i with buf := (node x i).buf.set (node x i).remain b, remain := (node x i).remain + 1 }
    exact Nat.lt_of_le_of_lt this (by simp)

/-- One merge of `update_climb`, `blake3.c:293-306`. -/
def merge (x : Ctx) (i : Nat) : Ctx :=
  let x := if !(node x i).hashed then commit comp x i else x
  let x := if !(node x (i + 1)).hashed then commit comp x (i + 1) else x
  let x := join x i
  let x := setNode x (i + 1) (init1node x.keyed (node x (i + 1)))
  bury x (i + 1)

/-- The loop of `update_climb`, `blake3.c:286-316`. -/
def climbLoop (x : Ctx) (i : Nat) : Ctx :=
  if i + 1 < x.bf then
    if (node x i).height = (node x (i + 1)).height then
      let y := merge comp x i
      let y := if i > 0 ∨ y.bf > 2 then commit comp y i else y
      climbLoop { y with bf := x.bf - 1 } 0
    else climbLoop x (i + 1)
  else x
termination_by (x.bf, x.bf - i)
decreasing_by
  · apply Prod.Lex.left; omega
  · apply Prod.Lex.right; omega

/-- `update_climb`, `blake3.c:278-319`. -/
def updateClimb (x : Ctx) : Ctx := climbLoop comp { x with bf := x.bf + x.lf, lf := 0 } 0

variable (sched : Ctx → List Nat → List Nat)

/-- `update_1bat2tc`, `blake3.c:321-340`. -/
def updateBat (x : Ctx) : Ctx :=
  let jobs := ((List.range x.lf).map fun j => x.bf + j).takeWhile fun i => (node x i).remain = 1024
  let x := (sched x (jobs.map fun i => x.nind.getD i 0)).foldl (job comp) x
  updateClimb comp x

/-- `BLAKE3_Update4`, `blake3.c:342-360`. -/
def update (x : Ctx) (data : List Byte) : Ctx :=
  let r := updateFill x (x.bf + x.lf) data
  let y := updateBat comp sched r.1
  if r.2.length < data.length then update y r.2 else y
termination_by data.length

/-- The merging loop of `final_climb`, `blake3.c:370-384`: `while( --i > 0 )` entered with `i`. -/
def finalMerge (x : Ctx) : (i : Nat) → Ctx
  | 0 => x
  | i + 1 =>
    if i > 0 then
      let y := merge comp x i
      let y := commit comp y i
      finalMerge { y with bf := y.bf - 1 } i
    else x

/-- `final_climb`, `blake3.c:362-413`. -/
def finalClimb (x : Ctx) : Ctx :=
  let x := updateClimb comp x
  let x := finalMerge comp x (x.bf - 1)
  let x := if x.bf = 2 then merge comp x 0 else x
  if !(node x 0).hashed then
    let y := commit comp { x with finalize := true } 0
    { y with bf := y.bf - 1 }
  else x

/-- The loop of `final_1bat2tc`, `blake3.c:421-448`: collects the jobs. -/
def finalCollect (x : Ctx) (i : Nat) : (fuel : Nat) → Ctx × List Nat
  | 0 => (x, [])
  | fuel + 1 =>
    let n := node x i
    if n.remain = 0 ∧ i > 0 then (x, [])
    else
      let x := if n.remain ≤ 1024 ∧ x.bf = 0 ∧ x.lf = 0 then { x with finalize := true } else x
      let p := x.nind.getD i 0
      let x := { setNode x i { n with t := x.t } with t := x.t + 1, lf := x.lf + 1 }
      let (x, js) := finalCollect x (i + 1) fuel
      (x, p :: js)

/-- `final_1bat2tc`, `blake3.c:415-451`. -/
def finalBat (x : Ctx) : Ctx :=
  let (x, js) := finalCollect x x.bf (NODES - x.bf)
  finalClimb comp ((sched x js).foldl (job comp) x)

/-- `BLAKE3_Final2`, `blake3.c:453-460`. -/
def final (x : Ctx) : Ctx := if x.finalize then x else { finalBat comp sched x with t := 0 }

/-- The output loop of `BLAKE3_Read4`, `blake3.c:490-507`; `blk` is the unread part of the block held in
`h`, or `none` before it has been computed. -/
def readLoop (x : Ctx) (n : Node) (s b : Nat) : (len : Nat) → Option (List Byte) → List Byte × Ctx
  | 0, _ => ([], x)
  | len + 1, blk =>
    let blk := if x.t % 64 = 0 ∨ blk = none then
        (wordBytes (comp (x.k ++ List.replicate 8 0) ((n.buf.drop s).take 64) (x.t / 64)
          (BitVec.ofNat 32 b) n.d)).drop (x.t % 64).toNat
      else blk.getD []
    let (o, y) := readLoop { x with t := x.t + 1 } n s b len (some blk.tail)
    (blk.headD 0 :: o, y)

/-- `BLAKE3_Read4`, `blake3.c:462-508`. -/
def read (x : Ctx) (len : Nat) (rewind : Bool) : List Byte × Ctx :=
  let n := node x 0
  let b := n.remain % 64              -- remain & 63
  let s := n.remain - b               -- remain ^ b
  let (b, s) := if b = 0 ∧ s > 0 then (64, s - 64) else (b, s)
  let x := if rewind then { x with t := 0 } else x
  readLoop comp x n s b len none

end

end Blake3
