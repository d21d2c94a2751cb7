import Verif.Model.K12
import Verif.Model.Blake3

/-!
# Model of the users of a thread crew under every interleaving, and of `src/1-oslib/TCrew-Stub.c`

`tc->enqueue` may run the job at any time before `tc->wait` returns from waiting, on any thread, while the caller goes on enqueuing
(`TCrew-common.h:13-45`).  A batch is: the loop of the caller, whose round `i` changes the context and hands over one job, and the
jobs.  A job is two steps: it reads what it depends on and computes (`start`), and it writes its result (`finish`); between the two
anything else may happen.  What a job reads and writes is its own node, and shared fields of the context which `start` and `finish`
mention.

The models of `K12_Update4`, `BLAKE3_Update4` and so on in `Model/K12.lean` and `Model/Blake3.lean` enqueue first and run afterwards; here
the same functions are relations, with the interleaving left open.
-/

namespace CrewExec
variable {σ ρ : Type}

/-- The executions of one batch from context `x`, with the loop before its round `i`, the jobs `q` waiting and the jobs `r` begun (with what
they are going to write), up to the context at which the waiting ends. -/
inductive Exec (next : σ → Nat → Option (σ × Nat)) (start : σ → Nat → ρ) (finish : σ → Nat → ρ → σ) :
    σ → Nat → List Nat → List (Nat × ρ) → σ → Prop
  /-- the caller runs one round of its loop and enqueues -/
  | enqueue {x x' y : σ} {i j : Nat} {q : List Nat} {r : List (Nat × ρ)} (h : next x i = some (x', j))
      (t : Exec next start finish x' (i + 1) (j :: q) r y) : Exec next start finish x i q r y
  /-- some thread takes any waiting job -/
  | begin {x y : σ} {i j : Nat} {q₁ q₂ : List Nat} {r : List (Nat × ρ)}
      (t : Exec next start finish x i (q₁ ++ q₂) ((j, start x j) :: r) y) : Exec next start finish x i (q₁ ++ j :: q₂) r y
  /-- a thread completes any job begun -/
  | done {x y : σ} {i j : Nat} {a : ρ} {q : List Nat} {r₁ r₂ : List (Nat × ρ)}
      (t : Exec next start finish (finish x j a) i q (r₁ ++ r₂) y) : Exec next start finish x i q (r₁ ++ (j, a) :: r₂) y
  /-- the loop is over and so are all jobs: `wait` stops blocking -/
  | wait {x : σ} {i : Nat} (h : next x i = none) : Exec next start finish x i [] [] x

/-! ## The stub -/

/-- `TCrew_Stub_Task_Enqueue`, `TCrew-Stub.c:15-23`, which is both `enqueue` and `wait` (`:11-12`, `:25-28`): the context after the call and
the returned value.  `none` is a NULL function. -/
def stubTask (func : Option (σ → σ)) (x : σ) : σ × Int := (match func with | some f => f x | none => x, 0)

/-- A batch on the stub. -/
def stub (next : σ → Nat → Option (σ × Nat)) (start : σ → Nat → ρ) (finish : σ → Nat → ρ → σ) : (fuel : Nat) → σ → Nat → Option σ
  | 0, _, _ => none
  | f + 1, x, i => match next x i with
    | none => some x
    | some (x', j) => stub next start finish f (stubTask (some fun x => finish x j (start x j)) x').1 (i + 1)

/-! ## KangarooTwelve -/

section
open K12
variable (perm : List K12.Byte → List K12.Byte)

/-- `for(t=0; t<x->inodes_filled; t++) tc->enqueue(tc, job_leaf2cv, x->inodes + t)`, `KangarooTwelve.c:181-187`, `:229-233`. -/
def k12Next (x : K12.Ctx) (t : Nat) : Option (K12.Ctx × Nat) := if t < x.ifilled then some (x, t) else none

/-- What `job_leaf2cv` computes from the rate and its node, `KangarooTwelve.c:115-125`. -/
def k12Start (x : K12.Ctx) (t : Nat) : K12.Node := K12.hashNode perm x.fin.rate (x.inodes t)

/-- What it writes. -/
def k12Finish (x : K12.Ctx) (t : Nat) (n : K12.Node) : K12.Ctx := x.setNode t n

/-- Enqueuing, waiting, and the callback of `wait`, `KangarooTwelve.c:181-189`, `:229-235`. -/
def K12Flush (x y : K12.Ctx) : Prop := ∃ z, Exec k12Next (k12Start perm) k12Finish x 0 [] [] z ∧ y = cv2final perm z

/-- The body of the last loop of `K12_Update4`, `KangarooTwelve.c:163-190`. -/
def K12Push (x : K12.Ctx) (b : K12.Byte) (y : K12.Ctx) : Prop :=
  let n := x.inodes x.ifilled
  let n := { n with buf := n.buf.set n.filled b, filled := n.filled + 1 }
  let x := { x.setNode x.ifilled n with total := x.total + 1 }
  let x := if n.filled = 8192 then { x with ifilled := x.ifilled + 1 } else x
  if x.ifilled = NODES then K12Flush perm x y else y = x

/-- A loop whose body is a relation. -/
inductive Steps {α β : Type} (R : α → β → α → Prop) : α → List β → α → Prop
  | nil {x : α} : Steps R x [] x
  | cons {x y z : α} {b : β} {l : List β} (h : R x b y) (t : Steps R y l z) : Steps R x (b :: l) z

/-- `K12_Update4`, `KangarooTwelve.c:138-192`. -/
def K12Update (x : K12.Ctx) (data : List K12.Byte) (y : K12.Ctx) : Prop :=
  let ulen := if data.length + x.total > 8192 then 8192 - x.total else data.length
  let p : K12.Ctx × List K12.Byte := if data.length ≠ 0 ∧ x.total < 8192 then
      ({ x with fin := Sponge.update perm x.fin (data.take ulen), total := x.total + ulen }, data.drop ulen)
    else (x, data)
  let x := if p.2.length ≠ 0 ∧ p.1.total = 8192 then
      { p.1 with fin := Sponge.update perm { p.1.fin with lopad := 0x06 } [0x03, 0, 0, 0, 0, 0, 0, 0] }
    else p.1
  Steps (K12Push perm) x p.2 y

/-- `K12_Xctrl(x, K12_cmd_Feed_CStr, ...)`, `KangarooTwelve.c:299-302`. -/
def K12Feed (x : K12.Ctx) (data : List K12.Byte) (y : K12.Ctx) : Prop := K12Update perm { x with clen := x.clen + data.length } data y

/-- The part of `K12_Final2` after the jobs, `KangarooTwelve.c:237-251`. -/
def k12Tail (x : K12.Ctx) : Option K12.Ctx := do
  let e ← encode ((x.total + 8191) / 8192 - 1)
  let x := e.foldl (fun (x : K12.Ctx) c => { x with fin := Sponge.update perm x.fin [c] }) x
  let x := { x with fin := Sponge.update perm x.fin [0xff] }
  pure { x with fin := Sponge.update perm x.fin [0xff] }

/-- `finish:` of `K12_Final2`, `KangarooTwelve.c:254-268`. -/
def k12Finish2 (x : K12.Ctx) : K12.Ctx :=
  let x := { x with fin := Sponge.final perm x.fin }
  let n := x.inodes 0
  let x := x.setNode 0 { n with buf := x.fin.state ++ n.buf.drop 200 }
  { x with finalized := true }

/-- `K12_Final2`, `KangarooTwelve.c:194-268`.  There is no `y` where the code shifts by too much (`encode`). -/
def K12Final (x y : K12.Ctx) : Prop :=
  if x.finalized then y = x else
  ∃ e x1, encode x.clen = some e ∧ Steps (fun x c => K12Update perm x [c]) x e x1 ∧
    if x1.total ≤ 8192 then y = k12Finish2 perm x1 else
    ∃ x2 x3, K12Flush perm (if (x1.inodes x1.ifilled).filled > 0 then { x1 with ifilled := x1.ifilled + 1 } else x1) x2 ∧
      k12Tail perm x2 = some x3 ∧ y = k12Finish2 perm x3

end

/-! ## BLAKE3 -/

section
open Blake3
variable (comp : List Word → List Blake3.Byte → BitVec 64 → Word → Word → List Word)

/-- What `job_hash1leaf` computes, `blake3.c:134-192`, `:228-237`: new chaining words for the context if it leaves through `finish`, and the node. -/
def b3Start (x : Blake3.Ctx) (p : Nat) : Option (List Word) × Blake3.Node :=
  let n := x.nodes.getD p default
  let h := (if x.keyed then x.k else IV) ++ List.replicate 8 0
  match hashLoop comp x.finalize 16 0 h n with
  | (h, n, true) => (some (h.take 8), { n with hashed := true, height := 0 })
  | (h, n, false) => (none, { n with buf := wordBytes (h.take 16) ++ n.buf.drop 64, hashed := true, height := 0 })

/-- What it writes. -/
def b3Finish (x : Blake3.Ctx) (p : Nat) (a : Option (List Word) × Blake3.Node) : Blake3.Ctx :=
  { x with k := a.1.getD x.k, nodes := x.nodes.set p a.2 }

/-- A round of the loop of `update_1bat2tc`, `blake3.c:320-329`; `i` is the place in the order. -/
def b3UpdNext (x : Blake3.Ctx) (i : Nat) : Option (Blake3.Ctx × Nat) :=
  if i < x.bf + x.lf then (if (node x i).remain = 1024 then some (x, x.nind.getD i 0) else none) else none

/-- A round of the loop of `final_1bat2tc`, `blake3.c:416-442`. -/
def b3FinNext (x : Blake3.Ctx) (i : Nat) : Option (Blake3.Ctx × Nat) :=
  if i < NODES then
    let n := node x i
    if n.remain = 0 ∧ i > 0 then none
    else
      let x := if n.remain ≤ 1024 ∧ x.bf = 0 ∧ x.lf = 0 then { x with finalize := true } else x
      some ({ setNode x i { n with t := x.t } with t := x.t + 1, lf := x.lf + 1 }, x.nind.getD i 0)
  else none

/-- `update_1bat2tc`, `blake3.c:313-332`. -/
def B3UpdBat (x y : Blake3.Ctx) : Prop :=
  ∃ z, Exec b3UpdNext (b3Start comp) b3Finish x x.bf [] [] z ∧ y = updateClimb comp z

/-- `BLAKE3_Update4`, `blake3.c:334-352`. -/
inductive B3Update : Blake3.Ctx → List Blake3.Byte → Blake3.Ctx → Prop
  | last {x y : Blake3.Ctx} {data : List Blake3.Byte} (h : B3UpdBat comp (updateFill x (x.bf + x.lf) data).1 y)
      (e : ¬ (updateFill x (x.bf + x.lf) data).2.length < data.length) : B3Update x data y
  | more {x y z : Blake3.Ctx} {data : List Blake3.Byte} (h : B3UpdBat comp (updateFill x (x.bf + x.lf) data).1 y)
      (e : (updateFill x (x.bf + x.lf) data).2.length < data.length) (t : B3Update y (updateFill x (x.bf + x.lf) data).2 z) : B3Update x data z

/-- `BLAKE3_Final2`, `final_1bat2tc`, `blake3.c:409-454`. -/
def B3Final (x y : Blake3.Ctx) : Prop :=
  if x.finalize then y = x else
  ∃ z, Exec b3FinNext (b3Start comp) b3Finish x x.bf [] [] z ∧ y = { finalClimb comp z with t := 0 }

end
end CrewExec
