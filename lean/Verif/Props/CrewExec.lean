import Verif.Lemmas.CrewExec
import Verif.Props.K12
import Verif.Props.Blake3
import Verif.Spec.Crew

/-!
# Property C84: tree hashing under every interleaving, and the crew stub

`CrewExec.Exec` is the set of executions of one batch of jobs: the caller enqueues job after job, and every job begins and ends at
any moment between its enqueuing and the end of the waiting, overlapping the caller's loop and the other jobs.  Nothing is assumed about
the number of threads or about fairness.  C17 and C18 speak about executions that enqueue all jobs of a batch first.
-/

namespace Props
open CrewExec

/-! ## KangarooTwelve -/

/-- C84: for every cutting of the message and the customisation string into calls, every execution (each flush interleaved in its own way) and
every sequence of reads, rewinds and repeated finalisations, the outputs are the consecutive pieces of the stream of RFC 9861.  Partial for
the same reason as C18: the lengths must be below 2^24 octets and 2^24 chunks. -/
theorem C84_k12_partial (perm : List K12Byte → List K12Byte) (hp : ∀ s, s.length = 200 → (perm s).length = 200) (rate : Nat) (hr : 0 < rate)
    (ms cs : List (List K12Byte)) (ops : List K12Op) (hC : cs.flatten.length < 2 ^ 24)
    (hS : (Spec.K12.chunks 8192 (ms.flatten ++ cs.flatten ++ Spec.K12.lengthEncode cs.flatten.length)).length ≤ 2 ^ 24)
    (x1 x2 y : K12.Ctx) (h1 : Steps (K12Update perm) (K12.init rate) ms x1) (h2 : Steps (K12Feed perm) x1 cs x2) (h3 : K12Final perm x2 y) :
    k12Run perm (fun _ l => l) y ops = some (k12Cursor (Spec.K12.stream perm rate ms.flatten cs.flatten) 0 ops) := by
  have e1 := (steps_iff (fun x b y => k12_update (perm := perm) x b y) ms _ _).1 h1
  have e2 := (steps_iff (f := K12.feedC perm fun _ l => l) (fun x b y => k12_update (perm := perm) _ b y) cs _ _).1 h2
  have e3 := (k12_final x2 y).1 h3
  have := C18_tree_partial perm hp rate hr (fun _ l => l) (fun _ l => List.Perm.refl l) ms cs ops hC hS
  rw [← e1, ← e2, e3] at this
  exact this

/-- C84: such executions exist (no call blocks for ever), and all of them end in the same context. -/
theorem C84_k12_runs (perm : List K12Byte → List K12Byte) (hp : ∀ s, s.length = 200 → (perm s).length = 200) (rate : Nat) (hr : 0 < rate)
    (ms cs : List (List K12Byte)) (hC : cs.flatten.length < 2 ^ 24)
    (hS : (Spec.K12.chunks 8192 (ms.flatten ++ cs.flatten ++ Spec.K12.lengthEncode cs.flatten.length)).length ≤ 2 ^ 24) :
    ∃ y, (∃ x1 x2, Steps (K12Update perm) (K12.init rate) ms x1 ∧ Steps (K12Feed perm) x1 cs x2 ∧ K12Final perm x2 y) ∧
      ∀ y', (∃ x1 x2, Steps (K12Update perm) (K12.init rate) ms x1 ∧ Steps (K12Feed perm) x1 cs x2 ∧ K12Final perm x2 y') → y' = y := by
  have key : ∀ y, (∃ x1 x2, Steps (K12Update perm) (K12.init rate) ms x1 ∧ Steps (K12Feed perm) x1 cs x2 ∧ K12Final perm x2 y) ↔
      K12.final2 perm (fun _ l => l) (cs.foldl (K12.feedC perm fun _ l => l) (ms.foldl (K12.update4 perm fun _ l => l) (K12.init rate))) = some y := by
    intro y
    constructor
    · rintro ⟨x1, x2, h1, h2, h3⟩
      have e1 := (steps_iff (fun x b y => k12_update (perm := perm) x b y) ms _ _).1 h1
      have e2 := (steps_iff (f := K12.feedC perm fun _ l => l) (fun x b y => k12_update (perm := perm) _ b y) cs _ _).1 h2
      rw [← e1, ← e2]
      exact (k12_final x2 y).1 h3
    · intro h
      exact ⟨_, _, (steps_iff (fun x b y => k12_update (perm := perm) x b y) ms _ _).2 rfl,
        (steps_iff (f := K12.feedC perm fun _ l => l) (fun x b y => k12_update (perm := perm) _ b y) cs _ _).2 rfl, (k12_final _ y).2 h⟩
  have := C18_tree_partial perm hp rate hr (fun _ l => l) (fun _ l => List.Perm.refl l) ms cs [] hC hS
  cases hf : K12.final2 perm (fun _ l => l) (cs.foldl (K12.feedC perm fun _ l => l) (ms.foldl (K12.update4 perm fun _ l => l) (K12.init rate))) with
  | none => rw [hf] at this; exact absurd this (by simp)
  | some y =>
    refine ⟨y, (key y).2 hf, fun y' h => ?_⟩
    have := (key y').1 h
    rw [hf] at this
    exact (Option.some.inj this).symm

/-! ## BLAKE3 -/

/-- C84, plain hash. -/
theorem C84_blake3_hash (junk : List Blake3.Node) (hj : junk.length = 65) (parts : List (List Blake3.Byte)) (hlen : parts.flatten.length < 2 ^ 64)
    (reads : List (Nat × Bool)) (hr : (reads.map Prod.fst).sum < 2 ^ 64)
    (x y : Blake3.Ctx) (h1 : Steps (B3Update Blake3.compress) (Blake3.init junk) parts x) (h2 : B3Final Blake3.compress x y) :
    blake3Reads y reads = Spec.Blake3.readStream (Spec.Blake3.xofByte Spec.Blake3.compress Spec.Blake3.IV 0 parts.flatten) 0 reads := by
  have R0 : Blake3.Ready Blake3.compress parts.flatten (Blake3.init junk) [] [] := Blake3.init_ready hj false (List.replicate 8 0) rfl
  have e1 := (b3_updates Blake3.compOK hlen parts _ _ _ (by simp) R0 x).1 h1
  obtain ⟨hs, R, _, _⟩ := Blake3.updates_spec Blake3.compOK (fun _ l => l) (fun _ l => List.Perm.refl l) hlen parts (by simp) R0
  rw [← e1] at R
  have e2 := (b3_final (ready_fin R) y).1 h2
  rw [e2, e1]
  exact C17_hash (fun _ l => l) (fun _ l => List.Perm.refl l) junk hj parts hlen reads hr

/-- C84, keyed hash. -/
theorem C84_blake3_keyed (junk : List Blake3.Node) (hj : junk.length = 65) (key : List Blake3.Byte) (x0 : Blake3.Ctx)
    (hx : Blake3.kinit junk key = some x0) (parts : List (List Blake3.Byte)) (hlen : parts.flatten.length < 2 ^ 64)
    (reads : List (Nat × Bool)) (hr : (reads.map Prod.fst).sum < 2 ^ 64)
    (x y : Blake3.Ctx) (h1 : Steps (B3Update Blake3.compress) x0 parts x) (h2 : B3Final Blake3.compress x y) :
    blake3Reads y reads = Spec.Blake3.readStream (Spec.Blake3.xofByte Spec.Blake3.compress
        ((List.range 8).map (Spec.Blake2.leWord 32 key)) Spec.Blake3.KEYED_HASH parts.flatten) 0 reads := by
  have R0 : Blake3.Ready Blake3.compress parts.flatten x0 [] [] := by
    unfold Blake3.kinit at hx
    split at hx
    · exact absurd hx (by simp)
    obtain rfl := Option.some.inj hx
    exact Blake3.init_ready hj true _ (by simp)
  have e1 := (b3_updates Blake3.compOK hlen parts _ _ _ (by simp) R0 x).1 h1
  obtain ⟨hs, R, _, _⟩ := Blake3.updates_spec Blake3.compOK (fun _ l => l) (fun _ l => List.Perm.refl l) hlen parts (by simp) R0
  rw [← e1] at R
  have e2 := (b3_final (ready_fin R) y).1 h2
  rw [e2, e1]
  exact C17_keyed_hash (fun _ l => l) (fun _ l => List.Perm.refl l) junk hj key x0 hx parts hlen reads hr

/-- C84: executions exist, and all end in the same context. -/
theorem C84_blake3_runs (junk : List Blake3.Node) (hj : junk.length = 65) (parts : List (List Blake3.Byte)) (hlen : parts.flatten.length < 2 ^ 64) :
    ∃ y, (∃ x, Steps (B3Update Blake3.compress) (Blake3.init junk) parts x ∧ B3Final Blake3.compress x y) ∧
      ∀ y', (∃ x, Steps (B3Update Blake3.compress) (Blake3.init junk) parts x ∧ B3Final Blake3.compress x y') → y' = y := by
  have R0 : Blake3.Ready Blake3.compress parts.flatten (Blake3.init junk) [] [] := Blake3.init_ready hj false (List.replicate 8 0) rfl
  have U := b3_updates Blake3.compOK hlen parts _ _ _ (by simp) R0
  obtain ⟨hs, R, _, _⟩ := Blake3.updates_spec Blake3.compOK (fun _ l => l) (fun _ l => List.Perm.refl l) hlen parts (by simp) R0
  have F := b3_final (comp := Blake3.compress) (ready_fin R)
  refine ⟨_, ⟨_, (U _).2 rfl, (F _).2 rfl⟩, ?_⟩
  rintro y' ⟨x, h1, h2⟩
  rw [(U x).1 h1] at h2
  exact (F y').1 h2

/-! ## The stub -/

/-- The calls of a user of a crew: the functions it passes. -/
inductive CrewCall (σ : Type)
  | enqueue (f : Option (σ → σ))
  | wait (f : Option (σ → σ))

/-- Whether a call is a wait. -/
def CrewCall.isWait {σ : Type} : CrewCall σ → Bool
  | .wait _ => true
  | .enqueue _ => false

/-- The function passed; nothing for NULL. -/
def CrewCall.effect {σ : Type} : CrewCall σ → σ → σ
  | .wait f => f.getD id
  | .enqueue f => f.getD id

/-- The calls on the stub: the state afterwards, what the enqueue calls returned and what the waits returned. -/
def stubCalls {σ : Type} : σ → List (CrewCall σ) → σ × List Int × List Int
  | x, [] => (x, [], [])
  | x, .enqueue f :: cs => let r := stubTask f x; let t := stubCalls r.1 cs; (t.1, r.2 :: t.2.1, t.2.2)
  | x, .wait f :: cs => let r := stubTask f x; let t := stubCalls r.1 cs; (t.1, t.2.1, r.2 :: t.2.2)

theorem stubTask_effect {σ : Type} (f : Option (σ → σ)) (x : σ) : stubTask f x = (f.getD id x, 0) := by
  cases f <;> rfl

/-- C84: on the stub every job and every callback runs exactly once, in the order of the calls (so all jobs before a wait are over when its
callback runs); enqueuing always succeeds. -/
theorem C84_stub_calls {σ : Type} (x : σ) (cs : List (CrewCall σ)) :
    (stubCalls x cs).1 = cs.foldl (fun x c => c.effect x) x ∧ (∀ r ∈ (stubCalls x cs).2.1, r = 0) ∧
      (stubCalls x cs).2.2 = List.replicate (cs.countP CrewCall.isWait) 0 := by
  induction cs generalizing x with
  | nil => exact ⟨rfl, fun r h => absurd h (by simp [stubCalls]), rfl⟩
  | cons c cs ih =>
    cases c with
    | enqueue f =>
      obtain ⟨a, b, d⟩ := ih (f.getD id x)
      simp only [stubCalls, stubTask_effect, List.foldl_cons]
      refine ⟨a, fun r h => ?_, ?_⟩
      · rcases List.mem_cons.1 h with h | h
        · exact h
        · exact b r h
      · rw [d]; rfl
    | wait f =>
      obtain ⟨a, b, d⟩ := ih (f.getD id x)
      simp only [stubCalls, stubTask_effect, List.foldl_cons]
      refine ⟨a, b, ?_⟩
      rw [d, List.countP_cons_of_pos (by rfl), List.replicate_succ]

/-- C84: but the stub's waits do not return the number of jobs completed (`TCrew-common.h:42-43`), unlike the crew's (C42): already
after one job. -/
theorem C84_stub_wait_count_wrong : ¬ ∀ cs : List (CrewCall Nat), (stubCalls 0 cs).2.2 = Spec.Crew.waitCounts CrewCall.isWait 0 cs := by
  intro h
  have := h [.enqueue (some (· + 1)), .wait none]
  exact absurd this (by decide)

/-- C84: a batch on the stub is one of the executions above. -/
theorem C84_stub_batch {σ ρ : Type} (next : σ → Nat → Option (σ × Nat)) (start : σ → Nat → ρ) (finish : σ → Nat → ρ → σ) (f : Nat) (x : σ) (i : Nat)
    (y : σ) (h : stub next start finish f x i = some y) : Exec next start finish x i [] [] y := stub_exec next start finish f x i y h

/-! ## The hypotheses are met -/

/-- Three jobs on the stub and a callback. -/
example : stubCalls (0 : Nat) [.enqueue (some (· + 1)), .enqueue (some (· * 5)), .wait (some (· + 100)), .enqueue none, .wait none] =
    (105, [0, 0, 0], [0, 0]) := rfl

/-- An execution in which two jobs overlap each other and the loop: a batch of two jobs that double their own cell. -/
example : Exec (fun (x : List Nat) i => if i < 2 then some (x, i) else none) (fun x j => 2 * x.getD j 0) (fun x j a => x.set j a)
    [3, 5] 0 [] [] [6, 10] := by
  refine .enqueue (x' := [3, 5]) (j := 0) rfl ?_
  refine .begin (q₁ := []) (q₂ := []) ?_
  refine .enqueue (x' := [3, 5]) (j := 1) rfl ?_
  refine .begin (q₁ := []) (q₂ := []) ?_
  refine .done (r₁ := []) (r₂ := [(0, 6)]) ?_
  refine .done (r₁ := []) (r₂ := []) ?_
  exact .wait rfl

/-- A message of several flushes. -/
example : (List.replicate 65 (default : Blake3.Node)).length = 65 ∧
    ([List.replicate 70000 (0 : Blake3.Byte), [1]] : List (List Blake3.Byte)).flatten.length < 2 ^ 64 := by
  refine ⟨by rw [List.length_replicate], ?_⟩
  rw [List.flatten_cons, List.length_append, List.length_replicate]
  decide

end Props
