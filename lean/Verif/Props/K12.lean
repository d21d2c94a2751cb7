import Verif.Lemmas.K12

/-!
# Property C18: KangarooTwelve / KT128, KT256, MarsupilamiFourteen

`perm` is the Keccak-p permutation of the variant (12 or 14 rounds): any function preserving the length of a 200-byte state.
`sched` is the order in which the crew of threads runs the leaf jobs of each flush: any permutation of them, chosen from the whole
state.  `Spec.K12.stream perm rate M C k` is byte `k` of the output of RFC 9861 for message `M` and customisation string `C`.
-/
namespace Props
open K12
abbrev K12Byte := BitVec 8

/-- What a caller can do with a finalised context. -/
inductive K12Op
  | read (n : Nat)
  | rewindRead (n : Nat)
  | finalAgain

/-- Running such calls; the outputs in order. -/
def k12Run (perm : List K12Byte → List K12Byte) (sched : Ctx → List Nat → List Nat) : Ctx → List K12Op → Option (List (List K12Byte))
  | _, [] => some []
  | x, .read n :: ops => (k12Run perm sched (read4 perm x n false).2 ops).map ((read4 perm x n false).1 :: ·)
  | x, .rewindRead n :: ops => (k12Run perm sched (read4 perm x n true).2 ops).map ((read4 perm x n true).1 :: ·)
  | x, .finalAgain :: ops => (final2 perm sched x).bind (k12Run perm sched · ops)

/-- The same on an abstract stream with a cursor. -/
def k12Cursor (stream : Nat → K12Byte) : Nat → List K12Op → List (List K12Byte)
  | _, [] => []
  | pos, .read n :: ops => (List.range n).map (fun i => stream (pos + i)) :: k12Cursor stream (pos + n) ops
  | _, .rewindRead n :: ops => (List.range n).map (fun i => stream i) :: k12Cursor stream n ops
  | pos, .finalAgain :: ops => k12Cursor stream pos ops

theorem k12_reads (perm : List K12Byte → List K12Byte) (rate : Nat) (hr : 0 < rate) (sched : Ctx → List Nat → List Nat) (stream : Nat → K12Byte) (st : List K12Byte)
    (hst : ∀ k, Spec.squeezeByte perm rate st k = stream k) (ops : List K12Op) (x : Ctx) (pos : Nat) (h : Fin perm rate st pos x) :
    k12Run perm sched x ops = some (k12Cursor stream pos ops) := by
  induction ops generalizing x pos with
  | nil => rfl
  | cons op ops ih =>
    cases op with
    | read n =>
      have e := Sponge.read_spec perm n x.fin st pos (by rw [h.rt]; exact hr) (by rw [h.rt]; exact h.sta) (by rw [h.rt]; exact h.fl)
      have e2 : read4 perm x n false = ((List.range n).map (fun i => stream (pos + i)), { x with fin := (Sponge.read perm x.fin n).2 }) := by
        unfold read4
        simp only [Bool.false_eq_true, if_false]
        rw [e]
        simp only [h.rt, hst]
      have hf : Fin perm rate st (pos + n) { x with fin := (Sponge.read perm x.fin n).2 } := by
        rw [e]
        exact ⟨h.fz, h.rt, h.sv, by simp only [h.rt], by simp only [h.rt]⟩
      simp only [k12Run, k12Cursor, e2]
      rw [ih _ _ hf]; rfl
    | rewindRead n =>
      obtain ⟨f, hfd⟩ : ∃ f, f = { x.fin with state := (x.inodes 0).buf.take 200, filled := 0 } := ⟨_, rfl⟩
      have hfr : f.rate = rate := by rw [hfd]; exact h.rt
      have e := Sponge.read_spec perm n f st 0 (by rw [hfr]; exact hr) (by rw [hfr, Nat.zero_div, hfd]; exact h.sv) (by rw [hfd, Nat.zero_mod])
      have e2 : read4 perm x n true = ((List.range n).map (fun i => stream i), { x with fin := (Sponge.read perm f n).2 }) := by
        unfold read4
        simp only [if_true]
        rw [← hfd, e]
        simp only [hfr, hst, Nat.zero_add]
      have hf : Fin perm rate st n { x with fin := (Sponge.read perm f n).2 } := by
        rw [e]
        exact ⟨h.fz, hfr, h.sv, by simp only [hfr, Nat.zero_add], by simp only [hfr, Nat.zero_add]⟩
      simp only [k12Run, k12Cursor, e2]
      rw [ih _ _ hf]; rfl
    | finalAgain =>
      have e : final2 perm sched x = some x := by unfold final2; rw [if_pos h.fz]; rfl
      simp only [k12Run, k12Cursor, e, Option.bind_some]
      exact ih x pos h

/-- C18: for every way of cutting the message `M = ms.flatten` into updates and the customisation string `C = cs.flatten` into feeds,
for every order in which the threads run the leaf jobs and every sequence of reads, rewinds and repeated finalisations, the outputs are
the consecutive pieces of the RFC 9861 stream.  Partial: `C` and the number of chunks must be below 2^24 (see `C18_length_limit`). -/
theorem C18_tree_partial (perm : List K12Byte → List K12Byte) (hp : ∀ s, s.length = 200 → (perm s).length = 200) (rate : Nat) (hr : 0 < rate)
    (sched : Ctx → List Nat → List Nat) (hs : ∀ x l, (sched x l).Perm l) (ms cs : List (List K12Byte)) (ops : List K12Op)
    (hC : cs.flatten.length < 2 ^ 24)
    (hS : (Spec.K12.chunks 8192 (ms.flatten ++ cs.flatten ++ Spec.K12.lengthEncode cs.flatten.length)).length ≤ 2 ^ 24) :
    (final2 perm sched (cs.foldl (feedC perm sched) (ms.foldl (update4 perm sched) (init rate)))).bind (k12Run perm sched · ops) =
      some (k12Cursor (Spec.K12.stream perm rate ms.flatten cs.flatten) 0 ops) := by
  have h1 := updates_rel perm rate sched hs hr ms (rel_init perm rate)
  rw [List.nil_append] at h1
  have h2 := feeds_rel perm rate sched hs hr cs h1
  have h3 : (cs.foldl (feedC perm sched) (ms.foldl (update4 perm sched) (init rate))).clen = cs.flatten.length := by
    rw [h2.2, foldl_inv Ctx.clen _ (update_clen perm sched)]
    show 0 + _ = _
    omega
  obtain ⟨y, st, e, hf, hst⟩ := final2_fin perm hp rate sched hs hr _ ms.flatten cs.flatten h2.1 h3 hC (by omega)
  rw [e, Option.bind_some]
  exact k12_reads perm rate hr sched _ st hst ops y 0 hf

/-- C18: where the code has no defined behaviour: with a customisation string of 2^24 bytes or more `K12_Final2` shifts the `int` 1 by 32
(`none`), whatever the message, the cutting and the threads. -/
theorem C18_length_limit (perm : List K12Byte → List K12Byte) (rate : Nat) (hr : 0 < rate)
    (sched : Ctx → List Nat → List Nat) (hs : ∀ x l, (sched x l).Perm l) (ms cs : List (List K12Byte)) (hC : 2 ^ 24 ≤ cs.flatten.length) :
    final2 perm sched (cs.foldl (feedC perm sched) (ms.foldl (update4 perm sched) (init rate))) = none := by
  have h1 := updates_rel perm rate sched hs hr ms (rel_init perm rate)
  rw [List.nil_append] at h1
  have h2 := feeds_rel perm rate sched hs hr cs h1
  have h3 : (cs.foldl (feedC perm sched) (ms.foldl (update4 perm sched) (init rate))).clen = cs.flatten.length := by
    rw [h2.2, foldl_inv Ctx.clen _ (update_clen perm sched)]
    show 0 + _ = _
    omega
  have hnf : (cs.foldl (feedC perm sched) (ms.foldl (update4 perm sched) (init rate))).finalized = false := by
    by_cases hc : (ms.flatten ++ cs.flatten).length ≤ 8192
    · exact (h2.1.1 hc).nf
    · exact (h2.1.2 (by omega)).nf
  unfold final2
  rw [hnf, h3, encode_none _ hC]
  rfl

/-- The hypotheses of `C18_tree_partial` are met by a schedule that reverses the jobs, the empty message and a one-byte customisation string. -/
example : (∀ (x : Ctx) (l : List Nat), (l.reverse).Perm l) ∧ ([[1]] : List (List K12Byte)).flatten.length < 2 ^ 24 ∧
    (Spec.K12.chunks 8192 (([] : List K12Byte) ++ [1] ++ Spec.K12.lengthEncode 1)).length ≤ 2 ^ 24 :=
  ⟨fun _ l => List.reverse_perm l, by decide +kernel, by decide +kernel⟩

/-- A long input: 8193 zero bytes and no customisation string make two chunks, hence one chaining value. -/
example : (Spec.K12.chunks 8192 (List.replicate 8193 (0 : K12Byte) ++ [] ++ Spec.K12.lengthEncode 0)).length = 2 := by
  unfold Spec.K12.chunks
  rw [List.length_map, List.length_range, List.length_append, List.length_append, List.length_replicate]
  decide +kernel

example : Spec.K12.lengthEncode 0 = [0] ∧ Spec.K12.lengthEncode 12 = [12, 1] ∧ Spec.K12.lengthEncode 65538 = [1, 0, 2, 3] := by
  refine ⟨by decide +kernel, by decide +kernel, by decide +kernel⟩

end Props
