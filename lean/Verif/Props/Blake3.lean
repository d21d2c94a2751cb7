import Verif.Lemmas.Blake3Read

/-!
# Property C17 (and C14 for BLAKE3)

`sched` is an arbitrary order in which the crew runs the jobs of one batch.
-/

namespace Props
open Blake3

/-- Calls of `BLAKE3_Read4`, in order: what they write. -/
def blake3Reads : Ctx → List (Nat × Bool) → List (List Blake3.Byte)
  | _, [] => []
  | x, (n, rewind) :: rest => (read compress x n rewind).1 :: blake3Reads (read compress x n rewind).2 rest

theorem compress_fun : Blake3.compress = Spec.Blake3.compress := by
  funext h m t b d; exact compress_eq h m t b d

theorem blake3Reads_spec (o : Spec.Blake3.Output) (hl : o.cv.length = 8) : ∀ (rs : List (Nat × Bool)) (x : Ctx) (pos : Nat),
    RootRep x o → x.t = BitVec.ofNat 64 pos → pos + (rs.map Prod.fst).sum < 2 ^ 64 →
    blake3Reads x rs = Spec.Blake3.readStream (o.rootByte Spec.Blake3.compress) pos rs := by
  intro rs
  induction rs with
  | nil => intros; rfl
  | cons r rs ih =>
    intro x pos R ht hs
    obtain ⟨n, rw'⟩ := r
    simp only [List.map_cons, List.sum_cons] at hs
    have htn : x.t.toNat = pos := by rw [ht, BitVec.toNat_ofNat, Nat.mod_eq_of_lt (by omega)]
    have e := read_spec compOK R (by rw [R.k, hl]) n rw' (by rw [htn]; split <;> omega)
    unfold blake3Reads Spec.Blake3.readStream
    rw [e, htn, compress_fun]
    congr 1
    refine ih _ ((if rw' = true then 0 else pos) + n) ⟨R.k, R.blen, R.rem, R.block, R.d, R.fin⟩ ?_ (by split <;> omega)
    simp only
    cases rw' with
    | true => simp
    | false => simp only [Bool.false_eq_true, if_false]; rw [ht, BitVec.ofNat_add]

/-- C17, plain hash: for every splitting of the message over `Update` calls, every order in which the crew
runs its jobs and every sequence of reads, the bytes read are those of the BLAKE3 output stream of the whole
message.  `junk` is the previous content of the node pool, which always suffices. -/
theorem C17_hash (sched : Ctx → List Nat → List Nat) (hp : ∀ x l, (sched x l).Perm l)
    (junk : List Node) (hj : junk.length = 65) (parts : List (List Blake3.Byte)) (hlen : parts.flatten.length < 2 ^ 64)
    (reads : List (Nat × Bool)) (hr : (reads.map Prod.fst).sum < 2 ^ 64) :
    blake3Reads (final compress sched (parts.foldl (update compress sched) (init junk))) reads =
      Spec.Blake3.readStream (Spec.Blake3.xofByte Spec.Blake3.compress Spec.Blake3.IV 0 parts.flatten) 0 reads := by
  have R0 : Ready compress parts.flatten (init junk) [] [] := init_ready hj false (List.replicate 8 0) rfl
  obtain ⟨hs, R, k1, k2⟩ := updates_spec compOK sched hp hlen parts (by simp) R0
  obtain ⟨F, ft⟩ := final_spec compOK sched hp hlen R
  have e1 : keyOf (parts.foldl (update compress sched) (init junk)) = Blake3.IV := by
    unfold keyOf; rw [k2]; rfl
  rw [e1, k2] at F
  exact blake3Reads_spec _ (cv_length compOK _ _ rfl _ _) reads _ 0 F ft (by omega) |>.trans (by rw [compress_fun]; rfl)

/-- C17, keyed hash: the same with the key words (little-endian) and the keyed-hash flag. -/
theorem C17_keyed_hash (sched : Ctx → List Nat → List Nat) (hp : ∀ x l, (sched x l).Perm l)
    (junk : List Node) (hj : junk.length = 65) (key : List Blake3.Byte) (x0 : Ctx) (hx : kinit junk key = some x0)
    (parts : List (List Blake3.Byte)) (hlen : parts.flatten.length < 2 ^ 64)
    (reads : List (Nat × Bool)) (hr : (reads.map Prod.fst).sum < 2 ^ 64) :
    blake3Reads (final compress sched (parts.foldl (update compress sched) x0)) reads =
      Spec.Blake3.readStream (Spec.Blake3.xofByte Spec.Blake3.compress
        ((List.range 8).map (Spec.Blake2.leWord 32 key)) Spec.Blake3.KEYED_HASH parts.flatten) 0 reads := by
  unfold kinit at hx
  split at hx
  · exact absurd hx (by simp)
  obtain rfl := Option.some.inj hx
  have hk : ((List.range 8).map fun i => Blake2.loadWord 32 key i) = (List.range 8).map (Spec.Blake2.leWord 32 key) := by
    apply List.map_congr_left
    intro i _
    exact Blake2.loadWord_eq _ key i
  rw [hk]
  have R0 : Ready compress parts.flatten _ [] [] := init_ready hj true ((List.range 8).map (Spec.Blake2.leWord 32 key)) (by simp)
  obtain ⟨hs, R, k1, k2⟩ := updates_spec compOK sched hp hlen parts (by simp) R0
  obtain ⟨F, ft⟩ := final_spec compOK sched hp hlen R
  set z := parts.foldl (update compress sched) _ with hz
  have e1 : keyOf z = (List.range 8).map (Spec.Blake2.leWord 32 key) := by
    unfold keyOf; rw [k2, k1]; rfl
  rw [e1, k2] at F
  exact blake3Reads_spec _ (cv_length compOK _ _ (by simp) _ _) reads _ 0 F ft (by omega) |>.trans (by rw [compress_fun]; rfl)

/-- C17: keyed initialisation accepts exactly keys of 32 bytes. -/
theorem C17_kinit_accepts (junk : List Node) (key : List Blake3.Byte) : (kinit junk key).isSome ↔ key.length = 32 := by
  unfold kinit
  split
  · simpa
  · rename_i h; simpa using h

/-- C14 for BLAKE3: finalising again changes nothing. -/
theorem C14_blake3 (sched : Ctx → List Nat → List Nat) (hp : ∀ x l, (sched x l).Perm l)
    (junk : List Node) (hj : junk.length = 65) (parts : List (List Blake3.Byte)) (hlen : parts.flatten.length < 2 ^ 64) :
    let x := final compress sched (parts.foldl (update compress sched) (init junk))
    final compress sched x = x := by
  intro x
  have R0 : Ready compress parts.flatten (init junk) [] [] := init_ready hj false (List.replicate 8 0) rfl
  obtain ⟨hs, R, k1, k2⟩ := updates_spec compOK sched hp hlen parts (by simp) R0
  obtain ⟨F, ft⟩ := final_spec compOK sched hp hlen R
  have hf : x.finalize = true := F.fin
  unfold final
  rw [if_pos hf]

/-- The hypotheses are met, e.g. by running the jobs of each batch backwards, a message fed in two parts and
reads that stop inside blocks and start over. -/
example : (∀ (x : Ctx) (l : List Nat), ((fun _ l => l.reverse : Ctx → List Nat → List Nat) x l).Perm l) ∧
    (List.replicate 65 (default : Node)).length = 65 ∧
    ([List.replicate 70000 (0 : Blake3.Byte), [1]] : List (List Blake3.Byte)).flatten.length < 2 ^ 64 ∧
    (([(10, false), (100, false), (5, true)] : List (Nat × Bool)).map Prod.fst).sum < 2 ^ 64 := by
  refine ⟨fun _ l => List.reverse_perm l, by rw [List.length_replicate], ?_, by decide⟩
  rw [List.flatten_cons, List.length_append, List.length_replicate]
  simp

/-- A key that is accepted. -/
example : ∃ x, kinit (List.replicate 65 default) (List.replicate 32 7) = some x := by
  unfold kinit
  rw [if_neg (by simp)]
  exact ⟨_, rfl⟩

end Props
