import Verif.Lemmas.CtrDrbg

/-!
# Property C29: CTR_DRBG and SP 800-90A

`enc ks block` and `kschd key` are an arbitrary block cipher with blocks of `b ≥ 4` bytes and keys of `k` bytes; the cipher of the specification
is `E key block = enc (kschd key) block`.  `CtrDrbg.Rel kschd b k x (K, V)`: the context holds `K ‖ V` and the key schedule of `K`.
-/
namespace Props
open CtrDrbg
abbrev DByte := BitVec 8


section
variable {κ : Type} (enc : κ → List DByte → List DByte) (kschd : List DByte → κ) (b k : Nat)
  (hb : 4 ≤ b) (he : ∀ ks x, x.length = b → (enc ks x).length = b)
include hb he

/-- C29: instantiation without the derivation function (`CTR_DRBG_Seed`), for any seed length (a shorter seed counts as zero-padded, a longer one
is cut) and whatever was in the context before. -/
theorem C29_instantiate (x : Ctx κ) (s : List DByte) :
    Rel kschd b k (seed enc kschd b k x s) (Spec.CtrDrbg.instantiate (fun key => enc (kschd key)) b k s) := by
  unfold seed Spec.CtrDrbg.instantiate
  have hz : (List.replicate (b + k) (0 : DByte)).take k = List.replicate k 0 := by rw [List.take_replicate, Nat.min_eq_left (by omega)]
  refine update_rel enc kschd b k hb he _ (List.replicate k 0, List.replicate b 0) ⟨?_, by simp, by simp, ?_⟩ (some s)
  · show List.replicate (b + k) 0 = _
    rw [List.replicate_append_replicate, Nat.add_comm]
  · show kschd _ = kschd _
    rw [hz]

/-- C29: instantiation with the derivation function (`CTR_DRBG_Seed_WithDF`); `u`, `w` are the uninitialised local buffers. -/
theorem C29_instantiate_df (x : Ctx κ) (s u w : List DByte) (hu : k + b ≤ u.length) (hw : w.length = k + b) :
    Rel kschd b k (seedDf enc kschd b k x s u w) (Spec.CtrDrbg.instantiateDf (fun key => enc (kschd key)) b k s) := by
  unfold seedDf Spec.CtrDrbg.instantiateDf
  have h := df_eq enc kschd b k hb he s u w hu
  rw [hw] at h
  simp only []
  rw [h]
  exact C29_instantiate enc kschd b k hb he _ _

/-- C29: reseeding (`CTR_DRBG_Reseed`). -/
theorem C29_reseed (x : Ctx κ) (st : List DByte × List DByte) (h : Rel kschd b k x st) (s : List DByte) :
    Rel kschd b k (reseed enc kschd b k x s) (Spec.CtrDrbg.update (fun key => enc (kschd key)) b k s st) :=
  update_rel enc kschd b k hb he x st h (some s)

/-- C29: reseeding with the derivation function (`CTR_DRBG_Reseed_WithDF`). -/
theorem C29_reseed_df (x : Ctx κ) (st : List DByte × List DByte) (h : Rel kschd b k x st) (s u w : List DByte) (hu : k + b ≤ u.length) (hw : w.length = k + b) :
    Rel kschd b k (reseedDf enc kschd b k x s u w) (Spec.CtrDrbg.reseedDf (fun key => enc (kschd key)) b k st s) := by
  unfold reseedDf Spec.CtrDrbg.reseedDf
  have h2 := df_eq enc kschd b k hb he s u w hu
  rw [hw] at h2
  simp only []
  rw [h2]
  have hks : kschd (x.seed.take k) = x.ks := by
    rw [h.1, List.take_left' h.2.1, h.2.2.2]
  rw [hks]
  exact update_rel enc kschd b k hb he x st h (some _)

/-- C29 (partial): the bytes returned by a generate request are those of the standard.  Missing: the state left behind, which is not the standard's
(`C29_generate_state`, `C29_state_is_output`, `C29_generate_wrong`). -/
theorem C29_generate_output_partial (x : Ctx κ) (st : List DByte × List DByte) (h : Rel kschd b k x st) (out : List DByte) :
    (generate enc kschd b k x out).1 = Spec.CtrDrbg.output (fun key => enc (kschd key)) b st out.length :=
  generate_out enc kschd b k hb he x st h out

/-- C29, what the code does: the state after a request is the update of the state BEFORE it - the counter is not moved past the blocks given out. -/
theorem C29_generate_state (x : Ctx κ) (st : List DByte × List DByte) (h : Rel kschd b k x st) (out : List DByte) :
    Rel kschd b k (generate enc kschd b k x out).2 (Spec.CtrDrbg.update (fun key => enc (kschd key)) b k [] st) := by
  unfold generate
  exact update_rel enc kschd b k hb he x st h none

/-- C29 is violated: a caller who draws at least `seedlen = k + b` bytes holds the complete next internal state: the new `K ‖ V` is, byte for byte,
the first `k + b` bytes just returned. -/
theorem C29_state_is_output (x : Ctx κ) (st : List DByte × List DByte) (h : Rel kschd b k x st) (out : List DByte) (hlen : k + b ≤ out.length) :
    (generate enc kschd b k x out).2.seed = ((generate enc kschd b k x out).1).take (k + b) := by
  have h1 := C29_generate_output_partial enc kschd b k hb he x st h out
  have h2 := (C29_generate_state enc kschd b k hb he x st h out).1
  rw [h1, h2]
  have hst := h.2.2.1
  have hg : ∀ i, ((fun i => enc (kschd st.1) (Spec.CtrDrbg.ctr b st.2 (i + 1))) i).length = b := fun i => he _ _ (ctr_length b hb st.2 hst _)
  have hmul : ∀ n, n ≤ Spec.CtrDrbg.nblk b n * b := by
    intro n
    unfold Spec.CtrDrbg.nblk
    have := Nat.div_add_mod (n + (b - 1)) b
    have hm := Nat.mod_lt (n + (b - 1)) (show 0 < b by omega)
    rw [Nat.mul_comm b] at this
    omega
  have hmono : Spec.CtrDrbg.nblk b (k + b) ≤ Spec.CtrDrbg.nblk b out.length := Nat.div_le_div_right (by omega)
  have hle := hmul (k + b)
  have hcat : ∀ n d, cat (fun i => enc (kschd st.1) (Spec.CtrDrbg.ctr b st.2 (i + 1))) (n + d) =
      cat (fun i => enc (kschd st.1) (Spec.CtrDrbg.ctr b st.2 (i + 1))) n ++ (cat (fun i => enc (kschd st.1) (Spec.CtrDrbg.ctr b st.2 (i + 1))) (n + d)).drop (n * b) := by
    intro n d
    induction d with
    | zero => rw [Nat.add_zero, List.drop_eq_nil_of_le (by rw [cat_length _ b hg]), List.append_nil]
    | succ d ih =>
      rw [← Nat.add_assoc, cat_succ, List.drop_append_of_le_length (by rw [cat_length _ b hg]; exact Nat.mul_le_mul_right _ (by omega)), ← List.append_assoc, ← ih]
  unfold Spec.CtrDrbg.output Spec.CtrDrbg.update
  show _ ++ _ = _
  rw [List.take_append_drop]
  have e1 : Spec.CtrDrbg.keystream (fun key => enc (kschd key)) b st.1 st.2 = cat (fun i => enc (kschd st.1) (Spec.CtrDrbg.ctr b st.2 (i + 1))) := rfl
  rw [e1]
  rw [fitTo_nil _ _ (by rw [List.length_take, cat_length _ b hg]; omega), List.take_take, Nat.min_eq_left hlen]
  obtain ⟨d, hd⟩ := Nat.exists_eq_add_of_le hmono
  rw [hd, hcat, List.take_append_of_le_length (by rw [cat_length _ b hg]; exact hle)]

/-- C29 is violated: the next request is then completely determined by the bytes returned by this one, without any secret. -/
theorem C29_next_output_predictable (x : Ctx κ) (st : List DByte × List DByte) (h : Rel kschd b k x st) (out out2 : List DByte) (hlen : k + b ≤ out.length) :
    (generate enc kschd b k (generate enc kschd b k x out).2 out2).1 =
      Spec.CtrDrbg.output (fun key => enc (kschd key)) b
        (((generate enc kschd b k x out).1).take k, (((generate enc kschd b k x out).1).drop k).take b) out2.length := by
  have h1 := C29_state_is_output enc kschd b k hb he x st h out hlen
  have h2 := C29_generate_state enc kschd b k hb he x st h out
  have h3 := C29_generate_output_partial enc kschd b k hb he _ _ h2 out2
  rw [h3]
  congr 1
  have h4 := h2.1
  rw [h1] at h4
  have e1 : ((generate enc kschd b k x out).1).take k = (((generate enc kschd b k x out).1).take (k + b)).take k := by rw [List.take_take, Nat.min_eq_left (by omega)]
  have e2 : (((generate enc kschd b k x out).1).drop k).take b = (((generate enc kschd b k x out).1).take (k + b)).drop k := by rw [List.drop_take, Nat.add_sub_cancel_left]
  rw [e1, e2, h4, List.take_left' h2.2.1, List.drop_left' h2.2.1]

end

/-- A concrete instance of the hypotheses (`b = 4`, `k = 4`, an invertible toy cipher). -/
example : (4 ≤ 4) ∧ (∀ (ks x : List DByte), x.length = 4 → (Spec.xorOnto x ks).length = 4) ∧
    Rel (fun key : List DByte => key) 4 4 { seed := [1, 2, 3, 4, 5, 6, 7, 8], ks := [1, 2, 3, 4] } ([1, 2, 3, 4], [5, 6, 7, 8]) :=
  ⟨Nat.le_refl 4, fun ks x h => by rw [Spec.length_xorOnto, h], by unfold Rel; decide⟩

/-- C29, the difference is real: with the toy cipher, `k = b = 4` and a request of eight bytes, the state left by the code is not the standard's. -/
theorem C29_generate_wrong :
    let enc := fun (ks x : List DByte) => Spec.xorOnto x ks
    let x : Ctx (List DByte) := { seed := [1, 2, 3, 4, 5, 6, 7, 8], ks := [1, 2, 3, 4] }
    let st := Spec.CtrDrbg.generate (fun key => enc key) 4 4 ([1, 2, 3, 4], [5, 6, 7, 8]) 8
    (generate enc (fun key => key) 4 4 x (List.replicate 8 0)).2.seed ≠ st.1 ++ st.2 := by
  decide +kernel

end Props
