import Verif.Spec.Blocks
import Mathlib.Data.List.Induction
import Mathlib.Tactic.Ring
import Mathlib.Tactic.Linarith

namespace Spec
variable {α σ : Type}

theorem length_tailBlock (r : Nat) (m : List α) : (tailBlock r m).length = m.length % r := by
  unfold tailBlock
  rw [List.length_drop]
  have := Nat.div_add_mod m.length r
  rw [Nat.mul_comm] at this
  omega

theorem blocks_nil (r : Nat) : blocks r ([] : List α) = [] := by simp [blocks]

theorem tailBlock_nil (r : Nat) : tailBlock r ([] : List α) = [] := by simp [tailBlock]

theorem blocks_length (r : Nat) (m : List α) : (blocks r m).length = m.length / r := by simp [blocks]

theorem mem_blocks_length {r : Nat} {m b : List α} (h : b ∈ blocks r m) : b.length = r := by
  unfold blocks at h
  rw [List.mem_map] at h
  obtain ⟨i, hi, rfl⟩ := h
  rw [List.mem_range] at hi
  rw [List.length_take, List.length_drop]
  have h1 : (i + 1) * r ≤ m.length / r * r := Nat.mul_le_mul_right r hi
  have h2 := Nat.div_mul_le_self m.length r
  rw [Nat.add_mul, Nat.one_mul] at h1
  omega

/-- Blocks of a message extended on the right agree on the complete blocks. -/
theorem blocks_append_prefix (r : Nat) (m t : List α) :
    ((List.range (m.length / r)).map fun i => ((m ++ t).drop (i * r)).take r) = blocks r m := by
  unfold blocks
  apply List.map_congr_left
  intro i hi
  rw [List.mem_range] at hi
  have h1 : (i + 1) * r ≤ m.length / r * r := Nat.mul_le_mul_right r hi
  have h2 := Nat.div_mul_le_self m.length r
  rw [Nat.add_mul, Nat.one_mul] at h1
  rw [List.drop_append_of_le_length (by omega), List.take_append_of_le_length]
  rw [List.length_drop]; omega

theorem blocks_append_aligned {r : Nat} (hr : 0 < r) {m : List α} (hm : r ∣ m.length) (t : List α) :
    blocks r (m ++ t) = blocks r m ++ blocks r t := by
  obtain ⟨k, hk⟩ := hm
  have hk' : m.length / r = k := by rw [hk, Nat.mul_div_cancel_left _ hr]
  have e : (m ++ t).length / r = k + t.length / r := by
    rw [List.length_append, hk, Nat.mul_add_div hr]
  conv_lhs => unfold blocks
  rw [e, List.range_add, List.map_append, ← hk', blocks_append_prefix r m t]
  congr 1
  unfold blocks
  rw [List.map_map]
  apply List.map_congr_left
  intro i _
  simp only [Function.comp]
  have : (m.length / r + i) * r = m.length + i * r := by rw [hk', Nat.add_mul, hk, Nat.mul_comm k]
  rw [this, List.drop_append, List.drop_of_length_le (by omega)]
  simp

theorem tailBlock_append_aligned {r : Nat} (hr : 0 < r) {m : List α} (hm : r ∣ m.length) (t : List α) :
    tailBlock r (m ++ t) = tailBlock r t := by
  obtain ⟨k, hk⟩ := hm
  unfold tailBlock
  have e : (m ++ t).length / r * r = m.length + t.length / r * r := by
    rw [List.length_append, hk, Nat.mul_add_div hr, Nat.add_mul]; ring
  rw [e, List.drop_append]
  simp

theorem blocks_single {r : Nat} (hr : 0 < r) {b : List α} (hb : b.length = r) : blocks r b = [b] := by
  unfold blocks
  rw [hb, Nat.div_self hr]
  simp [← hb]

theorem blocks_short {r : Nat} {b : List α} (hb : b.length < r) : blocks r b = [] := by
  unfold blocks
  rw [Nat.div_eq_of_lt hb]; rfl

theorem tailBlock_short {r : Nat} {b : List α} (hb : b.length < r) : tailBlock r b = b := by
  unfold tailBlock
  rw [Nat.div_eq_of_lt hb]; simp

theorem blocks_flatten (r : Nat) (m : List α) : (blocks r m).flatten ++ tailBlock r m = m := by
  have : ∀ k, k ≤ m.length / r →
      ((List.range k).map fun i => (m.drop (i * r)).take r).flatten = m.take (k * r) := by
    intro k
    induction k with
    | zero => simp
    | succ k ih =>
      intro hk
      rw [List.range_succ, List.map_append, List.flatten_append, ih (by omega)]
      simp only [List.map_cons, List.map_nil, List.flatten_cons, List.flatten_nil, List.append_nil]
      rw [Nat.add_mul, Nat.one_mul, List.take_add]
  unfold blocks tailBlock
  rw [this _ (le_refl _), List.take_append_drop]

/-! ### The eager byte-buffering engine (`SHA*_Update`, `Sponge_Update`) -/

/-- One byte into a buffer of `r` bytes which is processed by `f` as soon as it is full. -/
def pushByte (f : σ → List α → σ) (r : Nat) (s : σ × List α) (b : α) : σ × List α :=
  if (s.2 ++ [b]).length = r then (f s.1 (s.2 ++ [b]), []) else (s.1, s.2 ++ [b])

theorem split_aligned {r : Nat} (hr : 0 < r) (m : List α) :
    ∃ A T, m = A ++ T ∧ r ∣ A.length ∧ T.length < r ∧ blocks r m = blocks r A ∧ tailBlock r m = T := by
  have hT : (m.drop (m.length / r * r)).length < r := by
    have := length_tailBlock r m
    unfold tailBlock at this
    rw [this]; exact Nat.mod_lt _ hr
  have hA : (m.take (m.length / r * r)).length = m.length / r * r := by
    rw [List.length_take]; exact Nat.min_eq_left (Nat.div_mul_le_self _ _)
  have hd : r ∣ (m.take (m.length / r * r)).length := by rw [hA]; exact Nat.dvd_mul_left _ _
  refine ⟨m.take (m.length / r * r), m.drop (m.length / r * r), (List.take_append_drop _ _).symm, hd,
    hT, ?_, rfl⟩
  conv_lhs => rw [← List.take_append_drop (m.length / r * r) m]
  rw [blocks_append_aligned hr hd, blocks_short hT, List.append_nil]

theorem tailBlock_full {r : Nat} (hr : 0 < r) {b : List α} (hb : b.length = r) : tailBlock r b = [] := by
  unfold tailBlock
  rw [hb, Nat.div_self hr, Nat.one_mul]
  exact List.drop_of_length_le (by omega)

theorem foldl_pushByte (f : σ → List α → σ) (r : Nat) (hr : 0 < r) (h : σ) (m : List α) :
    m.foldl (pushByte f r) (h, []) = ((blocks r m).foldl f h, tailBlock r m) := by
  induction m using List.reverseRecOn with
  | nil => simp [blocks_nil, tailBlock_nil]
  | append_singleton m b ih =>
    rw [List.foldl_append, ih]
    simp only [List.foldl_cons, List.foldl_nil, pushByte]
    obtain ⟨A, T, rfl, hd, hT, hb, ht⟩ := split_aligned hr m
    rw [ht, hb, List.append_assoc, blocks_append_aligned hr hd, tailBlock_append_aligned hr hd]
    by_cases hc : (T ++ [b]).length = r
    · rw [if_pos hc, blocks_single hr hc, tailBlock_full hr hc, List.foldl_append]
      rfl
    · have hlt : (T ++ [b]).length < r := by
        rw [List.length_append] at hc ⊢; simp at hc ⊢; omega
      rw [if_neg hc, blocks_short hlt, tailBlock_short hlt, List.append_nil]

/-! ### The lazy engine (BLAKE2, CMAC): a full buffer is processed when the next byte arrives -/

def lazyPush (f : σ → List α → σ) (r : Nat) (s : σ × List α) (b : α) : σ × List α :=
  if s.2.length = r then (f s.1 s.2, [b]) else (s.1, s.2 ++ [b])

theorem length_lastBlock {r : Nat} (hr : 0 < r) (m : List α) (hm : m ≠ []) :
    (lastBlock r m).length = (m.length - 1) % r + 1 := by
  unfold lastBlock
  have h0 : 0 < m.length := List.length_pos_iff.2 hm
  rw [List.length_drop]
  have := Nat.div_add_mod (m.length - 1) r
  rw [Nat.mul_comm] at this
  omega

theorem initBlocks_prefix {r : Nat} (hr : 0 < r) (m t : List α) (k : Nat) (hk : k * r ≤ m.length) :
    ((List.range k).map fun i => ((m ++ t).drop (i * r)).take r) =
      (List.range k).map fun i => (m.drop (i * r)).take r := by
  apply List.map_congr_left
  intro i hi
  rw [List.mem_range] at hi
  have h1 : (i + 1) * r ≤ k * r := Nat.mul_le_mul_right r hi
  rw [Nat.add_mul, Nat.one_mul] at h1
  rw [List.drop_append_of_le_length (by omega), List.take_append_of_le_length]
  rw [List.length_drop]; omega

theorem foldl_lazyPush (f : σ → List α → σ) (r : Nat) (hr : 0 < r) (h : σ) (m : List α) :
    m.foldl (lazyPush f r) (h, []) = ((initBlocks r m).foldl f h, lastBlock r m) := by
  induction m using List.reverseRecOn with
  | nil => simp [initBlocks, lastBlock]
  | append_singleton m b ih =>
    rw [List.foldl_append, ih]
    simp only [List.foldl_cons, List.foldl_nil, lazyPush]
    by_cases hm : m = []
    · subst hm
      simp [initBlocks, lastBlock]
      intro h0; omega
    · have h0 : 0 < m.length := List.length_pos_iff.2 hm
      have hl := length_lastBlock hr m hm
      have hdm := Nat.div_add_mod (m.length - 1) r
      have hlt := Nat.mod_lt (m.length - 1) hr
      have hle : (m.length - 1) / r * r ≤ m.length := by rw [Nat.mul_comm]; omega
      by_cases c : (m.length - 1) % r + 1 = r
      · have e : (m.length + 1 - 1) / r = (m.length - 1) / r + 1 := by
          have : m.length + 1 - 1 = r * ((m.length - 1) / r + 1) := by rw [Nat.mul_add]; omega
          rw [this, Nat.mul_div_cancel_left _ hr]
        have hml : ((m.length - 1) / r + 1) * r = m.length := by
          rw [Nat.add_mul, Nat.mul_comm ((m.length - 1) / r)]; omega
        rw [if_pos (by omega)]
        unfold initBlocks lastBlock
        simp only [List.length_append, List.length_singleton]
        rw [e, List.range_succ, List.map_append, List.foldl_append, initBlocks_prefix hr m [b] _ hle]
        simp only [List.map_cons, List.map_nil, List.foldl_cons, List.foldl_nil]
        rw [List.drop_append_of_le_length hle, List.take_append_of_le_length (by rw [List.length_drop]; rw [Nat.add_mul] at hml; omega),
          List.take_of_length_le (by rw [List.length_drop]; rw [Nat.add_mul] at hml; omega), hml]
        simp
      · have e : (m.length + 1 - 1) / r = (m.length - 1) / r := by
          generalize (m.length - 1) / r = q at hdm ⊢
          generalize (m.length - 1) % r = x at hdm hlt c
          have : m.length + 1 - 1 = r * q + (x + 1) := by omega
          rw [this, Nat.mul_add_div hr, Nat.div_eq_of_lt (show x + 1 < r by omega), Nat.add_zero]
        rw [if_neg (by omega)]
        unfold initBlocks lastBlock
        simp only [List.length_append, List.length_singleton]
        rw [e, initBlocks_prefix hr m [b] _ hle, List.drop_append_of_le_length hle]

/-! ### xorOnto -/

theorem length_xorOnto (s b : List (BitVec 8)) : (xorOnto s b).length = s.length := by simp [xorOnto]

theorem xorOnto_nil (s : List (BitVec 8)) : xorOnto s [] = s := by
  apply List.ext_getElem
  · simp [xorOnto]
  · intro i h1 h2; simp [xorOnto]

theorem xorOnto_snoc (s b : List (BitVec 8)) (x : BitVec 8) :
    (xorOnto s b).modify b.length (· ^^^ x) = xorOnto s (b ++ [x]) := by
  apply List.ext_getElem
  · simp [xorOnto]
  · intro i h1 h2
    rw [List.getElem_modify]
    simp only [xorOnto, List.getElem_mapIdx]
    simp only [List.getD_eq_getElem?_getD, List.getElem?_append]
    split
    · subst_vars; simp
    · by_cases h : i < b.length
      · simp [h]
      · rw [List.getElem?_eq_none (by omega), if_neg h, List.getElem?_eq_none (by simp; omega)]

end Spec
