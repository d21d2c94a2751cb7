import Verif.Lemmas.Blocks
import Verif.Model.MD
import Verif.Spec.MD

namespace MD
variable {σ : Type} (A : Alg σ)

theorem take_set_snoc (l : List Byte) (n : Nat) (b : Byte) (h : n < l.length) :
    (l.set n b).take (n + 1) = l.take n ++ [b] := by
  rw [List.take_succ, List.take_set_of_le (le_refl _)]
  simp [h]

/-- relation between a context and the abstract buffering engine -/
structure Rel (s : Ctx σ) (p : σ × List Byte) : Prop where
  H : s.H = p.1
  fil : s.filled = p.2.length
  tk : s.msg.take s.filled = p.2
  len : s.msg.length = 16 * A.w
  lt : p.2.length < 16 * A.w

theorem pushByte_rel (s : Ctx σ) (p : σ × List Byte) (b : Byte) (h : Rel A s p) :
    Rel A (pushByte A s b) (Spec.pushByte A.comp (16 * A.w) p b) := by
  obtain ⟨h1, h2, h3, h4, h5⟩ := h
  have hlt : s.filled < s.msg.length := by omega
  have htk := take_set_snoc s.msg s.filled b hlt
  rw [h3] at htk
  unfold pushByte Spec.pushByte
  simp only [List.length_append, List.length_singleton]
  by_cases c : s.filled + 1 = 16 * A.w
  · have hfull : s.msg.set s.filled b = p.2 ++ [b] := by
      rw [← htk, List.take_of_length_le (by rw [List.length_set]; omega)]
    rw [if_pos c, if_pos (by omega)]
    exact ⟨by simp only [hfull, h1], rfl, by simp, by simpa using h4, by simp; omega⟩
  · rw [if_neg c, if_neg (by omega)]
    exact ⟨h1, by simp [h2], htk, by simpa using h4, by simp; omega⟩

theorem foldl_rel (data : List Byte) (s : Ctx σ) (p : σ × List Byte) (h : Rel A s p) :
    Rel A (data.foldl (pushByte A) s) (data.foldl (Spec.pushByte A.comp (16 * A.w)) p) := by
  induction data generalizing s p with
  | nil => exact h
  | cons b data ih => exact ih _ _ (pushByte_rel A s p b h)

theorem foldl_frame (data : List Byte) (s : Ctx σ) :
    (data.foldl (pushByte A) s).len = s.len ∧ (data.foldl (pushByte A) s).finalized = s.finalized := by
  induction data generalizing s with
  | nil => exact ⟨rfl, rfl⟩
  | cons b data ih =>
    have h := ih (pushByte A s b)
    have h2 : (pushByte A s b).len = s.len ∧ (pushByte A s b).finalized = s.finalized := by
      unfold pushByte; simp only; split <;> exact ⟨rfl, rfl⟩
    exact ⟨h.1.trans h2.1, h.2.trans h2.2⟩

theorem updates_spec (ms : List (List Byte)) (s : Ctx σ) (p : σ × List Byte) (h : Rel A s p) :
    Rel A (ms.foldl (update A) s) (ms.flatten.foldl (Spec.pushByte A.comp (16 * A.w)) p) ∧
    (ms.foldl (update A) s).len = s.len + BitVec.ofNat 64 ms.flatten.length * 8#64 ∧
    (ms.foldl (update A) s).finalized = s.finalized := by
  induction ms generalizing s p with
  | nil => exact ⟨h, by simp, rfl⟩
  | cons m ms ih =>
    have hr := foldl_rel A m s p h
    have hf := foldl_frame A m s
    have hr' : Rel A (update A s m) (m.foldl (Spec.pushByte A.comp (16 * A.w)) p) :=
      ⟨hr.H, hr.fil, hr.tk, hr.len, hr.lt⟩
    obtain ⟨i1, i2, i3⟩ := ih (update A s m) _ hr'
    refine ⟨?_, ?_, ?_⟩
    · simpa [List.foldl_append] using i1
    · rw [List.foldl_cons, i2]
      show (m.foldl (pushByte A) s).len + _ + _ = _
      rw [hf.1, List.flatten_cons, List.length_append, BitVec.ofNat_add, BitVec.add_mul, BitVec.add_assoc]
    · rw [List.foldl_cons, i3]
      exact hf.2

theorem zeroLoop_spec (n filled : Nat) (msg : List Byte) (h : filled + n ≤ msg.length) :
    zeroLoop n filled msg = msg.take filled ++ List.replicate n 0 ++ msg.drop (filled + n) := by
  induction n generalizing filled msg with
  | zero => simp [zeroLoop]
  | succ n ih =>
    simp only [zeroLoop]
    rw [ih (filled + 1) (msg.set filled 0) (by simp; omega), take_set_snoc _ _ _ (by omega)]
    rw [List.drop_set_of_lt (by omega)]
    simp [List.replicate_succ, Nat.add_assoc, Nat.add_comm 1]

theorem writeAt_spec (bs : List Byte) (off : Nat) (msg : List Byte) (h : off + bs.length ≤ msg.length) :
    writeAt msg off bs = msg.take off ++ bs ++ msg.drop (off + bs.length) := by
  induction bs generalizing off msg with
  | nil => simp [writeAt]
  | cons b bs ih =>
    simp only [writeAt, List.length_cons] at h ⊢
    rw [ih (off + 1) (msg.set off b) (by simp; omega), take_set_snoc _ _ _ (by omega),
      List.drop_set_of_lt (by omega)]
    simp [Nat.add_assoc, Nat.add_comm 1]

theorem be64_eq (v : BitVec 64) : be64 v = Spec.beN 8 v.toNat := by
  unfold be64 Spec.beN
  apply List.map_congr_left
  intro i _
  apply BitVec.eq_of_toNat_eq
  rw [BitVec.toNat_setWidth, BitVec.toNat_ushiftRight, BitVec.toNat_ofNat, Nat.shiftRight_eq_div_pow,
    Nat.pow_mul]

theorem lenField_eq (w : Nat) (hw : w = 4 ∨ w = 8) (v : BitVec 64) :
    lenField w v = Spec.beN (2 * w) v.toNat := by
  rcases hw with rfl | rfl
  · exact be64_eq v
  · unfold lenField
    rw [if_neg (by decide), be64_eq]
    unfold Spec.beN
    have hv := v.isLt
    have e : List.range (2 * 8) = List.range 8 ++ (List.range 8).map (8 + ·) := by decide
    rw [e, List.map_append, List.map_map]
    congr 1
    have : ∀ i ∈ List.range 8, BitVec.ofNat 8 (v.toNat / 256 ^ (2 * 8 - 1 - i)) = (0 : Byte) := by
      intro i hi
      rw [List.mem_range] at hi
      have : 256 ^ 8 ≤ 256 ^ (2 * 8 - 1 - i) := Nat.pow_le_pow_right (by decide) (by omega)
      have h2 : v.toNat < 256 ^ 8 := by norm_num; omega
      rw [Nat.div_eq_of_lt (Nat.lt_of_lt_of_le h2 this)]; rfl
    rw [List.map_congr_left this]; rfl

theorem length_lenField (w : Nat) (hw : w = 4 ∨ w = 8) (v : BitVec 64) : (lenField w v).length = 2 * w := by
  rw [lenField_eq w hw]; simp [Spec.beN]

/-- the padded tail of a message whose last incomplete block is `T` -/
theorem final_spec (hw : A.w = 4 ∨ A.w = 8) (s : Ctx σ) (h : σ) (T : List Byte) (hr : Rel A s (h, T))
    (hf : s.finalized = false) :
    (final A s).H = (Spec.blocks (16 * A.w)
        (T ++ [0x80] ++ List.replicate ((16 * A.w - (T.length + 1 + 2 * A.w) % (16 * A.w)) % (16 * A.w)) 0 ++
          lenField A.w s.len)).foldl A.comp h ∧
      (final A s).finalized = true ∧
      ((A.out (final A s).H).length ≤ 16 * A.w → (final A s).msg.take (A.out (final A s).H).length = A.out (final A s).H) := by
  obtain ⟨h1, h2, h3, h4, h5⟩ := hr
  simp only at h1 h2 h3 h5
  have hB : 0 < 16 * A.w := by omega
  have hLF := length_lenField A.w hw s.len
  unfold final
  rw [hf]
  simp only [Bool.false_eq_true, if_false]
  have hset : ∀ n, n + (T.length + 1) = 16 * A.w →
      zeroLoop n (s.filled + 1) (s.msg.set s.filled 0x80) = T ++ [0x80] ++ List.replicate n 0 := by
    intro n hn
    rw [zeroLoop_spec _ _ _ (by simp; omega), take_set_snoc _ _ _ (by omega), h3]
    rw [List.drop_of_length_le (by simp; omega), List.append_nil]
  have hdiv : s.filled / A.w ≥ 14 ↔ 14 * A.w ≤ T.length := by
    rw [h2]; exact Nat.le_div_iff_mul_le (by omega)
  have hout : ∀ (m : List Byte) (o : List Byte), m.length = 16 * A.w → o.length ≤ 16 * A.w →
      (writeAt m 0 o).take o.length = o := by
    intro m o hm ho
    rw [writeAt_spec _ _ _ (by omega)]; simp
  by_cases c : 14 * A.w ≤ T.length
  · -- two blocks
    rw [if_pos (hdiv.2 c)]
    simp only
    rw [hset _ (by omega)]
    have hfirst : (T ++ [0x80] ++ List.replicate (16 * A.w - (s.filled + 1)) (0:Byte)).length = 16 * A.w := by
      simp; omega
    rw [zeroLoop_spec (16 * A.w) 0 _ (by rw [hfirst]; omega), writeAt_spec _ _ _ (by simp; omega)]
    have hz : (16 * A.w - (T.length + 1 + 2 * A.w) % (16 * A.w)) % (16 * A.w) =
        (16 * A.w - (s.filled + 1)) + 14 * A.w := by
      have hm : (T.length + 1 + 2 * A.w) % (16 * A.w) = T.length + 1 + 2 * A.w - 16 * A.w := by
        rw [Nat.mod_eq_sub_mod (by omega), Nat.mod_eq_of_lt (by omega)]
      rw [hm, Nat.mod_eq_of_lt (by omega)]; omega
    have hblk : Spec.blocks (16 * A.w) (T ++ [0x80] ++
        List.replicate ((16 * A.w - (T.length + 1 + 2 * A.w) % (16 * A.w)) % (16 * A.w)) (0:Byte) ++
        lenField A.w s.len) =
        [T ++ [0x80] ++ List.replicate (16 * A.w - (s.filled + 1)) (0:Byte),
          List.replicate (14 * A.w) (0:Byte) ++ lenField A.w s.len] := by
      rw [hz, ← List.replicate_append_replicate, ← List.append_assoc, List.append_assoc (T ++ [0x80] ++ _)]
      rw [Spec.blocks_append_aligned hB (by rw [hfirst]), Spec.blocks_single hB hfirst,
        Spec.blocks_single hB (by simp; omega)]
      rfl
    rw [hblk]
    have hsec : List.take (14 * A.w) (List.take 0 (T ++ [0x80] ++ List.replicate (16 * A.w - (s.filled + 1)) (0:Byte)) ++
          List.replicate (16 * A.w) 0 ++ List.drop (0 + 16 * A.w) (T ++ [0x80] ++ List.replicate (16 * A.w - (s.filled + 1)) 0)) ++
        lenField A.w s.len ++ List.drop (14 * A.w + (lenField A.w s.len).length)
          (List.take 0 (T ++ [0x80] ++ List.replicate (16 * A.w - (s.filled + 1)) 0) ++ List.replicate (16 * A.w) 0 ++
          List.drop (0 + 16 * A.w) (T ++ [0x80] ++ List.replicate (16 * A.w - (s.filled + 1)) 0)) =
        List.replicate (14 * A.w) (0:Byte) ++ lenField A.w s.len := by
      rw [List.drop_of_length_le (l := T ++ [0x80] ++ _) (by rw [hfirst]; omega), List.take_zero,
        List.nil_append, List.append_nil, List.drop_of_length_le (by simp; omega), List.append_nil,
        List.take_replicate]
      congr 2; omega
    rw [hsec]
    refine ⟨by simp [h1], trivial, ?_⟩
    intro ho
    exact hout _ _ (by simp; omega) ho
  · rw [if_neg (fun x => c (hdiv.1 x))]
    simp only
    rw [hset _ (by omega), writeAt_spec _ _ _ (by simp; omega)]
    have hz : (16 * A.w - (T.length + 1 + 2 * A.w) % (16 * A.w)) % (16 * A.w) = 14 * A.w - (T.length + 1) := by
      by_cases c2 : T.length + 1 = 14 * A.w
      · have : T.length + 1 + 2 * A.w = 16 * A.w := by omega
        rw [this]; simp; omega
      · rw [Nat.mod_eq_of_lt (by omega : T.length + 1 + 2 * A.w < 16 * A.w), Nat.mod_eq_of_lt (by omega)]; omega
    have hone : List.take (14 * A.w) (T ++ [0x80] ++ List.replicate (16 * A.w - (s.filled + 1)) (0:Byte)) ++
        lenField A.w s.len ++ List.drop (14 * A.w + (lenField A.w s.len).length)
          (T ++ [0x80] ++ List.replicate (16 * A.w - (s.filled + 1)) 0) =
        T ++ [0x80] ++ List.replicate (14 * A.w - (T.length + 1)) (0:Byte) ++ lenField A.w s.len := by
      rw [List.drop_of_length_le (by simp; omega), List.append_nil]
      congr 1
      rw [List.take_append, List.take_of_length_le (by simp; omega), List.take_replicate]
      congr 2
      simp; omega
    rw [hone, hz, Spec.blocks_single hB (by simp; omega)]
    refine ⟨by simp [h1], trivial, ?_⟩
    intro ho
    exact hout _ _ (by simp; omega) ho

end MD
