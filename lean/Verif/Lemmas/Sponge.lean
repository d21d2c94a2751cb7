import Verif.Lemmas.Blocks
import Verif.Model.Sponge
import Verif.Spec.Sponge

namespace Sponge
open Spec (blocks tailBlock xorOnto pushByte absorb squeezeByte spongePad)

variable (perm : List Byte → List Byte)

/-- the block function of the sponge -/
def bf (s b : List Byte) : List Byte := perm (xorOnto s b)

theorem absorbByte_rel (s : Ctx) (h buf : List Byte) (b : Byte) (hlt : buf.length < s.rate)
    (h1 : s.state = xorOnto h buf) (h2 : s.filled = buf.length) :
    absorbByte perm s b =
      let p := pushByte (bf perm) s.rate (h, buf) b
      { s with state := xorOnto p.1 p.2, filled := p.2.length } := by
  unfold absorbByte pushByte bf
  simp only [h1, h2, Spec.xorOnto_snoc, List.length_append, List.length_singleton]
  split
  · simp [Spec.xorOnto_nil]
  · simp

theorem update_rel (data : List Byte) (s : Ctx) (h buf : List Byte) (hlt : buf.length < s.rate)
    (h1 : s.state = xorOnto h buf) (h2 : s.filled = buf.length) :
    update perm s data =
      let p := data.foldl (pushByte (bf perm) s.rate) (h, buf)
      { s with state := xorOnto p.1 p.2, filled := p.2.length } := by
  induction data generalizing s h buf with
  | nil =>
    show s = _
    simp only [List.foldl_nil, ← h1, ← h2]
  | cons b data ih =>
    show update perm (absorbByte perm s b) data = _
    rw [absorbByte_rel perm s h buf b hlt h1 h2]
    simp only [List.foldl_cons]
    have hlt' : (pushByte (bf perm) s.rate (h, buf) b).2.length < s.rate := by
      unfold pushByte
      simp only
      split
      · simp; omega
      · rename_i hne
        simp at hne ⊢; omega
    rw [ih _ (pushByte (bf perm) s.rate (h, buf) b).1 (pushByte (bf perm) s.rate (h, buf) b).2
      (by exact hlt') rfl rfl]

theorem update_fresh (s : Ctx) (m : List Byte) (hr : 0 < s.rate) (h0 : s.filled = 0) :
    update perm s m = { s with state := xorOnto (absorb perm s.rate s.state m) (tailBlock s.rate m),
                               filled := m.length % s.rate } := by
  rw [update_rel perm m s s.state [] (by simpa) (Spec.xorOnto_nil _).symm (by simpa)]
  simp only [Spec.foldl_pushByte (bf perm) s.rate hr, Spec.length_tailBlock]
  rfl

theorem update_append (s : Ctx) (a b : List Byte) :
    update perm (update perm s a) b = update perm s (a ++ b) := by
  unfold update; rw [List.foldl_append]

theorem updates_flatten (s : Ctx) (ms : List (List Byte)) :
    ms.foldl (update perm) s = update perm s ms.flatten := by
  induction ms generalizing s with
  | nil => rfl
  | cons a ms ih => rw [List.foldl_cons, ih, update_append]; rfl

theorem getElem_xorOnto (h b : List Byte) (i : Nat) (hi : i < (xorOnto h b).length) :
    (xorOnto h b)[i] = h[i]'(by simpa [xorOnto] using hi) ^^^ b.getD i 0 := by
  simp [xorOnto]

theorem pad_getD (T : List Byte) (r : Nat) (lo hi : Byte) (hT : T.length < r) (i : Nat) :
    (T ++ spongePad r lo hi T.length).getD i 0 =
      T.getD i 0 ^^^ (if T.length = i then lo else 0) ^^^ (if r - 1 = i then hi else 0) := by
  unfold spongePad
  rw [List.getD_eq_getElem?_getD, List.getD_eq_getElem?_getD, List.getElem?_append]
  by_cases ci : i < T.length
  · rw [if_pos ci, if_neg (by omega), if_neg (by omega)]; simp
  · rw [if_neg ci, List.getElem?_eq_none (by omega : T.length ≤ i)]
    obtain ⟨j, rfl⟩ : ∃ j, i = T.length + j := ⟨i - T.length, by omega⟩
    rw [Nat.add_sub_cancel_left]
    by_cases c1 : T.length + 1 = r
    · rw [if_pos c1]
      cases j with
      | zero => rw [if_pos (by omega), if_pos (by omega)]; simp
      | succ j => rw [if_neg (by omega), if_neg (by omega)]; simp
    · rw [if_neg c1]
      cases j with
      | zero => rw [if_pos (by omega), if_neg (by omega)]; simp
      | succ j =>
        rw [if_neg (show ¬ T.length = T.length + (j + 1) by omega)]
        simp only [List.cons_append, List.getElem?_cons_succ]
        rw [List.getElem?_append]
        by_cases cj : j < r - 2 - T.length
        · rw [if_pos (by simpa using cj), if_neg (by omega)]
          simp [cj]
        · rw [if_neg (by simpa using cj)]
          by_cases ce : T.length + (j + 1) = r - 1
          · rw [if_pos ce.symm]
            have : j - (List.replicate (r - 2 - T.length) (0:Byte)).length = 0 := by simp; omega
            rw [this]; simp
          · rw [if_neg (by omega), List.getElem?_eq_none (by simp; omega)]; simp

theorem pad_xor (h T : List Byte) (r : Nat) (lo hi : Byte) (hT : T.length < r) :
    (((xorOnto h T).modify T.length (· ^^^ lo)).modify (r - 1) (· ^^^ hi)) =
      xorOnto h (T ++ spongePad r lo hi T.length) := by
  apply List.ext_getElem
  · simp [xorOnto]
  · intro i h1 h2
    rw [List.getElem_modify, List.getElem_modify, getElem_xorOnto, getElem_xorOnto, pad_getD _ _ _ _ hT]
    split_ifs <;> simp [BitVec.xor_assoc]

theorem length_spongePad (r : Nat) (lo hi : Byte) (q : Nat) (hq : q < r) :
    (spongePad r lo hi q).length = r - q := by
  unfold spongePad
  split
  · simp; omega
  · simp; omega

theorem blocks_padded (r : Nat) (hr : 0 < r) (m : List Byte) (lo hi : Byte) :
    blocks r (m ++ spongePad r lo hi (m.length % r)) =
      blocks r m ++ [tailBlock r m ++ spongePad r lo hi (tailBlock r m).length] := by
  have hl := Spec.length_tailBlock r m
  obtain ⟨A, T, rfl, hd, hT, hb, ht⟩ := Spec.split_aligned hr m
  rw [ht] at hl ⊢
  rw [← hl, hb, List.append_assoc, Spec.blocks_append_aligned hr hd]
  congr 1
  apply Spec.blocks_single hr
  rw [List.length_append, length_spongePad r lo hi _ hT]; omega

theorem final_fresh (s : Ctx) (m : List Byte) (hr : 0 < s.rate) (h0 : s.filled = 0)
    (hf : s.finalized = false) :
    final perm (update perm s m) =
      { s with state := absorb perm s.rate s.state (m ++ spongePad s.rate s.lopad s.hipad (m.length % s.rate)),
               filled := 0, finalized := true } := by
  rw [update_fresh perm s m hr h0]
  unfold final
  simp only [hf, Bool.false_eq_true, if_false]
  have hT : (tailBlock s.rate m).length < s.rate := by
    rw [Spec.length_tailBlock]; exact Nat.mod_lt _ hr
  rw [← Spec.length_tailBlock, pad_xor _ _ _ _ _ hT]
  rw [Spec.length_tailBlock s.rate m]
  conv_rhs => unfold absorb
  rw [blocks_padded _ hr, List.foldl_append, Spec.length_tailBlock]
  rfl

theorem readByte_spec (s : Ctx) (st : List Byte) (n : Nat) (hr : 0 < s.rate)
    (h1 : s.state = perm^[n / s.rate] st) (h2 : s.filled = n % s.rate) :
    readByte perm s = (squeezeByte perm s.rate st n,
      { s with state := perm^[(n + 1) / s.rate] st, filled := (n + 1) % s.rate }) := by
  unfold readByte squeezeByte
  simp only [h1, h2]
  have hdm := Nat.div_add_mod n s.rate
  have hlt := Nat.mod_lt n hr
  generalize n % s.rate = q at *
  generalize n / s.rate = k at *
  subst hdm
  congr 1
  by_cases c : q + 1 = s.rate
  · rw [if_pos c, Nat.add_assoc, c, ← Nat.mul_succ, Nat.mul_div_cancel_left _ hr, Nat.mul_mod_right,
      Function.iterate_succ_apply']
  · rw [if_neg c, Nat.add_assoc, Nat.mul_add_div hr, Nat.div_eq_of_lt (by omega : q + 1 < s.rate),
      Nat.mul_add_mod, Nat.mod_eq_of_lt (by omega : q + 1 < s.rate)]
    rfl

theorem read_spec (len : Nat) (s : Ctx) (st : List Byte) (n : Nat) (hr : 0 < s.rate)
    (h1 : s.state = perm^[n / s.rate] st) (h2 : s.filled = n % s.rate) :
    read perm s len = ((List.range len).map fun i => squeezeByte perm s.rate st (n + i),
      { s with state := perm^[(n + len) / s.rate] st, filled := (n + len) % s.rate }) := by
  induction len generalizing s n with
  | zero => simp only [read, List.range_zero, List.map_nil, Nat.add_zero, ← h1, ← h2]
  | succ len ih =>
    simp only [read]
    rw [readByte_spec perm s st n hr h1 h2]
    simp only
    rw [ih _ (n + 1) (by exact hr) rfl rfl]
    simp only [List.range_succ_eq_map, List.map_cons, List.map_map]
    congr 1
    · congr 1
      apply List.map_congr_left
      intro i _
      simp only [Function.comp, Nat.succ_eq_add_one]
      congr 1; omega
    · have : n + 1 + len = n + (len + 1) := by omega
      rw [this]

theorem read_zero (len : Nat) (s : Ctx) (hr : 0 < s.rate) (h0 : s.filled = 0) :
    read perm s len = ((List.range len).map (squeezeByte perm s.rate s.state),
      { s with state := perm^[len / s.rate] s.state, filled := len % s.rate }) := by
  rw [read_spec perm len s s.state 0 hr (by simp) (by simp [h0])]
  simp

end Sponge
