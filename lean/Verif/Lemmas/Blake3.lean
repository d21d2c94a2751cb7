import Verif.Spec.Blake3
import Verif.Model.Blake3
import Verif.Lemmas.Blake2

namespace Blake3
open Spec

/-! ### The compression function -/

theorem inner_spec {st : List Word} {v : Nat → Word} (h : Blake2.Rv 16 st v) (m : List Byte) (s : List Nat)
    (m' : Nat → Word) (hm : ∀ i, i < 16 → Spec.Blake2.leWord 32 m (s.getD i 0) = m' i) :
    Blake2.Rv 16 (Blake2.innerBlock Blake2.prmS st m s) (Spec.Blake3.round m' v) := by
  unfold Blake2.innerBlock Spec.Blake3.round
  simp only [Blake2.loadWord_eq]
  simp only [show List.range 4 = [0, 1, 2, 3] from rfl, List.foldl_cons, List.foldl_nil]
  rw [hm 0 (by decide), hm 1 (by decide), hm 2 (by decide), hm 3 (by decide), hm 4 (by decide), hm 5 (by decide),
    hm 6 (by decide), hm 7 (by decide), hm 8 (by decide), hm 9 (by decide), hm 10 (by decide), hm 11 (by decide),
    hm 12 (by decide), hm 13 (by decide), hm 14 (by decide), hm 15 (by decide)]
  refine Blake2.qround_spec Blake2.matchS ?_ ?_ ?_ ?_ ?_ ?_ ?_ ?_ ?_ ?_ ?_ _ _ <;> first | (show _ < _; decide) | (show _ ≠ _; decide) | skip
  refine Blake2.qround_spec Blake2.matchS ?_ ?_ ?_ ?_ ?_ ?_ ?_ ?_ ?_ ?_ ?_ _ _ <;> first | (show _ < _; decide) | (show _ ≠ _; decide) | skip
  refine Blake2.qround_spec Blake2.matchS ?_ ?_ ?_ ?_ ?_ ?_ ?_ ?_ ?_ ?_ ?_ _ _ <;> first | (show _ < _; decide) | (show _ ≠ _; decide) | skip
  refine Blake2.qround_spec Blake2.matchS ?_ ?_ ?_ ?_ ?_ ?_ ?_ ?_ ?_ ?_ ?_ _ _ <;> first | (show _ < _; decide) | (show _ ≠ _; decide) | skip
  refine Blake2.qround_spec Blake2.matchS ?_ ?_ ?_ ?_ ?_ ?_ ?_ ?_ ?_ ?_ ?_ _ _ <;> first | (show _ < _; decide) | (show _ ≠ _; decide) | skip
  refine Blake2.qround_spec Blake2.matchS ?_ ?_ ?_ ?_ ?_ ?_ ?_ ?_ ?_ ?_ ?_ _ _ <;> first | (show _ < _; decide) | (show _ ≠ _; decide) | skip
  refine Blake2.qround_spec Blake2.matchS ?_ ?_ ?_ ?_ ?_ ?_ ?_ ?_ ?_ ?_ ?_ _ _ <;> first | (show _ < _; decide) | (show _ ≠ _; decide) | skip
  refine Blake2.qround_spec Blake2.matchS h ?_ ?_ ?_ ?_ ?_ ?_ ?_ ?_ ?_ ?_ _ _ <;> first | (show _ < _; decide) | (show _ ≠ _; decide)

/-- `lut` after `r` rounds. -/
def lut : Nat → List Nat
  | 0 => List.range 16
  | r + 1 => (lut r).map fun l => tab.getD l 0

/-- The message index used in round `r`. -/
def permIdx : Nat → Nat → Nat
  | 0, i => i
  | r + 1, i => permIdx r (Spec.Blake3.PERM i)

theorem permuted_eq (m : Nat → Word) (r : Nat) : ∀ i, Spec.Blake3.permuted m r i = m (permIdx r i) := by
  induction r with
  | zero => intro i; rfl
  | succ r ih => intro i; exact ih _

theorem lut_eq : ∀ r, r < 7 → ∀ i, i < 16 → (lut r).getD i 0 = permIdx r i := by decide

theorem compress_eq (h : List Word) (m : List Byte) (t : BitVec 64) (b d : Word) :
    compress h m t b d = Spec.Blake3.compress h m t b d := by
  unfold compress Spec.Blake3.compress
  simp only []
  have gen : ∀ (v0 : List Word) (w0 : Nat → Word), Blake2.Rv 16 v0 w0 → ∀ n, n ≤ 7 →
      ∃ v, (List.range n).foldl (fun (vl : List Word × List Nat) _ =>
        (Blake2.innerBlock Blake2.prmS vl.1 m vl.2, vl.2.map fun l => tab.getD l 0)) (v0, List.range 16) = (v, lut n) ∧
       Blake2.Rv 16 v ((List.range n).foldl (fun v r =>
          Spec.Blake3.round (Spec.Blake3.permuted (Spec.Blake2.leWord 32 m) r) v) w0) := by
    intro v0 w0 h0 n
    induction n with
    | zero => intro _; exact ⟨v0, rfl, h0⟩
    | succ n ih =>
      intro hn
      obtain ⟨v, e, hv⟩ := ih (by omega)
      rw [List.range_succ (n := n), List.foldl_append, List.foldl_append, e]
      simp only [List.foldl_cons, List.foldl_nil]
      refine ⟨_, rfl, inner_spec hv m _ _ ?_⟩
      intro i hi
      rw [permuted_eq, lut_eq n (by omega) i hi]
  have h0 : Blake2.Rv 16 ((List.range 8).map (fun i => h.getD i 0) ++
    [IV.getD 0 0, IV.getD 1 0, IV.getD 2 0, IV.getD 3 0, t.setWidth 32, (t >>> 32).setWidth 32, b, d])
    (fun i =>
    if i < 8 then h.getD i 0
    else if i < 12 then Spec.Blake3.IV.getD (i - 8) 0
    else if i = 12 then t.setWidth 32
    else if i = 13 then (t >>> 32).setWidth 32
    else if i = 14 then b
    else d) := by
    refine ⟨by simp, ?_⟩
    intro i hi
    beta_reduce
    rw [List.getD_eq_getElem?_getD, List.getElem?_append]
    by_cases c : i < 8
    · rw [if_pos (by simpa using c), if_pos c, List.getElem?_map, List.getElem?_range c]
      rfl
    · rw [if_neg (by simpa using c), if_neg c, List.length_map, List.length_range]
      have : i = 8 ∨ i = 9 ∨ i = 10 ∨ i = 11 ∨ i = 12 ∨ i = 13 ∨ i = 14 ∨ i = 15 := by omega
      rcases this with h | h | h | h | h | h | h | h <;> subst h <;> rfl
  obtain ⟨v, e, hl, hv⟩ := gen _ _ h0 7 (le_refl _)
  rw [e]
  simp only []
  generalize (List.range 7).foldl _ _ = w at hv
  rw [show List.range 16 = List.range 8 ++ (List.range 8).map (8 + ·) from rfl, List.map_append, List.map_map]
  congr 1
  · apply List.map_congr_left
    intro i hi
    rw [List.mem_range] at hi
    rw [if_pos hi, hv i (by omega), hv (i + 8) (by omega)]
  · apply List.map_congr_left
    intro i hi
    rw [List.mem_range] at hi
    simp only [Function.comp]
    rw [if_neg (by omega), hv (i + 8) (by omega), BitVec.xor_comm, Nat.add_comm 8 i, Nat.add_sub_cancel]

theorem wordBytes_eq (ws : List Word) : wordBytes ws = Spec.Blake3.leBytes ws := by
  unfold wordBytes Spec.Blake3.leBytes
  congr 1
  funext w
  simp only [show List.range 4 = [0, 1, 2, 3] from rfl, List.map_cons, List.map_nil]
  have e : ∀ j, (w >>> (8 * j)).setWidth 8 = BitVec.ofNat 8 (w.toNat / 256 ^ j) := by
    intro j
    apply BitVec.eq_of_toNat_eq
    rw [BitVec.toNat_setWidth, BitVec.toNat_ofNat, BitVec.toNat_ushiftRight, Nat.shiftRight_eq_div_pow, Nat.pow_mul]
  have e0 := e 0
  have e1 := e 1
  have e2 := e 2
  have e3 := e 3
  rw [← e0, ← e1, ← e2, ← e3]
  simp

theorem length_leBytes (ws : List Word) : (Spec.Blake3.leBytes ws).length = 4 * ws.length := by
  unfold Spec.Blake3.leBytes
  induction ws with
  | nil => rfl
  | cons w ws ih => rw [List.flatMap_cons, List.length_append, ih]; simp; omega

/-- What is assumed of the compression function in the tree proofs: it reads 8 words and returns 16. -/
structure CompOK (comp : List Word → List Byte → BitVec 64 → Word → Word → List Word) : Prop where
  len : ∀ h m t b d, (comp h m t b d).length = 16
  take : ∀ h m t b d, comp (h.take 8) m t b d = comp h m t b d

theorem compOK : CompOK compress where
  len := by intros; simp [compress]
  take := by
    intro h m t b d
    have : ∀ i, i < 8 → (h.take 8).getD i 0 = h.getD i 0 := by
      intro i hi
      rw [List.getD_eq_getElem?_getD, List.getElem?_take, if_pos hi, List.getD_eq_getElem?_getD]
    unfold compress
    simp only [show List.range 8 = [0, 1, 2, 3, 4, 5, 6, 7] from rfl, List.map_cons, List.map_nil,
      this 0 (by decide), this 1 (by decide), this 2 (by decide), this 3 (by decide), this 4 (by decide),
      this 5 (by decide), this 6 (by decide), this 7 (by decide)]

end Blake3
