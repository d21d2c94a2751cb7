import Verif.Lemmas.LargeInt
import Mathlib.Tactic.LinearCombination

/-! # `li_add`, `li_sub`, `li_mul` and the shifted subtraction -/
namespace LargeInt

/-- Something read word by word. -/
abbrev Reader := Store → Nat → W

/-- Words not yet reached are not changed by writing `out`. -/
def Later (R : Reader) (out : View) : Prop := ∀ s i x j, i < j → R (vset s out i x) j = R s j

/-- The digits written so far. -/
def Wrote (s : Store) (out : View) (o : Nat → Nat) (n : Nat) : Prop := (∀ i, o i < 2 ^ 32) ∧ ∀ i < n, i < out.len → (vget s out i).toNat = o i

theorem Wrote.step {s : Store} {out : View} {o : Nat → Nat} {n : Nat} (h : Wrote s out o n) (hv : out.base + out.len ≤ out.intd.len) (x : W) :
    Wrote (vset s out n x) out (fun i => if i = n then x.toNat else o i) (n + 1) := by
  refine ⟨fun i => ?_, fun i hi hl => ?_⟩
  · dsimp only; split
    · exact x.isLt
    · exact h.1 i
  · dsimp only
    by_cases e : i = n
    · subst e; rw [vset_at s out hv i x hl, if_pos rfl]
    · rw [if_neg e, vset_ne s out out rfl n i x (by omega)]
      exact h.2 i (by omega) hl

theorem wsum_upd (o : Nat → Nat) (n x : Nat) : wsum (fun i => if i = n then x else o i) (n + 1) = wsum o n + x * 2 ^ (32 * n) := by
  rw [wsum, if_pos rfl, wsum_congr (g := o)]
  intro i hi
  exact if_neg (by omega)

theorem Wrote.val {s : Store} {out : View} {o : Nat → Nat} {n : Nat} (h : Wrote s out o n) (hn : out.len ≤ n) :
    vval s out = wsum o n % 2 ^ (32 * out.len) := by
  apply vval_eq
  intro i hi
  rw [h.2 i (by omega) hi, wsum_digit h.1 n i (by omega)]

/-- `li_add` with arbitrary sources. -/
def addG (Ra Rb : Reader) (out : View) (st : Store × BitVec 64) (i : Nat) : Store × BitVec 64 :=
  let x := st.2
  let x := x + (Ra st.1 i).setWidth 64
  let x := x + (Rb st.1 i).setWidth 64
  let s := vset st.1 out i (x.setWidth 32)
  (s, x >>> 32)

theorem add_loop (Ra Rb : Reader) (out : View) (hv : out.base + out.len ≤ out.intd.len) (ha : Later Ra out) (hb : Later Rb out) (s : Store) (n : Nat) :
    let st := (List.range n).foldl (addG Ra Rb out) (s, 0)
    (∀ j ≥ n, Ra st.1 j = Ra s j ∧ Rb st.1 j = Rb s j) ∧ st.2.toNat < 2 ∧
      ∃ o, Wrote st.1 out o n ∧ wsum o n + st.2.toNat * 2 ^ (32 * n) = wsum (fun i => (Ra s i).toNat) n + wsum (fun i => (Rb s i).toNat) n := by
  induction n with
  | zero => exact ⟨fun _ _ => ⟨rfl, rfl⟩, by simp, fun _ => 0, ⟨fun _ => Nat.two_pow_pos 32, fun _ h => by omega⟩, by simp [wsum]⟩
  | succ n ih =>
    simp only [List.range_succ, List.foldl_append, List.foldl_cons, List.foldl_nil] at ih ⊢
    generalize (List.range n).foldl (addG Ra Rb out) (s, 0) = st at ih ⊢
    obtain ⟨hr, hx, o, ho, he⟩ := ih
    obtain ⟨ra, rb⟩ := hr n (by omega)
    have la := (Ra s n).isLt
    have lb := (Rb s n).isLt
    have hy : (st.2 + (Ra st.1 n).setWidth 64 + (Rb st.1 n).setWidth 64).toNat = st.2.toNat + (Ra s n).toNat + (Rb s n).toNat := by
      rw [ra, rb, BitVec.toNat_add, BitVec.toNat_add, BitVec.toNat_setWidth, BitVec.toNat_setWidth]; omega
    unfold addG
    dsimp only
    generalize st.2 + (Ra st.1 n).setWidth 64 + (Rb st.1 n).setWidth 64 = y at hy ⊢
    refine ⟨fun j hj => ?_, ?_, _, ho.step hv (y.setWidth 32), ?_⟩
    · rw [ha _ _ _ _ (by omega), hb _ _ _ _ (by omega)]
      exact hr j (by omega)
    · simp only [BitVec.toNat_ushiftRight, Nat.shiftRight_eq_div_pow]; omega
    · rw [wsum_upd]
      simp only [BitVec.toNat_ushiftRight, Nat.shiftRight_eq_div_pow, BitVec.toNat_setWidth, wsum]
      have d := Nat.div_add_mod y.toNat (2 ^ 32)
      have p : (2 : Nat) ^ (32 * (n + 1)) = 2 ^ 32 * 2 ^ (32 * n) := by rw [← pow_add]; congr 1; ring
      rw [p]
      generalize y.toNat / 2 ^ 32 = c at *
      generalize y.toNat % 2 ^ 32 = w at *
      generalize (2 : Nat) ^ (32 * n) = P at *
      rw [hy] at d
      linear_combination he + P * d

/-- `li_sub` with arbitrary sources. -/
def subG (Ra Rb : Reader) (out : View) (st : Store × BitVec 64) (i : Nat) : Store × BitVec 64 :=
  let x := st.2
  let x := x + (Ra st.1 i).setWidth 64
  let x := x - (Rb st.1 i).setWidth 64
  let s := vset st.1 out i (x.setWidth 32)
  (s, ((x >>> 32).setWidth 32).signExtend 64)

/-- The borrow as the code keeps it. -/
def borrow (b : Bool) : BitVec 64 := if b then -1 else 0

theorem sub_word (bo : Bool) (a b : W) : ∃ bo' : Bool, let x := borrow bo + a.setWidth 64 - b.setWidth 64
    ((x >>> 32).setWidth 32).signExtend 64 = borrow bo' ∧ (x.setWidth 32).toNat + b.toNat + bo.toNat = a.toNat + bo'.toNat * 2 ^ 32 := by
  have la := a.isLt
  have lb := b.isLt
  have hx : (borrow bo + a.setWidth 64 - b.setWidth 64).toNat = (2 ^ 64 - bo.toNat + a.toNat + 2 ^ 64 - b.toNat) % 2 ^ 64 := by
    rw [BitVec.toNat_sub, BitVec.toNat_add, BitVec.toNat_setWidth, BitVec.toNat_setWidth]
    cases bo
    · simp [borrow]; omega
    · simp [borrow]; omega
  generalize borrow bo + a.setWidth 64 - b.setWidth 64 = x at hx
  have hb : bo.toNat ≤ 1 := by cases bo <;> simp
  by_cases h : b.toNat + bo.toNat ≤ a.toNat
  · refine ⟨false, ?_, ?_⟩
    · have : (x >>> 32).setWidth 32 = 0#32 := by
        apply BitVec.eq_of_toNat_eq
        simp only [BitVec.toNat_setWidth, BitVec.toNat_ushiftRight, Nat.shiftRight_eq_div_pow]
        rw [hx]; simp; omega
      rw [this]; rfl
    · simp only [BitVec.toNat_setWidth, Bool.toNat_false]; omega
  · refine ⟨true, ?_, ?_⟩
    · have : (x >>> 32).setWidth 32 = 0xffffffff#32 := by
        apply BitVec.eq_of_toNat_eq
        simp only [BitVec.toNat_setWidth, BitVec.toNat_ushiftRight, Nat.shiftRight_eq_div_pow]
        rw [hx]; simp; omega
      rw [this]; rfl
    · simp only [BitVec.toNat_setWidth, Bool.toNat_true]; omega

theorem sub_loop (Ra Rb : Reader) (out : View) (hv : out.base + out.len ≤ out.intd.len) (ha : Later Ra out) (hb : Later Rb out) (s : Store) (n : Nat) :
    let st := (List.range n).foldl (subG Ra Rb out) (s, 0)
    (∀ j ≥ n, Ra st.1 j = Ra s j ∧ Rb st.1 j = Rb s j) ∧ ∃ bo : Bool, st.2 = borrow bo ∧
      ∃ o, Wrote st.1 out o n ∧ wsum o n + wsum (fun i => (Rb s i).toNat) n = wsum (fun i => (Ra s i).toNat) n + bo.toNat * 2 ^ (32 * n) := by
  induction n with
  | zero => exact ⟨fun _ _ => ⟨rfl, rfl⟩, false, rfl, fun _ => 0, ⟨fun _ => Nat.two_pow_pos 32, fun _ h => by omega⟩, by simp [wsum]⟩
  | succ n ih =>
    simp only [List.range_succ, List.foldl_append, List.foldl_cons, List.foldl_nil] at ih ⊢
    generalize (List.range n).foldl (subG Ra Rb out) (s, 0) = st at ih ⊢
    obtain ⟨hr, bo, hx, o, ho, he⟩ := ih
    obtain ⟨ra, rb⟩ := hr n (by omega)
    obtain ⟨bo', e1, e2⟩ := sub_word bo (Ra s n) (Rb s n)
    unfold subG
    rw [hx, ra, rb]
    dsimp only at e1 e2 ⊢
    generalize borrow bo + (Ra s n).setWidth 64 - (Rb s n).setWidth 64 = y at e1 e2 ⊢
    refine ⟨fun j hj => ?_, bo', e1, _, ho.step hv (y.setWidth 32), ?_⟩
    · rw [ha _ _ _ _ (by omega), hb _ _ _ _ (by omega)]
      exact hr j (by omega)
    · rw [wsum_upd]
      simp only [wsum]
      have p : (2 : Nat) ^ (32 * (n + 1)) = 2 ^ 32 * 2 ^ (32 * n) := by rw [← pow_add]; congr 1; ring
      rw [p]
      generalize (2 : Nat) ^ (32 * n) = P at *
      generalize (y.setWidth 32).toNat = w at *
      linear_combination he + P * e2

/-- Frame of the loops. -/
theorem fold_out {α : Type} (f : Store × α → Nat → Store × α) (out : View) (hf : ∀ st i, ∃ x, (f st i).1 = vset st.1 out i x) (l : List Nat) (st : Store × α)
    (k : Nat) (hk : k < out.intd.p.getD 0 ∨ out.intd.p.getD 0 + out.intd.len ≤ k) : (l.foldl f st).1 k = st.1 k := by
  induction l generalizing st with
  | nil => rfl
  | cons i l ih =>
    rw [List.foldl_cons, ih]
    obtain ⟨x, e⟩ := hf st i
    rw [e, vset_out _ _ _ _ _ hk]

end LargeInt
