import Verif.Model.EccCtx
import Verif.Spec.Layout
import Mathlib.Tactic.Ring
import Mathlib.Tactic.Linarith
import Mathlib.Data.List.Chain

/-! # Set-up of elliptic curve contexts: lemmas -/

namespace EccCtx
open Vlong Layout
open RsaDer (Mem)
open Pkcs1 (bitsWcnt)
open Pkcs1Glue (HashObj two funcs outBytes store)

theorem ofNat_toNat {x : Nat} (h : x < 2 ^ 32) : (BitVec.ofNat 32 x).toNat = x := by
  rw [BitVec.toNat_ofNat]; exact Nat.mod_eq_of_lt h

/-- What an object of `n` integers of `w` words looks like. -/
structure Obj (m : Mem) (base n w : Nat) : Prop where
  off : ∀ i < n, m (base + i) = BitVec.ofNat 32 (4 * n + 4 * (w + 1) * i)
  cnt : ∀ i < n, m (base + n + (w + 1) * i) = BitVec.ofNat 32 w

theorem storeAt_in (m : Mem) (i : Nat) (ws : List W) (k : Nat) (h : k < ws.length) : storeAt m i ws (i + k) = ws.getD k 0 := by
  unfold storeAt; rw [if_pos (by omega)]; congr 1; omega
theorem storeAt_out (m : Mem) (i : Nat) (ws : List W) (j : Nat) (h : j < i ∨ i + ws.length ≤ j) : storeAt m i ws j = m j := by
  unfold storeAt; rw [if_neg (by omega)]

theorem put_self (m : Mem) (i : Nat) (v : W) : m.put i v i = v := by simp [RsaDer.Mem.put]
theorem put_ne (m : Mem) (i j : Nat) (v : W) (h : j ≠ i) : m.put i v j = m j := by simp [RsaDer.Mem.put, h]

theorem mul_lt_of {s i n : Nat} (h : i < n) : s * i + s ≤ s * n := by
  calc s * i + s = s * (i + 1) := by ring
    _ ≤ s * n := Nat.mul_le_mul_left _ h

theorem partsInit_spec (n : Nat) (m : Mem) (base bits : Nat) (hb : 4 * n + bitsSize bits * n < 2 ^ 32) :
    Obj (partsInit n m base bits) base n (bitsWcnt bits) ∧
      ∀ j, j < base ∨ base + n + (bitsWcnt bits + 1) * n ≤ j → partsInit n m base bits j = m j := by
  unfold bitsSize at hb
  set w := bitsWcnt bits with hw
  set m0 := storeAt m base ((List.range n).map fun i => BitVec.ofNat 32 (4 * n + bitsSize bits * i)) with hm0
  have h0 : ∀ i < n, m0 (base + i) = BitVec.ofNat 32 (4 * n + 4 * (w + 1) * i) := by
    intro i hi
    rw [hm0, storeAt_in _ _ _ _ (by simpa using hi)]
    simp [List.getD_eq_getElem?_getD, hi, bitsSize, ← hw]
  have key : ∀ k ≤ n, ∀ M, M = (List.range k).foldl (fun m i => m.put (base + (m (base + i)).toNat / 4) (BitVec.ofNat 32 w)) m0 →
      (∀ i < n, M (base + i) = BitVec.ofNat 32 (4 * n + 4 * (w + 1) * i)) ∧ (∀ i < k, M (base + n + (w + 1) * i) = BitVec.ofNat 32 w) ∧
      (∀ j, j < base ∨ base + n + (w + 1) * k ≤ j → M j = m0 j) := by
    intro k
    induction k with
    | zero => intro _ M hM; subst hM; exact ⟨h0, by omega, fun _ _ => rfl⟩
    | succ k ih =>
      intro hk M hM
      rw [List.range_succ, List.foldl_append] at hM
      obtain ⟨i1, i2, i3⟩ := ih (by omega) _ rfl
      simp only [List.foldl_cons, List.foldl_nil] at hM
      set N := (List.range k).foldl (fun m i => m.put (base + (m (base + i)).toNat / 4) (BitVec.ofNat 32 w)) m0
      have hlt := mul_lt_of (s := 4 * (w + 1)) (show k < n by omega)
      have e : base + (N (base + k)).toNat / 4 = base + n + (w + 1) * k := by
        rw [i1 k (by omega), ofNat_toNat (by omega), show 4 * n + 4 * (w + 1) * k = 4 * (n + (w + 1) * k) by ring, Nat.mul_div_cancel_left _ (by decide)]
        omega
      rw [e] at hM
      subst hM
      refine ⟨fun i hi => ?_, fun i hi => ?_, fun j hj => ?_⟩
      · rw [put_ne _ _ _ _ (by omega)]; exact i1 i hi
      · by_cases h : i = k
        · subst h; exact put_self _ _ _
        · have := mul_lt_of (s := w + 1) (show i < k by omega)
          rw [put_ne _ _ _ _ (by omega)]; exact i2 i (by omega)
      · rw [show (w + 1) * (k + 1) = (w + 1) * k + (w + 1) by ring] at hj
        rw [put_ne _ _ _ _ (by omega)]
        exact i3 j (by omega)
  obtain ⟨a, b, c⟩ := key n le_rfl (partsInit n m base bits) rfl
  refine ⟨⟨a, b⟩, fun j hj => ?_⟩
  rw [c j hj, hm0, storeAt_out _ _ _ _ (by simp; rcases hj with h | h; · exact Or.inl h
                                           · right; nlinarith)]

theorem Obj.congr {m m' : Mem} {base n w : Nat} (h : Obj m base n w) (he : ∀ j, base ≤ j → j < base + n + (w + 1) * n → m' j = m j) :
    Obj m' base n w := by
  refine ⟨fun i hi => ?_, fun i hi => ?_⟩
  · rw [he _ (by omega) (by have := Nat.zero_le ((w + 1) * n); omega)]; exact h.off i hi
  · have := mul_lt_of (s := w + 1) hi
    rw [he _ (by omega) (by omega)]; exact h.cnt i hi

theorem Obj.ints {m : Mem} {base n w : Nat} (h : Obj m base n w) (hb : 4 * n + 4 * (w + 1) * n < 2 ^ 32) :
    objInts m base n = (List.range n).map fun i => base + n + (w + 1) * i := by
  unfold objInts part
  refine List.map_congr_left fun i hi => ?_
  rw [List.mem_range] at hi
  have := mul_lt_of (s := 4 * (w + 1)) hi
  rw [h.off i hi, ofNat_toNat (by omega), show 4 * n + 4 * (w + 1) * i = 4 * (n + (w + 1) * i) by ring, Nat.mul_div_cancel_left _ (by decide)]
  omega

theorem Obj.regions {m : Mem} {base n w : Nat} (h : Obj m base n w) (hb : 4 * n + 4 * (w + 1) * n < 2 ^ 32) (hw : w < 2 ^ 32) :
    objRegions m base n = (base, n) :: (List.range n).map fun i => (base + n + (w + 1) * i, 1 + w) := by
  unfold objRegions
  rw [h.ints hb, List.map_map]
  congr 1
  refine List.map_congr_left fun i hi => ?_
  rw [List.mem_range] at hi
  simp only [Function.comp, intAt]
  rw [h.cnt i hi, ofNat_toNat hw]

/-- Parts in the order of their places, each ending before the next. -/
theorem apart_of_chain {rs : List Region} {size : Nat} (h : rs.IsChain fun a b => a.1 + a.2 ≤ b.1) (hs : ∀ r ∈ rs, 4 * (r.1 + r.2) ≤ size) :
    Apart rs size := by
  refine ⟨?_, hs⟩
  have : IsTrans Region fun a b => a.1 + a.2 ≤ b.1 := ⟨fun a b c h1 h2 => by omega⟩
  exact (List.isChain_iff_pairwise.mp h).imp fun h => Or.inl h

/-- The order of the list does not matter. -/
theorem Apart.perm {rs rs' : List Region} {size : Nat} (h : Apart rs size) (hp : rs.Perm rs') : Apart rs' size :=
  ⟨(hp.pairwise_iff (fun h => h.symm)).mp h.1, fun r hr => h.2 r (hp.mem_iff.mpr hr)⟩

/-- Several objects set up one after the other, each at the place that the header gives. -/
theorem inits_spec (H w bits : Nat) (hw : bitsWcnt bits = w) (base : Nat → Nat) : ∀ (fs : List (Nat × Nat)) (m : Mem),
    (∀ f ∈ fs, f.1 < H ∧ (m f.1).toNat = 4 * base f.1 ∧ H ≤ base f.1 ∧ 4 * f.2 + 4 * (w + 1) * f.2 < 2 ^ 32) →
    fs.Pairwise (fun f g => base f.1 + f.2 + (w + 1) * f.2 ≤ base g.1 ∨ base g.1 + g.2 + (w + 1) * g.2 ≤ base f.1) →
    ∀ M, M = fs.foldl (fun m f => partsInit f.2 m (m.at_ f.1) bits) m →
    (∀ f ∈ fs, Obj M (base f.1) f.2 w) ∧ ∀ j, (∀ f ∈ fs, j < base f.1 ∨ base f.1 + f.2 + (w + 1) * f.2 ≤ j) → M j = m j
  | [], m, _, _, M, hM => by subst hM; exact ⟨fun f hf => by simp at hf, fun _ _ => rfl⟩
  | f :: fs, m, hf, hp, M, hM => by
    obtain ⟨h1, h2, h3, h4⟩ := hf f (List.mem_cons_self)
    have hat : m.at_ f.1 = base f.1 := by unfold RsaDer.Mem.at_; rw [h2, Nat.mul_div_cancel_left _ (by decide)]
    rw [List.foldl_cons, hat] at hM
    obtain ⟨o, u⟩ := partsInit_spec f.2 m (base f.1) bits (by unfold bitsSize; rw [hw]; exact h4)
    rw [hw] at o u
    rw [List.pairwise_cons] at hp
    obtain ⟨a, b⟩ := inits_spec H w bits hw base fs _ (fun g hg => by
      obtain ⟨g1, g2, g3, g4⟩ := hf g (List.mem_cons_of_mem _ hg)
      exact ⟨g1, by rw [u g.1 (Or.inl (by omega))]; exact g2, g3, g4⟩) hp.2 M hM
    refine ⟨fun g hg => ?_, fun j hj => ?_⟩
    · rcases List.mem_cons.mp hg with rfl | hg
      · exact o.congr fun j j1 j2 => b j fun g' hg' => by have := hp.1 g' hg'; omega
      · exact a g hg
    · rw [b j fun g hg => hj g (List.mem_cons_of_mem _ hg), u j (hj f List.mem_cons_self)]

end EccCtx
