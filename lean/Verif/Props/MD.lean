import Verif.Lemmas.MD

/-!
# Property C15 (and C14 for this family): SHA-1, SHA-2, SM3 streaming

The compression function, the chaining-value serialisation and the digest length are arbitrary
(`MD.Alg`); the word size `w` is 4 (SHA-1, SHA-224, SHA-256, SM3) or 8 (SHA-384, SHA-512, SHA-512/t).
-/

namespace Props
open MD
open Spec (fitTo)

/-- The digest of a message, as the standards define it. -/
def mdDigest {σ : Type} (A : Alg σ) (m : List (BitVec 8)) : List (BitVec 8) :=
  (A.out (Spec.mdHash A.comp A.H0 (16 * A.w) (2 * A.w) m)).take A.hlen

theorem md_final_state {σ : Type} (A : Alg σ) (hw : A.w = 4 ∨ A.w = 8) (junk : List (BitVec 8))
    (hj : junk.length = 16 * A.w) (ms : List (List (BitVec 8))) (hlen : ms.flatten.length < 2 ^ 61)
    (ho : ∀ h, A.hlen ≤ (A.out h).length ∧ (A.out h).length ≤ 16 * A.w) :
    let s := final A (ms.foldl (update A) (init A junk))
    s.finalized = true ∧ s.msg.take A.hlen = mdDigest A ms.flatten := by
  intro s
  have hB : 0 < 16 * A.w := by omega
  have r0 : Rel A (init A junk) (A.H0, []) := ⟨rfl, rfl, by simp [init], hj, by simpa using hB⟩
  obtain ⟨r1, l1, f1⟩ := updates_spec A ms (init A junk) _ r0
  rw [Spec.foldl_pushByte A.comp _ hB] at r1
  obtain ⟨g1, g2, g3⟩ := final_spec A hw _ _ _ r1 f1
  refine ⟨g2, ?_⟩
  have hH : s.H = Spec.mdHash A.comp A.H0 (16 * A.w) (2 * A.w) ms.flatten := by
    rw [show s.H = _ from g1]
    unfold Spec.mdHash Spec.mdPad
    have hl : (ms.foldl (update A) (init A junk)).len.toNat = 8 * ms.flatten.length := by
      rw [l1]
      simp only [init]
      rw [BitVec.toNat_add, BitVec.toNat_mul, BitVec.toNat_ofNat]
      simp
      simp at hlen
      omega
    rw [lenField_eq A.w hw, hl]
    have hl2 := Spec.length_tailBlock (16 * A.w) ms.flatten
    obtain ⟨P, T, hm, hd, hT, hb, ht⟩ := Spec.split_aligned hB ms.flatten
    rw [ht] at hl2 ⊢
    rw [hb]
    conv_rhs => rw [hm]
    rw [List.append_assoc P, List.append_assoc P, List.append_assoc P, Spec.blocks_append_aligned hB hd,
      List.foldl_append]
    congr 5
    · have h3 : (P ++ T).length + 1 + 2 * A.w = P.length + (T.length + 1 + 2 * A.w) := by
        rw [List.length_append]; omega
      obtain ⟨c, hc⟩ := hd
      rw [h3, hc, Nat.mul_add_mod]
    · rw [hm]
  have g3' := g3 (ho _).2
  have : s.msg.take A.hlen = (A.out s.H).take A.hlen := by
    conv_rhs => rw [show A.out s.H = _ from g3'.symm]
    rw [List.take_take, Nat.min_eq_left (ho _).1]
  rw [this, hH]; rfl

/-- C15: for every sequence of `Update` calls (and whatever the message buffer held before), `Final`
returns the Merkle-Damgard digest of the concatenated data, truncated or zero-filled to `t` bytes. -/
theorem C15_digest {σ : Type} (A : Alg σ) (hw : A.w = 4 ∨ A.w = 8) (junk : List (BitVec 8))
    (hj : junk.length = 16 * A.w) (ms : List (List (BitVec 8))) (hlen : ms.flatten.length < 2 ^ 61)
    (ho : ∀ h, A.hlen ≤ (A.out h).length ∧ (A.out h).length ≤ 16 * A.w) (t : Nat) :
    (finalOut A (ms.foldl (update A) (init A junk)) t).1 = fitTo (mdDigest A ms.flatten) t := by
  obtain ⟨h1, h2⟩ := md_final_state A hw junk hj ms hlen ho
  unfold finalOut fitTo
  simp only
  apply List.map_congr_left
  intro i _
  have hdl : (mdDigest A ms.flatten).length = A.hlen := by
    unfold mdDigest; rw [List.length_take, Nat.min_eq_left (ho _).1]
  by_cases c : i < A.hlen
  · rw [if_pos c, ← h2, List.getD_eq_getElem?_getD, List.getD_eq_getElem?_getD, List.getElem?_take, if_pos c]
  · rw [if_neg c, List.getD_eq_getElem?_getD, List.getElem?_eq_none (by omega)]; rfl

/-- C15: in particular two ways of cutting the same data into `Update` calls give the same digest. -/
theorem C15_split_independent {σ : Type} (A : Alg σ) (hw : A.w = 4 ∨ A.w = 8) (junk junk' : List (BitVec 8))
    (hj : junk.length = 16 * A.w) (hj' : junk'.length = 16 * A.w) (ms ms' : List (List (BitVec 8)))
    (heq : ms.flatten = ms'.flatten) (hlen : ms.flatten.length < 2 ^ 61)
    (ho : ∀ h, A.hlen ≤ (A.out h).length ∧ (A.out h).length ≤ 16 * A.w) (t : Nat) :
    (finalOut A (ms.foldl (update A) (init A junk)) t).1 =
      (finalOut A (ms'.foldl (update A) (init A junk')) t).1 := by
  rw [C15_digest A hw junk hj ms hlen ho, C15_digest A hw junk' hj' ms' (heq ▸ hlen) ho, heq]

/-- C14 for this family: any number of further `Final` calls, each at its own length, returns the same
digest. -/
theorem C14_md {σ : Type} (A : Alg σ) (hw : A.w = 4 ∨ A.w = 8) (junk : List (BitVec 8))
    (hj : junk.length = 16 * A.w) (ms : List (List (BitVec 8))) (hlen : ms.flatten.length < 2 ^ 61)
    (ho : ∀ h, A.hlen ≤ (A.out h).length ∧ (A.out h).length ≤ 16 * A.w) (ts : List Nat) (t : Nat) :
    (finalOut A (ts.foldl (fun s u => (finalOut A s u).2) (ms.foldl (update A) (init A junk))) t).1 =
      fitTo (mdDigest A ms.flatten) t := by
  have hidem : ∀ s, final A (final A s) = final A s := by
    intro s
    have : (final A s).finalized = true := by
      unfold final
      split
      · assumption
      · rfl
    generalize final A s = y at this ⊢
    unfold final
    rw [this]; rfl
  rw [← C15_digest A hw junk hj ms hlen ho t]
  have gen : ∀ (ts : List Nat) s, final A (ts.foldl (fun s u => (finalOut A s u).2) s) = final A s := by
    intro ts
    induction ts with
    | nil => intro s; rfl
    | cons u ts ih => intro s; rw [List.foldl_cons, ih]; exact hidem s
  have hm : ∀ a b : Ctx σ, final A a = final A b → (finalOut A a t).1 = (finalOut A b t).1 := by
    intro a b h; unfold finalOut; rw [h]
  exact hm _ _ (gen ts _)

/-- A toy instance (xor of the block bytes) showing the hypotheses are satisfiable and the model runs. -/
example : ∃ A : Alg (List (BitVec 8)), (A.w = 4 ∨ A.w = 8) ∧
    (∀ h, A.hlen ≤ (A.out h).length ∧ (A.out h).length ≤ 16 * A.w) ∧
    (finalOut A ([[1, 2], [4]].foldl (update A) (init A (List.replicate 64 9))) 2).1 = [0x9f, 0] :=
  ⟨{ w := 4, comp := fun h b => [(h ++ b).foldl (· ^^^ ·) 0], out := fun h => [h.getD 0 0], H0 := [0],
     hlen := 1 }, by decide, fun _ => by simp, by decide +kernel⟩

end Props
