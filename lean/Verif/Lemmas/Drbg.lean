import Verif.Lemmas.Mac

namespace Mac
open Spec (fitTo hmac)

/-- What HMAC_DRBG needs of its PRF. `ok` is what the context memory must satisfy; keys have `outlen` bytes. -/
structure PrfLaw {σ : Type} (P : PrfOps σ) (prf : List Byte → List Byte → List Byte) (N : Nat) (ok : σ → Prop) : Prop where
  len : ∀ k m, (prf k m).length = P.outlen
  start : ∀ s, ok s → ∀ k : List Byte, k.length = P.outlen → ∃ h, P.pInit s k = some h ∧
    ∀ ms : List (List Byte), ms.flatten.length < N →
      (P.pFinal (ms.foldl P.pUpdate h) P.outlen).1 = prf k ms.flatten ∧ ok (P.pFinal (ms.foldl P.pUpdate h) P.outlen).2

variable {σ : Type} {P : PrfOps σ} {prf : List Byte → List Byte → List Byte} {N : Nat} {ok : σ → Prop}

theorem prfCall_spec (law : PrfLaw P prf N ok) (H : σ) (hH : ok H) (K : List Byte) (hK : K.length = P.outlen) (ms : List (List Byte))
    (hm : ms.flatten.length < N) : ∃ H', prfCall P H K ms = some (prf K ms.flatten, H') ∧ ok H' := by
  obtain ⟨h, h1, h2⟩ := law.start H hH K hK
  obtain ⟨h3, h4⟩ := h2 ms hm
  refine ⟨_, ?_, h4⟩
  unfold prfCall
  rw [h1, ← h3]; rfl

/-- The working state between calls. -/
def DRel (P : PrfOps σ) (ok : σ → Prop) (x : Drbg σ) (s : List Byte × List Byte) : Prop :=
  x.K = s.1 ∧ x.V = s.2 ∧ s.1.length = P.outlen ∧ s.2.length = P.outlen ∧ ok x.H

theorem drbgUpdate_spec (law : PrfLaw P prf N ok) (x : Drbg σ) (s : List Byte × List Byte) (h : DRel P ok x s) (str : List Byte)
    (hs : P.outlen + 1 + str.length < N) :
    ∃ x', drbgUpdate P x str = some x' ∧ DRel P ok x' (Spec.drbgUpdate prf s str) := by
  obtain ⟨hk, hv, lk, lv, hok⟩ := h
  unfold drbgUpdate Spec.drbgUpdate
  rw [hk, hv]
  obtain ⟨H1, c1, o1⟩ := prfCall_spec law x.H hok s.1 lk [s.2, [0x00], str] (by simp; omega)
  have e1 : [s.2, [0x00], str].flatten = s.2 ++ [0x00] ++ str := by simp
  rw [e1] at c1
  obtain ⟨H2, c2, o2⟩ := prfCall_spec law H1 o1 (prf s.1 (s.2 ++ [0x00] ++ str)) (law.len _ _) [s.2] (by simp; omega)
  rw [show [s.2].flatten = s.2 by simp] at c2
  simp only [c1, c2, Option.bind_eq_bind, Option.bind_some]
  by_cases e : str = []
  · subst e
    simp only [List.length_nil, if_true]
    exact ⟨_, rfl, rfl, rfl, law.len _ _, law.len _ _, o2⟩
  · rw [if_neg (by simpa using e), if_neg e]
    set K1 := prf s.1 (s.2 ++ [0x00] ++ str)
    set V1 := prf K1 s.2 with hV1
    have lV1 : V1.length = P.outlen := law.len _ _
    obtain ⟨H3, c3, o3⟩ := prfCall_spec law H2 o2 K1 (law.len _ _) [V1, [0x01], str] (by simp; omega)
    have e3 : [V1, [0x01], str].flatten = V1 ++ [0x01] ++ str := by simp
    rw [e3] at c3
    obtain ⟨H4, c4, o4⟩ := prfCall_spec law H3 o3 (prf K1 (V1 ++ [0x01] ++ str)) (law.len _ _) [V1] (by simp; omega)
    rw [show [V1].flatten = V1 by simp] at c4
    simp only [c3, c4, Option.bind_some]
    exact ⟨_, rfl, rfl, rfl, law.len _ _, law.len _ _, o4⟩

theorem drbgV_succ' (K V : List Byte) (n : Nat) : Spec.drbgV prf K V (n + 1) = Spec.drbgV prf K (prf K V) n := by
  induction n with
  | zero => rfl
  | succ n ih =>
    show prf K (Spec.drbgV prf K V (n + 1)) = prf K (Spec.drbgV prf K (prf K V) n)
    rw [ih]

theorem length_drbgV (law : PrfLaw P prf N ok) (K V : List Byte) (hV : V.length = P.outlen) (n : Nat) :
    (Spec.drbgV prf K V n).length = P.outlen := by
  cases n with
  | zero => exact hV
  | succ n => exact law.len _ _

theorem drbgLoop_spec (law : PrfLaw P prf N ok) (hL : 0 < P.outlen) (hN : P.outlen < N) (fuel : Nat) :
    ∀ (n : Nat) (x : Drbg σ) (s : List Byte × List Byte), DRel P ok x s → n ≤ fuel →
      ∃ x', drbgLoop P fuel n x = some (((List.range ((n + P.outlen - 1) / P.outlen)).flatMap fun i => Spec.drbgV prf s.1 s.2 (i + 1)).take n, x') ∧
        DRel P ok x' (s.1, Spec.drbgV prf s.1 s.2 ((n + P.outlen - 1) / P.outlen)) := by
  induction fuel with
  | zero =>
    intro n x s h hn
    have : n = 0 := by omega
    subst this
    refine ⟨x, ?_, ?_⟩
    · simp [drbgLoop]
    · rw [Nat.div_eq_of_lt (by omega)]; exact h
  | succ fuel ih =>
    intro n x s h hn
    cases n with
    | zero =>
      refine ⟨x, ?_, ?_⟩
      · simp [drbgLoop]
      · rw [Nat.div_eq_of_lt (by omega)]; exact h
    | succ n =>
      obtain ⟨hk, hv, lk, lv, hok⟩ := h
      unfold drbgLoop
      obtain ⟨H1, c1, o1⟩ := prfCall_spec law x.H hok s.1 lk [s.2] (by simp; omega)
      rw [show [s.2].flatten = s.2 by simp] at c1
      rw [hk, hv]
      simp only [c1, Option.bind_eq_bind, Option.bind_some]
      set k := min P.outlen (n + 1) with hkdef
      have hrel : DRel P ok { x with V := prf s.1 s.2, H := H1 } (s.1, prf s.1 s.2) := ⟨hk, rfl, lk, law.len _ _, o1⟩
      obtain ⟨x', g1, g2⟩ := ih (n + 1 - k) _ _ hrel (by omega)
      rw [hk] at g1
      rw [g1]
      simp only [Option.bind_some]
      have hq : (n + 1 + P.outlen - 1) / P.outlen = (n + 1 - k + P.outlen - 1) / P.outlen + 1 := by
        by_cases c : P.outlen ≤ n + 1
        · have : n + 1 + P.outlen - 1 = (n + 1 - k + P.outlen - 1) + P.outlen := by omega
          rw [this, Nat.add_div_right _ hL]
        · have e1 : n + 1 - k = 0 := by omega
          rw [e1, Nat.div_eq_of_lt (show 0 + P.outlen - 1 < P.outlen by omega)]
          have : n + 1 + P.outlen - 1 = n + P.outlen := by omega
          rw [this, Nat.add_div_right _ hL, Nat.div_eq_of_lt (by omega)]
      rw [hq]
      refine ⟨x', ?_, ?_⟩
      · rw [List.range_succ_eq_map, List.flatMap_cons, List.flatMap_map]
        have e0 : Spec.drbgV prf s.1 s.2 (0 + 1) = prf s.1 s.2 := rfl
        rw [e0, List.take_append, law.len]
        congr 2
        · have hk2 : (prf s.1 s.2).take k = (prf s.1 s.2).take (n + 1) := by
            by_cases c : P.outlen ≤ n + 1
            · rw [List.take_of_length_le (by rw [law.len]; omega), List.take_of_length_le (by rw [law.len]; omega)]
            · rw [show k = n + 1 by omega]
          rw [hk2]
          congr 1
          rw [show n + 1 - k = n + 1 - P.outlen by omega]
          congr 1
          refine congrArg (fun f => List.flatMap f _) (funext fun i => ?_)
          exact (drbgV_succ' s.1 s.2 (i + 1)).symm
      · rw [drbgV_succ']; exact g2

theorem drbgGenerate_spec (law : PrfLaw P prf N ok) (hL : 0 < P.outlen) (hN : P.outlen + 1 < N) (x : Drbg σ) (s : List Byte × List Byte) (h : DRel P ok x s)
    (n : Nat) : ∃ x', drbgGenerate P x n = some ((Spec.drbgGenerate prf P.outlen s n).1, x') ∧
      DRel P ok x' (Spec.drbgGenerate prf P.outlen s n).2 := by
  unfold drbgGenerate Spec.drbgGenerate
  obtain ⟨x1, g1, g2⟩ := drbgLoop_spec law hL (by omega) n n x s h (Nat.le_refl _)
  obtain ⟨x2, g3, g4⟩ := drbgUpdate_spec law x1 _ g2 [] (by simpa using hN)
  rw [g1]
  simp only [Option.bind_eq_bind, Option.bind_some, g3]
  exact ⟨x2, rfl, g4⟩

/-- HMAC as the PRF: `PRF_INIT` is `HMAC_*_Init`. -/
def hmacPrf (O : HashOps σ) : PrfOps (Hmac σ) :=
  { outlen := O.L, pInit := fun h k => hmacStart O h.aux k, pUpdate := hmacUpdate O, pFinal := hmacFinal O }

theorem hmacFinal_ok {O : HashOps σ} {H : List Byte → List Byte} (law : HashLaw O H N ok) (h : Hmac σ) (hh : ok h.aux) (t : Nat) :
    ok (hmacFinal O h t).2.aux := by
  unfold hmacFinal
  by_cases c : h.finalized
  · simp only [c, if_true]; exact law.okF _ _ hh
  · simp only [c, if_false, Bool.false_eq_true]
    exact law.okF _ _ (law.okF _ _ (law.okU _ _ (law.okU _ _ (law.okI _ (law.okF _ _ hh)))))

theorem hmacSetKey_ok {O : HashOps σ} {H : List Byte → List Byte} (law : HashLaw O H N ok) (h0 h : Hmac σ) (h1 : ok h0.aux) (key : List Byte)
    (hk : hmacSetKey O h0 key = some h) : ok h.aux := by
  unfold hmacSetKey at hk
  split at hk
  · simp only [Option.some.injEq] at hk
    subst hk
    exact law.okU _ _ (law.okI _ h1)
  · exact absurd hk (by simp)

theorem hmac_prfLaw {O : HashOps σ} {H : List Byte → List Byte} (law : HashLaw O H N ok) (hB : O.B ≤ 256) (hL : O.L ≤ 64) (hLB : O.L ≤ O.B)
    (hN : O.B + O.L < N) : PrfLaw (hmacPrf O) (hmac H O.B) (N - O.B) (fun h => ok h.aux) := by
  refine ⟨fun k m => law.len _, ?_⟩
  intro s hs k hk
  have : ∃ h, hmacStart O s.aux k = some h := by
    unfold hmacStart hmacSetKey
    rw [if_pos (by rw [hk]; exact hLB)]
    exact ⟨_, rfl⟩
  obtain ⟨h, hh⟩ := this
  refine ⟨h, hh, ?_⟩
  intro ms hms
  constructor
  · have := hmac_final_state law hB hL hN (hmacInit s.aux) rfl hs k h hh ms (by omega) [] O.L
    refine this.trans ?_
    have e := fitTo_self (hmac H O.B k ms.flatten)
    rw [show (hmac H O.B k ms.flatten).length = O.L from law.len _] at e
    exact e
  · apply hmacFinal_ok law
    show ok (ms.foldl (hmacUpdate O) h).aux
    rw [hmacUpdates]
    exact ok_updates law ms _ (hmacSetKey_ok law (hmacInit s.aux) _ hs k hh)

end Mac
