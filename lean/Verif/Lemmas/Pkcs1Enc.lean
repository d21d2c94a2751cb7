import Verif.Lemmas.Pkcs1Block

/-! # Lemmas about the PKCS #1 model: RSAES-PKCS1-v1_5 blocks and the decryption epilogue -/

namespace Pkcs1
open Vlong Spec.Pkcs1

/-! ## The padding loop -/

theorem psLoop_sound (rng : Nat → Nat → List Byte) (hr : ∀ i n, (rng i n).length = n) (fuel i : Nat) (fresh : Bool) (u v t : Nat)
    (D R tail : List Byte) (T : Nat) (hT : D.length + t = T) (hR : R.length = t) (hD : ∀ b ∈ D, b ≠ 0) (hu : u = 2 + D.length)
    (hfr : fresh = false → 0 < t) (hv : 2 ≤ v) (buf' : List Byte) (i' : Nat)
    (h : psLoop rng fuel i fresh u v t ([0x00, 0x02] ++ (D ++ (R ++ ([0x00] ++ tail)))) = some (buf', i')) :
    ∃ PS, PS.length = T ∧ (∀ b ∈ PS, b ≠ 0) ∧ buf' = [0x00, 0x02] ++ (PS ++ ([0x00] ++ tail)) := by
  induction fuel generalizing i fresh u v t D R with
  | zero => cases h
  | succ f ih =>
    rw [psLoop] at h
    by_cases h0 : fresh = true ∧ t = 0
    · rw [if_pos h0] at h
      cases h
      have : R = [] := List.length_eq_zero_iff.mp (by omega)
      subst this
      exact ⟨D, by omega, hD, by simp⟩
    rw [if_neg h0] at h
    have ht : 0 < t := by
      cases fresh
      · exact hfr rfl
      · simp at h0; omega
    -- the buffer after the optional draw
    obtain ⟨R1, hR1, e1⟩ : ∃ R1, R1.length = t ∧
        drawIf rng fresh i u t ([0x00, 0x02] ++ (D ++ (R ++ ([0x00] ++ tail))))
        = some ([0x00, 0x02] ++ (D ++ (R1 ++ ([0x00] ++ tail)))) := by
      cases fresh
      · exact ⟨R, hR, rfl⟩
      · refine ⟨rng i t, hr _ _, ?_⟩
        have := wrAt_mid ([0x00, 0x02] ++ D) R ([0x00] ++ tail) (rng i t) u (by simp; omega) (by rw [hr]; exact hR)
        simp only [List.append_assoc] at this
        rw [drawIf, if_pos rfl, this]
    rw [e1] at h
    simp only [Option.bind_eq_bind, Option.bind_some] at h
    obtain ⟨b, hb, h⟩ := Option.bind_eq_some_iff.mp h
    obtain ⟨buf2, hw, h⟩ := Option.bind_eq_some_iff.mp h
    obtain ⟨r, R2, rfl⟩ : ∃ r R2, R1 = r :: R2 := by
      cases R1 with
      | nil => simp at hR1; omega
      | cons b l => exact ⟨b, l, rfl⟩
    have hbl : b.length = 1 := by
      unfold rdAt at hb
      split at hb
      · cases hb; simp; simp at *; omega
      · cases hb
    obtain ⟨c, rfl⟩ : ∃ c, b = [c] := List.length_eq_one_iff.mp hbl
    have hw' := wrAt_mid ([0x00, 0x02] ++ D) [r] (R2 ++ ([0x00] ++ tail)) [c] u (by simp; omega) rfl
    simp only [List.append_assoc] at hw'
    rw [show [r] ++ (R2 ++ ([0x00] ++ tail)) = r :: R2 ++ ([0x00] ++ tail) from rfl] at hw'
    rw [hw'] at hw
    cases hw
    simp only [List.length_cons] at hR1
    rw [List.getD_cons_zero] at h
    by_cases hc : c ≠ 0
    · rw [if_pos hc, if_pos hc] at h
      rw [show [0x00, 0x02] ++ (D ++ ([c] ++ (R2 ++ ([0x00] ++ tail)))) = [0x00, 0x02] ++ ((D ++ [c]) ++ (R2 ++ ([0x00] ++ tail))) by simp] at h
      refine ih _ _ _ _ _ (D ++ [c]) R2 (by simp; omega) (by omega) ?_ (by simp; omega) ?_ (by omega) h
      · intro x hx
        rcases List.mem_append.mp hx with hx | hx
        · exact hD x hx
        · simp at hx; subst hx; exact hc
      · intro hf
        have := of_decide_eq_false hf
        omega
    · rw [if_neg hc, if_neg hc] at h
      rw [show [c] ++ (R2 ++ ([0x00] ++ tail)) = (c :: R2) ++ ([0x00] ++ tail) from rfl] at h
      exact ih _ _ _ _ _ D (c :: R2) (by omega) (by simp; omega) hD hu (fun _ => ht) (by omega) h

theorem psLoop_live (rng : Nat → Nat → List Byte) (hr : ∀ i n, (rng i n).length = n) (hz : ∀ i n, ∀ b ∈ rng i n, b ≠ 0) (fuel i : Nat)
    (fresh : Bool) (t : Nat) (D R tail : List Byte) (hR : R.length = t) (hnz : fresh = false → ∀ b ∈ R, b ≠ 0)
    (hfr : fresh = false → 0 < t) (hf : t < fuel) :
    (psLoop rng fuel i fresh (2 + D.length) (2 + D.length) t ([0x00, 0x02] ++ (D ++ (R ++ ([0x00] ++ tail))))).isSome := by
  induction fuel generalizing i fresh t D R with
  | zero => omega
  | succ f ih =>
    rw [psLoop]
    by_cases h0 : fresh = true ∧ t = 0
    · rw [if_pos h0]; rfl
    rw [if_neg h0]
    have ht : 0 < t := by
      cases fresh
      · exact hfr rfl
      · simp at h0; omega
    obtain ⟨R1, hR1, hnz1, e1⟩ : ∃ R1, R1.length = t ∧ (∀ b ∈ R1, b ≠ 0) ∧
        drawIf rng fresh i (2 + D.length) t ([0x00, 0x02] ++ (D ++ (R ++ ([0x00] ++ tail))))
        = some ([0x00, 0x02] ++ (D ++ (R1 ++ ([0x00] ++ tail)))) := by
      cases fresh
      · exact ⟨R, hR, hnz rfl, rfl⟩
      · refine ⟨rng i t, hr _ _, hz _ _, ?_⟩
        have := wrAt_mid ([0x00, 0x02] ++ D) R ([0x00] ++ tail) (rng i t) (2 + D.length) (by simp; omega) (by rw [hr]; exact hR)
        simp only [List.append_assoc] at this
        rw [drawIf, if_pos rfl, this]
    rw [e1]
    simp only [Option.bind_eq_bind, Option.bind_some]
    obtain ⟨r, R2, rfl⟩ : ∃ r R2, R1 = r :: R2 := by
      cases R1 with
      | nil => simp at hR1; omega
      | cons b l => exact ⟨b, l, rfl⟩
    have g := rdAt_mid ([0x00, 0x02] ++ D) [r] (R2 ++ ([0x00] ++ tail)) (2 + D.length) 1 (by simp; omega) rfl
    have hw' := wrAt_mid ([0x00, 0x02] ++ D) [r] (R2 ++ ([0x00] ++ tail)) [r] (2 + D.length) (by simp; omega) rfl
    simp only [List.append_assoc] at hw' g
    rw [show [r] ++ (R2 ++ ([0x00] ++ tail)) = r :: R2 ++ ([0x00] ++ tail) from rfl] at hw' g
    rw [g, Option.bind_some, hw', Option.bind_some]
    have hc : r ≠ 0 := hnz1 r (by simp)
    rw [List.getD_cons_zero, if_pos hc, if_pos hc]
    simp only [List.length_cons] at hR1
    have := ih (if fresh = true then i + 1 else i) (decide (2 + D.length + 1 ≥ t - 1 + 2)) (t - 1) (D ++ [r]) R2 (by omega)
      (fun _ b hb => hnz1 b (by simp [hb])) (by intro hf; have := of_decide_eq_false hf; omega) (by omega)
    rw [show [0x00, 0x02] ++ (D ++ (r :: R2 ++ ([0x00] ++ tail))) = [0x00, 0x02] ++ ((D ++ [r]) ++ (R2 ++ ([0x00] ++ tail))) by simp]
    rw [show (D ++ [r]).length = D.length + 1 by simp, ← Nat.add_assoc] at this
    exact this

/-- With a generator that returns zeros and a cleared buffer the loop never ends inside the buffer. -/
theorem psLoop_zero (fuel i : Nat) (fresh : Bool) (u v t m : Nat) (hv : 2 ≤ v) (ht : 0 < t) (hu : 2 ≤ u) (a b : Byte) :
    psLoop (fun _ n => List.replicate n 0) fuel i fresh u v t ([a, b] ++ List.replicate m 0) = none := by
  have wr0 : ∀ (o n : Nat) (r : List Byte), 2 ≤ o → wrAt ([a, b] ++ List.replicate m 0) o (List.replicate n 0) = some r →
      r = [a, b] ++ List.replicate m 0 := by
    intro o n r ho h
    unfold wrAt at h
    split at h
    · rename_i hl
      cases h
      simp at hl
      obtain ⟨o', rfl⟩ : ∃ o', o = o' + 2 := ⟨o - 2, by omega⟩
      rw [show o' + 2 + (List.replicate n (0 : Byte)).length = (o' + n) + 2 by simp; omega]
      simp only [List.cons_append, List.nil_append, List.take_succ_cons, List.drop_succ_cons, List.take_replicate, List.drop_replicate]
      rw [List.replicate_append_replicate, List.replicate_append_replicate]
      congr 3; omega
    · cases h
  induction fuel generalizing i fresh u v with
  | zero => rfl
  | succ f ih =>
    rw [psLoop, if_neg (by omega)]
    simp only [Option.bind_eq_bind]
    rw [Option.bind_eq_none_iff]
    intro buf hb
    have e : buf = [a, b] ++ List.replicate m 0 := by
      cases fresh
      · simpa [drawIf] using hb.symm
      · exact wr0 u t buf hu hb
    subst e
    rw [Option.bind_eq_none_iff]
    intro c hc
    have hc0 : c = [0] := by
      unfold rdAt at hc
      split at hc
      · rename_i hl
        cases hc
        obtain ⟨v', rfl⟩ : ∃ v', v = v' + 2 := ⟨v - 2, by omega⟩
        simp only [List.cons_append, List.nil_append, List.drop_succ_cons, List.drop_replicate, List.take_replicate]
        simp at hl
        rw [Nat.min_eq_left (by omega)]; rfl
      · cases hc
    subst hc0
    rw [Option.bind_eq_none_iff]
    intro buf2 hb2
    have e2 := wr0 u 1 buf2 hu hb2
    subst e2
    have hz : ¬ (([0] : List Byte).getD 0 0 ≠ 0) := by simp
    rw [if_neg hz, if_neg hz]
    exact ih _ _ _ _ (by omega) hu

theorem es15Block_sound (k sslen : Nat) (rng : Nat → Nat → List Byte) (hr : ∀ i n, (rng i n).length = n) (fuel : Nat) (buf out ss : List Byte)
    (hk : sslen + 11 ≤ k) (hb : k ≤ buf.length) (h : es15Block k sslen rng fuel buf = some (out, ss)) :
    ∃ PS, EmePkcs1 (out.take k) PS ss ∧ PS.length = k - sslen - 3 ∧ ss.length = sslen ∧ out.length = buf.length := by
  unfold es15Block at h
  simp only [Option.bind_eq_bind] at h
  obtain ⟨a, b, r, e⟩ : ∃ a b r, buf = [a, b] ++ r := by
    rcases buf with _ | ⟨a, _ | ⟨b, r⟩⟩
    · simp at hb; omega
    · simp at hb; omega
    · exact ⟨a, b, r, rfl⟩
  have hrl : r.length + 2 = buf.length := by rw [e]; simp
  obtain ⟨R, z, S, tail, e2, l1, l2⟩ : ∃ R z S tail, r = R ++ ([z] ++ (S ++ tail)) ∧ R.length = k - sslen - 3 ∧ S.length = sslen := by
    have one : ∀ m : List Byte, 0 < m.length → ∃ x r, m = [x] ++ r := by
      intro m hm
      cases m with
      | nil => simp at hm
      | cons x r => exact ⟨x, r, rfl⟩
    obtain ⟨z, r3, e3⟩ := one (r.drop (k - sslen - 3)) (by simp; omega)
    have hr3 : r3.length + 1 = r.length - (k - sslen - 3) := by
      have := congrArg List.length e3
      simp at this; omega
    exact ⟨r.take (k - sslen - 3), z, r3.take sslen, r3.drop sslen,
      by rw [List.take_append_drop, ← e3, List.take_append_drop], by simp; omega, by simp; omega⟩
  rw [e, e2] at h
  have c1 := wrAt_mid [] [a] ([b] ++ (R ++ ([z] ++ (S ++ tail)))) [0x00] 0 rfl rfl
  rw [show [a, b] ++ (R ++ ([z] ++ (S ++ tail))) = [] ++ ([a] ++ ([b] ++ (R ++ ([z] ++ (S ++ tail))))) from rfl, c1, Option.bind_some] at h
  have c2 := wrAt_mid [0x00] [b] (R ++ ([z] ++ (S ++ tail))) [0x02] 1 rfl rfl
  rw [List.nil_append, c2, Option.bind_some] at h
  have c3 := wrAt_mid ([0x00, 0x02] ++ R) [z] (S ++ tail) [0x00] (k - sslen - 3 + 2) (by simp; omega) rfl
  rw [List.append_assoc, List.append_assoc] at c3
  rw [show ([0x00] : List Byte) ++ ([0x02] ++ (R ++ ([z] ++ (S ++ tail)))) = [0x00, 0x02] ++ (R ++ ([z] ++ (S ++ tail))) from rfl, c3,
    Option.bind_some] at h
  obtain ⟨⟨buf2, i⟩, hp, h⟩ := Option.bind_eq_some_iff.mp h
  obtain ⟨PS, p1, p2, p3⟩ := psLoop_sound rng hr fuel 0 true 2 2 (k - sslen - 3) [] R (S ++ tail) (k - sslen - 3) (by simp) l1
    (by simp) rfl (by simp) (by omega) buf2 i hp
  simp only at h
  have c4 := wrAt_mid ([0x00, 0x02] ++ (PS ++ [0x00])) S tail (rng i sslen) (k - sslen) (by simp; omega) (by rw [hr, l2])
  rw [p3] at h
  simp only [List.append_assoc] at c4
  rw [c4, Option.bind_some] at h
  simp only [Option.some.injEq, Prod.mk.injEq] at h
  obtain ⟨h1, h2⟩ := h
  have hs := hr i sslen
  rw [h2] at h1 hs
  refine ⟨PS, ⟨?_, by omega, p2⟩, p1, hs, ?_⟩
  · rw [← h1, show [0x00, 0x02] ++ (PS ++ ([0x00] ++ (ss ++ tail))) = ([0x00, 0x02] ++ PS ++ [0x00] ++ ss) ++ tail by simp,
      List.take_left' (by simp; omega)]
  · rw [← h1, e, e2]; simp; omega

theorem es15Block_live (k sslen : Nat) (rng : Nat → Nat → List Byte) (hr : ∀ i n, (rng i n).length = n) (hz : ∀ i n, ∀ b ∈ rng i n, b ≠ 0)
    (fuel : Nat) (buf : List Byte) (hk : sslen + 11 ≤ k) (hb : k ≤ buf.length) (hf : k ≤ fuel) :
    (es15Block k sslen rng fuel buf).isSome := by
  unfold es15Block
  simp only [Option.bind_eq_bind]
  obtain ⟨a, b, r, e⟩ : ∃ a b r, buf = [a, b] ++ r := by
    rcases buf with _ | ⟨a, _ | ⟨b, r⟩⟩
    · simp at hb; omega
    · simp at hb; omega
    · exact ⟨a, b, r, rfl⟩
  have hrl : r.length + 2 = buf.length := by rw [e]; simp
  obtain ⟨R, z, S, tail, e2, l1, l2⟩ : ∃ R z S tail, r = R ++ ([z] ++ (S ++ tail)) ∧ R.length = k - sslen - 3 ∧ S.length = sslen := by
    have one : ∀ m : List Byte, 0 < m.length → ∃ x r, m = [x] ++ r := by
      intro m hm
      cases m with
      | nil => simp at hm
      | cons x r => exact ⟨x, r, rfl⟩
    obtain ⟨z, r3, e3⟩ := one (r.drop (k - sslen - 3)) (by simp; omega)
    have hr3 : r3.length + 1 = r.length - (k - sslen - 3) := by
      have := congrArg List.length e3
      simp at this; omega
    exact ⟨r.take (k - sslen - 3), z, r3.take sslen, r3.drop sslen,
      by rw [List.take_append_drop, ← e3, List.take_append_drop], by simp; omega, by simp; omega⟩
  rw [e, e2]
  have c1 := wrAt_mid [] [a] ([b] ++ (R ++ ([z] ++ (S ++ tail)))) [0x00] 0 rfl rfl
  rw [show [a, b] ++ (R ++ ([z] ++ (S ++ tail))) = [] ++ ([a] ++ ([b] ++ (R ++ ([z] ++ (S ++ tail))))) from rfl, c1, Option.bind_some]
  have c2 := wrAt_mid [0x00] [b] (R ++ ([z] ++ (S ++ tail))) [0x02] 1 rfl rfl
  rw [List.nil_append, c2, Option.bind_some]
  have c3 := wrAt_mid ([0x00, 0x02] ++ R) [z] (S ++ tail) [0x00] (k - sslen - 3 + 2) (by simp; omega) rfl
  rw [List.append_assoc, List.append_assoc] at c3
  rw [show ([0x00] : List Byte) ++ ([0x02] ++ (R ++ ([z] ++ (S ++ tail)))) = [0x00, 0x02] ++ (R ++ ([z] ++ (S ++ tail))) from rfl, c3,
    Option.bind_some]
  have lv := psLoop_live rng hr hz fuel 0 true (k - sslen - 3) [] R (S ++ tail) l1 (by simp) (by simp) (by omega)
  obtain ⟨⟨buf2, i⟩, hp⟩ := Option.isSome_iff_exists.mp lv
  simp only [List.length_nil, List.nil_append, Nat.add_zero] at hp
  rw [hp, Option.bind_some]
  obtain ⟨PS, p1, p2, p3⟩ := psLoop_sound rng hr fuel 0 true 2 2 (k - sslen - 3) [] R (S ++ tail) (k - sslen - 3) (by simp) l1
    (by simp) rfl (by simp) (by omega) buf2 i hp
  simp only
  have c4 := wrAt_mid ([0x00, 0x02] ++ (PS ++ [0x00])) S tail (rng i sslen) (k - sslen) (by simp; omega) (by rw [hr, l2])
  simp only [List.append_assoc] at c4
  rw [p3, c4]; rfl

/-! ## Parsing -/

theorem zeroLoop_spec (l : List Byte) : zeroLoop l ≤ l.length ∧ (∀ b ∈ l.take (zeroLoop l), b ≠ 0) ∧
    (∀ h : zeroLoop l < l.length, l[zeroLoop l] = 0) := by
  induction l with
  | nil => simp [zeroLoop]
  | cons b l ih =>
    by_cases hb : b = 0
    · have e : zeroLoop (b :: l) = 0 := by rw [zeroLoop, if_pos hb]
      simp only [e]
      exact ⟨by omega, by simp, fun _ => hb⟩
    · have e : zeroLoop (b :: l) = zeroLoop l + 1 := by rw [zeroLoop, if_neg hb]
      simp only [e]
      obtain ⟨i1, i2, i3⟩ := ih
      refine ⟨by simp; omega, ?_, ?_⟩
      · intro x hx
        rw [List.take_succ_cons, List.mem_cons] at hx
        rcases hx with rfl | hx
        · exact hb
        · exact i2 x hx
      · intro h
        simp only [List.getElem_cons_succ]
        exact i3 (by simpa using h)

theorem zeroLoop_eq (PS M : List Byte) (h : ∀ b ∈ PS, b ≠ 0) : zeroLoop (PS ++ ([0x00] ++ M)) = PS.length := by
  induction PS with
  | nil => rfl
  | cons b l ih =>
    rw [List.cons_append, zeroLoop, if_neg (h b (by simp)), ih (fun x hx => h x (by simp [hx]))]; simp

theorem fold_err : ∀ e : BitVec 8,
    (let err := e.setWidth 32
     let err := err ||| err.sshiftRight 16
     let err := err ||| err.sshiftRight 8
     let err := err ||| err.sshiftRight 4
     let err := err ||| err.sshiftRight 2
     let err := err ||| err.sshiftRight 1
     err &&& 1) = if e = 0 then 0#32 else 1#32 := by decide +kernel

theorem signBit (x : BitVec 32) : x >>> 31 = (if x.toNat < 2 ^ 31 then (0 : BitVec 8) else 1).setWidth 32 := by
  apply BitVec.eq_of_toNat_eq
  have := x.isLt
  rw [BitVec.toNat_ushiftRight, Nat.shiftRight_eq_div_pow]
  split
  · rename_i h; rw [Nat.div_eq_of_lt h]; rfl
  · rename_i h
    have : x.toNat / 2 ^ 31 = 1 := by omega
    rw [this]; rfl

theorem es15_fin (e : BitVec 8) (L : BitVec 32) (r z : Nat) (b0 b1 : Byte) (hi : e = 0 ↔ (b0 = 0 ∧ b1 = 2 ∧ 8 ≤ z ∧ z < r))
    (hL : L.toNat = if z < r then r - z - 1 else 2 ^ 32 - 1) (hr : r < 2 ^ 31) :
    (-(if e = 0 then 0#32 else 1#32) + L * ((if e = 0 then 0#32 else 1#32) ^^^ 1)).toInt
      = if b0 = 0 ∧ b1 = 2 ∧ 8 ≤ z ∧ z < r then ((r - z - 1 : Nat) : Int) else -1 := by
  by_cases hc : b0 = 0 ∧ b1 = 2 ∧ 8 ≤ z ∧ z < r
  · rw [if_pos (hi.mpr hc), if_pos hc]
    have e1 : (-0#32 + L * (0#32 ^^^ 1)) = L := by
      rw [show (0#32 ^^^ 1 : BitVec 32) = 1#32 by decide, BitVec.mul_one, show (-0#32 : BitVec 32) = 0#32 by decide, BitVec.zero_add]
    rw [e1]
    rw [if_pos hc.2.2.2] at hL
    rw [BitVec.toInt_eq_toNat_of_lt (by rw [hL]; omega), hL]
  · rw [if_neg (fun h => hc (hi.mp h)), if_neg hc]
    have e1 : (-1#32 + L * (1#32 ^^^ 1)) = -1#32 := by
      rw [show (1#32 ^^^ 1 : BitVec 32) = 0#32 by decide, BitVec.mul_zero, BitVec.add_zero]
    rw [e1]; decide

theorem es15Parse_eq (k : Nat) (b0 b1 : Byte) (rest tail : List Byte) (hr : rest.length = k - 2) (hk : 2 ≤ k) (hk2 : k < 2 ^ 31) :
    es15Parse k ([b0, b1] ++ (rest ++ tail)) = some
      (if b0 = 0 ∧ b1 = 2 ∧ 8 ≤ zeroLoop rest ∧ zeroLoop rest < rest.length then ((rest.length - zeroLoop rest - 1 : Nat) : Int) else -1) := by
  have hz := (zeroLoop_spec rest).1
  unfold es15Parse
  have g0 : rdAt ([b0, b1] ++ (rest ++ tail)) 0 1 = some [b0] := rdAt_mid [] [b0] ([b1] ++ (rest ++ tail)) 0 1 rfl rfl
  have g1 : rdAt ([b0, b1] ++ (rest ++ tail)) 1 1 = some [b1] := rdAt_mid [b0] [b1] (rest ++ tail) 1 1 rfl rfl
  have g2 : rdAt ([b0, b1] ++ (rest ++ tail)) 2 (k - 2) = some rest := rdAt_mid [b0, b1] rest tail 2 (k - 2) rfl hr
  rw [g0, g1, g2]
  simp only [Option.bind_eq_bind, Option.bind_some, List.getD_cons_zero]
  congr 1
  obtain ⟨z, hze⟩ : ∃ z, z = zeroLoop rest := ⟨_, rfl⟩
  rw [← hze] at hz ⊢
  have n1 : (BitVec.ofNat 32 (2 + z) - 10).toNat = if 8 ≤ z then z - 8 else 2 ^ 32 + z - 8 := by
    rw [BitVec.toNat_sub, BitVec.toNat_ofNat, show (10 : BitVec 32).toNat = 10 from rfl, Nat.mod_eq_of_lt (show 2 + z < 2 ^ 32 by omega)]
    split <;> omega
  have n2 : (BitVec.ofNat 32 k - BitVec.ofNat 32 (2 + z) - 1).toNat = if z < rest.length then rest.length - z - 1 else 2 ^ 32 - 1 := by
    rw [BitVec.toNat_sub, BitVec.toNat_sub, BitVec.toNat_ofNat, BitVec.toNat_ofNat, Nat.mod_eq_of_lt (show k < 2 ^ 32 by omega),
      Nat.mod_eq_of_lt (show 2 + z < 2 ^ 32 by omega)]
    rw [show (1 : BitVec 32).toNat = 1 from rfl]
    split <;> omega
  obtain ⟨L, hL⟩ : ∃ L, L = BitVec.ofNat 32 k - BitVec.ofNat 32 (2 + z) - 1 := ⟨_, rfl⟩
  rw [← hL] at n2 ⊢
  rw [signBit (BitVec.ofNat 32 (2 + z) - 10), signBit L, n1]
  obtain ⟨s1, hs1⟩ : ∃ s : BitVec 8, s = if (if 8 ≤ z then z - 8 else 2 ^ 32 + z - 8) < 2 ^ 31 then (0 : BitVec 8) else 1 := ⟨_, rfl⟩
  obtain ⟨s2, hs2⟩ : ∃ s : BitVec 8, s = if L.toNat < 2 ^ 31 then (0 : BitVec 8) else 1 := ⟨_, rfl⟩
  rw [← hs1, ← hs2]
  have comb : b0.setWidth 32 ||| b1.setWidth 32 ^^^ 0x02#32 ||| s1.setWidth 32 ||| s2.setWidth 32
      = (b0 ||| (b1 ^^^ 2#8) ||| s1 ||| s2).setWidth 32 := by
    rw [BitVec.setWidth_or, BitVec.setWidth_or, BitVec.setWidth_or, BitVec.setWidth_xor]
    rfl
  have fe := fold_err (b0 ||| (b1 ^^^ 2#8) ||| s1 ||| s2)
  simp only at fe
  have comb' : b0.setWidth 32 ||| b1.setWidth 32 ^^^ 2 ||| s1.setWidth 32 ||| s2.setWidth 32
      = (b0 ||| (b1 ^^^ 2#8) ||| s1 ||| s2).setWidth 32 := comb
  rw [comb', fe]
  have or0 : ∀ x y : BitVec 8, x ||| y = 0 ↔ x = 0 ∧ y = 0 := fun x y => BitVec.or_eq_zero_iff
  have x2 : b1 ^^^ 2#8 = 0 ↔ b1 = 2 := by
    clear comb comb' fe g1 g2 g0
    revert b1; decide +kernel
  have i1 : s1 = 0 ↔ 8 ≤ z := by
    rw [hs1]
    by_cases h8 : 8 ≤ z
    · rw [if_pos h8, if_pos (by omega)]; simp [h8]
    · rw [if_neg h8, if_neg (by omega)]; simp [h8]
  have i2 : s2 = 0 ↔ z < rest.length := by
    rw [hs2, n2]
    by_cases h8 : z < rest.length
    · rw [if_pos h8, if_pos (by omega)]; simp [h8]
    · rw [if_neg h8, if_neg (by omega)]; simp [h8]
  have iff : (b0 ||| (b1 ^^^ 2#8) ||| s1 ||| s2 = 0) ↔ (b0 = 0 ∧ b1 = 2 ∧ 8 ≤ z ∧ z < rest.length) := by
    rw [or0, or0, or0, x2, i1, i2, and_assoc, and_assoc]
  exact es15_fin _ L rest.length z b0 b1 iff n2 (by omega)

/-! ## The epilogue -/

theorem and_shift (e : BitVec 32) (i n : Nat) (h : i + n < 32) (ht : (e &&& e.sshiftRight n).getLsbD i = true) :
    e.getLsbD (i + n) = true := by
  rw [BitVec.getLsbD_and, Bool.and_eq_true] at ht
  have h2 := ht.2
  rw [BitVec.getLsbD_sshiftRight] at h2
  simp [show n + i < 32 by omega] at h2
  rw [Nat.add_comm]; exact h2.2

theorem errBit_nonneg (s : Int) (h0 : 0 ≤ s) (h1 : s < 2 ^ 31) : errBit s = 0 := by
  unfold errBit
  have e0 : ~~~(BitVec.ofInt 32 s ^^^ BitVec.allOnes 32) = BitVec.ofInt 32 s := by
    rw [BitVec.xor_allOnes, BitVec.not_not]
  rw [e0]
  simp only
  apply BitVec.eq_of_getLsbD_eq
  intro i hi
  by_cases h : i = 0
  · subst h
    change _ = (0#32).getLsbD 0
    rw [BitVec.getLsbD_zero]
    by_contra hb
    rw [Bool.not_eq_false, BitVec.getLsbD_and, Bool.and_eq_true] at hb
    have a1 := and_shift _ 0 1 (by decide) hb.1
    have a2 := and_shift _ 1 2 (by decide) a1
    have a3 := and_shift _ 3 4 (by decide) a2
    have a4 := and_shift _ 7 8 (by decide) a3
    have a5 := and_shift _ 15 16 (by decide) a4
    obtain ⟨n, rfl⟩ : ∃ n : Nat, s = n := ⟨s.toNat, by omega⟩
    have : (BitVec.ofInt 32 (n : Int)) = BitVec.ofNat 32 n := by simp
    rw [this, BitVec.getLsbD_ofNat, Nat.testBit_lt_two_pow (by omega)] at a5
    simp at a5
  · have : (1 : BitVec 32).getLsbD i = false := by
      change (BitVec.ofNat 32 1).getLsbD i = false
      rw [BitVec.getLsbD_ofNat, Nat.testBit_lt_two_pow (by
        have : 2 ^ 1 ≤ 2 ^ i := Nat.pow_le_pow_right (by decide) (by omega)
        omega)]
      simp
    rw [BitVec.getLsbD_and, this]; simp

theorem errBit_neg : errBit (-1) = 1 := by decide

/-- A failed decryption: NULL is returned and the output is zeros. -/
theorem decFinish_fail (k : Nat) (w1 : List Byte) (req : Option Nat) (hk : k ≤ w1.length) :
    ∃ r, decFinish k (-1) w1 req = some r ∧ r.ok = false ∧ r.ss = List.replicate (req.getD 0) 0 ∧
      r.len = if req = none then some (-1) else none := by
  unfold decFinish
  simp only [errBit_neg]
  cases req with
  | none => exact ⟨_, rfl, rfl, rfl, rfl⟩
  | some n =>
    have e : rdAt w1 (k - 0) (min n 0) = some [] := by
      rw [rdAt, if_pos (by simp; omega)]; simp
    have e' : (if (-1 : Int) < 0 then 0 else (-1 : Int).toNat) = 0 := by decide
    simp only [e']
    rw [e]
    exact ⟨_, rfl, rfl, by simp, by simp⟩

/-- A successful one, the message being the last `m` octets of the block. -/
theorem decFinish_ok (k : Nat) (A M tail : List Byte) (req : Option Nat) (hk : A.length + M.length = k) (hm : M.length < 2 ^ 31) :
    ∃ r, decFinish k (M.length : Int) (A ++ (M ++ tail)) req = some r ∧ r.ok = true ∧
      (∀ n, req = some n → r.ss = M.take n ++ List.replicate (n - M.length) 0) ∧
      (req = none → r.len = some (M.length : Int)) := by
  unfold decFinish
  simp only [errBit_nonneg _ (Int.natCast_nonneg _) (show ((M.length : Nat) : Int) < 2 ^ 31 by omega)]
  cases req with
  | none => exact ⟨_, rfl, rfl, by simp, by simp⟩
  | some n =>
    have e : rdAt (A ++ (M ++ tail)) (k - M.length) (min n M.length) = some (M.take n) := by
      have := rdAt_mid A (M.take n) (M.drop n ++ tail) (k - M.length) (min n M.length) (by omega) (by simp)
      rwa [← List.append_assoc (M.take n), List.take_append_drop] at this
    have e' : (if ((M.length : Nat) : Int) < 0 then 0 else ((M.length : Nat) : Int).toNat) = M.length := by
      rw [if_neg (by omega), Int.toNat_natCast]
    simp only [e']
    rw [e]
    refine ⟨_, rfl, rfl, ?_, by simp⟩
    intro m hm
    cases hm
    simp only
    congr 2
    omega

end Pkcs1
