import Verif.Lemmas.Pkcs1

/-! # Lemmas about the PKCS #1 model: the blocks the four schemes build and parse -/

namespace Pkcs1
open Vlong Spec.Pkcs1

theorem split3 (l : List Byte) (a b : Nat) (h : a + b ≤ l.length) :
    ∃ A B C, l = A ++ (B ++ C) ∧ A.length = a ∧ B.length = b :=
  ⟨l.take a, (l.drop a).take b, (l.drop a).drop b, by rw [List.take_append_drop, List.take_append_drop],
    by simp; omega, by simp; omega⟩

theorem wrAt_length (l : List Byte) (off : Nat) (bs r : List Byte) (h : wrAt l off bs = some r) : r.length = l.length := by
  unfold wrAt at h
  split at h
  · cases h; simp; omega
  · cases h

/-! ## OAEP -/

/-- The block after the label: zero, room for the seed, label hash, zeros. -/
theorem oaepLabel_eq (P : Padding) (k : Nat) (label buf : List Byte) (hk : 2 * P.hmsg.hlen + 2 ≤ k) (hb : k ≤ buf.length) :
    oaepLabel P k label buf = some ([0] ++ (List.replicate P.hmsg.hlen 0 ++ (P.hmsg.digest label P.hmsg.hlen ++
      (List.replicate (k - 2 * P.hmsg.hlen - 1) 0 ++ buf.drop k)))) := by
  unfold oaepLabel
  have e0 : wrAt buf 0 (List.replicate k 0) = some (List.replicate k 0 ++ buf.drop k) := by
    have := wrAt_mid [] (buf.take k) (buf.drop k) (List.replicate k 0) 0 rfl (by simp; omega)
    simpa using this
  rw [e0]
  simp only [Option.bind_eq_bind, Option.bind_some]
  have e1 : List.replicate k (0 : Byte) = ([0] ++ List.replicate P.hmsg.hlen 0) ++ (List.replicate P.hmsg.hlen 0 ++ List.replicate (k - 2 * P.hmsg.hlen - 1) 0) := by
    rw [show ([0] : List Byte) = List.replicate 1 0 from rfl]
    simp only [List.replicate_append_replicate]
    congr 1; omega
  have c := wrAt_mid ([0] ++ List.replicate P.hmsg.hlen 0) (List.replicate P.hmsg.hlen 0)
    (List.replicate (k - 2 * P.hmsg.hlen - 1) 0 ++ buf.drop k) (P.hmsg.digest label P.hmsg.hlen) (1 + P.hmsg.hlen)
    (by simp; omega) (by simp)
  rw [e1, List.append_assoc, List.append_assoc]
  simp only [List.append_assoc] at c ⊢
  exact c

theorem oaepBlock_eq (P : Padding) (hm : P.hmgf.xof = false → 0 < P.hmgf.hlen) (k : Nat) (ss seed lHash s0 tail : List Byte)
    (hk : ss.length + 2 * P.hmsg.hlen + 2 ≤ k)
    (hl : lHash.length = P.hmsg.hlen) (hs : seed.length = P.hmsg.hlen) (h0 : s0.length = P.hmsg.hlen) :
    oaepBlock P k ss seed ([0] ++ (s0 ++ (lHash ++ (List.replicate (k - 2 * P.hmsg.hlen - 1) 0 ++ tail))))
      = some (oaepEncode P.hmgf.mgf P.hmsg.hlen k lHash ss seed ++ tail) := by
  unfold oaepBlock
  simp only [Option.bind_eq_bind]
  rw [if_neg (by omega)]
  obtain ⟨z, hz⟩ : ∃ z, z = k - ss.length - 2 * P.hmsg.hlen - 2 := ⟨_, rfl⟩
  have e1 : List.replicate (k - 2 * P.hmsg.hlen - 1) (0 : Byte) = List.replicate z 0 ++ ([0] ++ List.replicate ss.length 0) := by
    rw [show ([0] : List Byte) = List.replicate 1 0 from rfl]
    simp only [List.replicate_append_replicate]
    congr 1; omega
  rw [e1]
  have c1 := wrAt_mid ([0] ++ (s0 ++ (lHash ++ List.replicate z 0))) [0] (List.replicate ss.length 0 ++ tail) [0x01] (k - ss.length - 1)
    (by simp; omega) rfl
  simp only [List.append_assoc] at c1 ⊢
  rw [c1]
  simp only [Option.bind_some]
  have c2 := wrAt_mid ([0] ++ (s0 ++ (lHash ++ (List.replicate z 0 ++ [0x01])))) (List.replicate ss.length 0) tail ss (k - ss.length)
    (by simp; omega) (by simp)
  simp only [List.append_assoc] at c2
  rw [c2]
  simp only [Option.bind_some]
  rw [wrAt_mid [0] s0 _ seed 1 rfl (by omega)]
  simp only [Option.bind_some]
  obtain ⟨DB, hDB⟩ : ∃ DB, DB = lHash ++ (List.replicate z 0 ++ ([0x01] ++ ss)) := ⟨_, rfl⟩
  have hDBl : DB.length = k - P.hmsg.hlen - 1 := by subst hDB; simp; omega
  have r1 : [0] ++ (seed ++ (lHash ++ (List.replicate z 0 ++ ([0x01] ++ (ss ++ tail))))) = [0] ++ (seed ++ (DB ++ tail)) := by
    subst hDB; simp
  rw [r1]
  have g1 : rdAt ([0] ++ (seed ++ (DB ++ tail))) 1 P.hmsg.hlen = some seed := rdAt_mid [0] seed _ _ _ rfl hs
  have g2 : rdAt ([0] ++ (seed ++ (DB ++ tail))) (P.hmsg.hlen + 1) (k - P.hmsg.hlen - 1) = some DB := by
    have := rdAt_mid ([0] ++ seed) DB tail (P.hmsg.hlen + 1) (k - P.hmsg.hlen - 1) (by simp; omega) hDBl
    simpa using this
  rw [mgfAt_eq _ hm _ _ _ _ _ _ _ g1 g2 hDBl]
  have hml : (P.hmgf.mgf seed (k - P.hmsg.hlen - 1)).length = k - P.hmsg.hlen - 1 := length_mgf _ hm _ _
  obtain ⟨MD, hMD⟩ : ∃ MD, MD = xorBytes DB (P.hmgf.mgf seed (k - P.hmsg.hlen - 1)) := ⟨_, rfl⟩
  have hMDl : MD.length = k - P.hmsg.hlen - 1 := by subst hMD; rw [length_xorBytes _ _ (by omega)]; exact hDBl
  rw [← hMD]
  have c3 := wrAt_mid ([0] ++ seed) DB tail MD (P.hmsg.hlen + 1) (by simp; omega) (by omega)
  simp only [List.append_assoc] at c3
  rw [c3]
  simp only [Option.bind_some]
  have g3 : rdAt ([0] ++ (seed ++ (MD ++ tail))) (P.hmsg.hlen + 1) (k - P.hmsg.hlen - 1) = some MD := by
    have := rdAt_mid ([0] ++ seed) MD tail (P.hmsg.hlen + 1) (k - P.hmsg.hlen - 1) (by simp; omega) hMDl
    simpa using this
  have g4 : rdAt ([0] ++ (seed ++ (MD ++ tail))) 1 P.hmsg.hlen = some seed := rdAt_mid [0] seed _ _ _ rfl hs
  rw [mgfAt_eq _ hm _ _ _ _ _ _ _ g3 g4 hs]
  rw [wrAt_mid [0] seed _ _ 1 rfl (by rw [length_xorBytes _ _ (by rw [length_mgf _ hm]; omega)])]
  unfold oaepEncode
  have hDB' : lHash ++ List.replicate (k - ss.length - 2 * P.hmsg.hlen - 2) 0 ++ [0x01] ++ ss = DB := by
    rw [← hz, hDB]; simp
  simp only [hDB']
  rw [← hMD]
  simp

theorem length_oaepEncode (P : Padding) (hm : P.hmgf.xof = false → 0 < P.hmgf.hlen) (k : Nat) (ss seed lHash : List Byte)
    (hk : ss.length + 2 * P.hmsg.hlen + 2 ≤ k) (hl : lHash.length = P.hmsg.hlen) (hs : seed.length = P.hmsg.hlen) :
    (oaepEncode P.hmgf.mgf P.hmsg.hlen k lHash ss seed).length = k := by
  unfold oaepEncode
  simp only [List.length_cons, List.length_append, xorBytes, List.length_zipWith, length_mgf _ hm]
  simp; omega

theorem sepLoop_spec (l : List Byte) :
    sepLoop l ≤ l.length ∧ l.take (sepLoop l) = List.replicate (sepLoop l) 0 ∧
      (∀ h : sepLoop l < l.length, l[sepLoop l] ≠ 0) := by
  induction l with
  | nil => simp [sepLoop]
  | cons b l ih =>
    by_cases hb : b ≠ 0
    · have e : sepLoop (b :: l) = 0 := by rw [sepLoop, if_pos hb]
      simp only [e]
      exact ⟨by omega, by simp, fun _ => hb⟩
    · have e : sepLoop (b :: l) = sepLoop l + 1 := by rw [sepLoop, if_neg hb]
      simp only [e]
      simp only [ne_eq, not_not] at hb
      subst hb
      obtain ⟨i1, i2, i3⟩ := ih
      refine ⟨by simp; omega, by simp [List.replicate_succ, i2], ?_⟩
      intro h
      simp only [List.getElem_cons_succ]
      exact i3 (by simpa using h)

theorem sepLoop_replicate (z : Nat) (b : Byte) (l : List Byte) (hb : b ≠ 0) : sepLoop (List.replicate z 0 ++ b :: l) = z := by
  induction z with
  | zero => rw [List.replicate_zero, List.nil_append, sepLoop, if_pos hb]
  | succ z ih => rw [List.replicate_succ, List.cons_append, sepLoop, if_neg (by simp), ih]

theorem sepLoop_zeros (z : Nat) : sepLoop (List.replicate z 0) = z := by
  induction z with
  | zero => rfl
  | succ z ih => rw [List.replicate_succ, sepLoop, if_neg (by simp), ih]

/-- The separator search of `oaepParse` on the octets after the label hash. -/
theorem sep_found (z : Nat) (M : List Byte) :
    let rest := List.replicate z 0 ++ ([0x01] ++ M)
    sepLoop (rest.take (rest.length - 1)) = z ∧ rest.getD z 0 = 1 := by
  intro rest
  constructor
  · by_cases hM : M = []
    · subst hM
      have : rest.take (rest.length - 1) = List.replicate z 0 := by
        simp [rest]
      rw [this]
      exact sepLoop_zeros z
    · have hl : 0 < M.length := List.length_pos_iff.mpr hM
      have : rest.take (rest.length - 1) = List.replicate z 0 ++ (0x01 : Byte) :: M.take (M.length - 1) := by
        simp only [rest, List.take_append, List.length_append, List.length_replicate, List.length_cons, List.length_nil]
        rw [List.take_of_length_le (by simp; omega)]
        congr 1
        rw [show z + (0 + 1 + M.length) - 1 - z = (M.length - 1) + 1 by omega]
        simp
      rw [this]
      exact sepLoop_replicate _ _ _ (by decide)
  · simp [rest]

theorem sep_only (rest : List Byte) (h0 : 0 < rest.length) (t : Nat) (ht : t = sepLoop (rest.take (rest.length - 1)))
    (h1 : rest.getD t 0 = 1) : rest = List.replicate t 0 ++ ([0x01] ++ rest.drop (t + 1)) := by
  obtain ⟨s1, s2, s3⟩ := sepLoop_spec (rest.take (rest.length - 1))
  rw [← ht] at s1 s2 s3
  have htl : t < rest.length := by simp at s1; omega
  rw [List.take_take, Nat.min_eq_left (by simp at s1; omega)] at s2
  conv_lhs => rw [← List.take_append_drop t rest, s2]
  congr 1
  rw [List.drop_eq_getElem_cons htl]
  rw [show rest.getD t 0 = rest[t] by simp [htl]] at h1
  rw [h1]; rfl

theorem status_eq (b c : Byte) (n : Nat) :
    -(((if b = 0 then 0 else 1) ||| (if c ^^^ 0x01 = 0 then 0 else 1) : Nat) : Int)
      + (n : Int) * ((((if b = 0 then 0 else 1) ||| (if c ^^^ 0x01 = 0 then 0 else 1)) ^^^ 1 : Nat) : Int)
      = if b = 0 ∧ c = 1 then (n : Int) else -1 := by
  have hc : (c ^^^ 0x01 = 0) ↔ c = 1 := by revert c; decide +kernel
  by_cases h1 : b = 0 <;> by_cases h2 : c = 1 <;> simp only [h1, h2, hc, if_true, if_false, and_self, and_true, and_false] <;> simp

/-- Unmasking: what `oaepParse` does to a block `00 ‖ maskedSeed ‖ maskedDB` (first octet arbitrary). -/
theorem oaepParse_eq (P : Padding) (hm : P.hmgf.xof = false → 0 < P.hmgf.hlen) (k : Nat) (b0 : Byte) (ms md tail : List Byte)
    (hk : 2 * P.hmsg.hlen + 2 ≤ k) (hs : ms.length = P.hmsg.hlen) (hd : md.length = k - P.hmsg.hlen - 1) :
    let seed := xorBytes ms (P.hmgf.mgf md P.hmsg.hlen)
    let DB := xorBytes md (P.hmgf.mgf seed (k - P.hmsg.hlen - 1))
    let rest := DB.drop P.hmsg.hlen
    let t := sepLoop (rest.take (rest.length - 1))
    oaepParse P k ([b0] ++ (ms ++ (md ++ tail))) = some ([b0] ++ (seed ++ (DB ++ tail)),
      if b0 = 0 ∧ rest.getD t 0 = 1 then ((rest.length - t - 1 : Nat) : Int) else -1) := by
  intro seed DB rest t
  have hsl : seed.length = P.hmsg.hlen := by
    rw [length_xorBytes _ _ (by rw [length_mgf _ hm]; omega)]; exact hs
  have hDl : DB.length = k - P.hmsg.hlen - 1 := by
    rw [length_xorBytes _ _ (by rw [length_mgf _ hm]; omega)]; exact hd
  unfold oaepParse
  simp only [Option.bind_eq_bind]
  have g3 : rdAt ([b0] ++ (ms ++ (md ++ tail))) (P.hmsg.hlen + 1) (k - P.hmsg.hlen - 1) = some md := by
    have := rdAt_mid ([b0] ++ ms) md tail (P.hmsg.hlen + 1) (k - P.hmsg.hlen - 1) (by simp; omega) hd
    simpa using this
  have g4 : rdAt ([b0] ++ (ms ++ (md ++ tail))) 1 P.hmsg.hlen = some ms := rdAt_mid [b0] ms _ _ _ rfl hs
  rw [mgfAt_eq _ hm _ _ _ _ _ _ _ g3 g4 hs]
  rw [wrAt_mid [b0] ms _ seed 1 rfl (by omega)]
  simp only [Option.bind_some]
  have g1 : rdAt ([b0] ++ (seed ++ (md ++ tail))) 1 P.hmsg.hlen = some seed := rdAt_mid [b0] seed _ _ _ rfl hsl
  have g2 : rdAt ([b0] ++ (seed ++ (md ++ tail))) (P.hmsg.hlen + 1) (k - P.hmsg.hlen - 1) = some md := by
    have := rdAt_mid ([b0] ++ seed) md tail (P.hmsg.hlen + 1) (k - P.hmsg.hlen - 1) (by simp; omega) hd
    simpa using this
  rw [mgfAt_eq _ hm _ _ _ _ _ _ _ g1 g2 hd]
  have c3 := wrAt_mid ([b0] ++ seed) md tail DB (P.hmsg.hlen + 1) (by simp; omega) (by omega)
  simp only [List.append_assoc] at c3
  rw [c3]
  simp only [Option.bind_some]
  have g5 : rdAt ([b0] ++ (seed ++ (DB ++ tail))) 0 1 = some [b0] := rdAt_mid [] [b0] _ _ _ rfl rfl
  have g6 : rdAt ([b0] ++ (seed ++ (DB ++ tail))) (1 + P.hmsg.hlen * 2) (k - (1 + P.hmsg.hlen * 2)) = some rest := by
    have := rdAt_mid ([b0] ++ (seed ++ DB.take P.hmsg.hlen)) rest tail (1 + P.hmsg.hlen * 2) (k - (1 + P.hmsg.hlen * 2))
      (by simp; omega) (by simp [rest]; omega)
    have e : DB = DB.take P.hmsg.hlen ++ rest := (List.take_append_drop _ _).symm
    rw [e]
    simpa using this
  rw [g5, g6]
  simp only [Option.bind_some, nonzeroBit_eq, List.getD_cons_zero]
  congr 2
  exact status_eq b0 (rest.getD t 0) (rest.length - t - 1)

end Pkcs1
