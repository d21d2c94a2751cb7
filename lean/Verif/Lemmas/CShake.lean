import Verif.Lemmas.Sponge

namespace Sponge
open Spec (blocks tailBlock xorOnto absorb squeezeByte spongePad)

variable (perm : List Byte → List Byte)

theorem ilen_eq (v : BitVec 64) : ilen v = Spec.nbytes v.toNat := by
  have hv := v.isLt
  have key : ∀ k, k ≠ 0 → 256 ^ k ≤ v.toNat → v.toNat < 256 ^ (k + 1) → Spec.nbytes v.toNat = k + 1 := by
    intro k hk h1 h2
    unfold Spec.nbytes
    rw [Nat.log_eq_of_pow_le_of_lt_pow h1 h2]
  unfold ilen
  simp only
  split_ifs with h1 h2 h3 h4 h5 h6 h7
  · unfold Spec.nbytes; rw [Nat.log_of_lt (by omega)]
  · rw [key 1 (by decide) (by omega) (by omega)]
  · rw [key 2 (by decide) (by omega) (by omega)]
  · rw [key 3 (by decide) (by omega) (by omega)]
  · rw [key 4 (by decide) (by omega) (by omega)]
  · rw [key 5 (by decide) (by omega) (by omega)]
  · rw [key 6 (by decide) (by omega) (by omega)]
  · rw [key 7 (by decide) (by omega) (by omega)]

theorem ilen_le (v : BitVec 64) : 1 ≤ ilen v ∧ ilen v ≤ 8 := by
  unfold ilen; simp only; split_ifs <;> omega

theorem be64_drop (v : BitVec 64) (o : Nat) (ho : o ≤ 8) :
    ((be64 v).drop (8 - o)).take o = Spec.beBytes o v.toNat := by
  apply List.ext_getElem
  · simp [be64, Spec.beBytes]; omega
  · intro i h1 h2
    simp only [List.length_take, List.length_drop, be64, List.length_map, List.length_range] at h1
    simp only [be64, Spec.beBytes, List.getElem_take, List.getElem_drop, List.getElem_map, List.getElem_range]
    apply BitVec.eq_of_toNat_eq
    rw [BitVec.toNat_setWidth, BitVec.toNat_ushiftRight, BitVec.toNat_ofNat, Nat.shiftRight_eq_div_pow,
      Nat.pow_mul]
    have : 7 - (8 - o + i) = o - 1 - i := by omega
    rw [this]

theorem leftEncode_eq (x : Ctx) (v : BitVec 64) :
    leftEncode perm x v = update perm x (Spec.leftEncode v.toNat) := by
  unfold leftEncode Spec.leftEncode
  simp only
  rw [be64_drop v _ (ilen_le v).2, update_append, ilen_eq]; rfl

theorem rightEncode_eq (x : Ctx) (v : BitVec 64) :
    rightEncode perm x v = update perm x (Spec.rightEncode v.toNat) := by
  unfold rightEncode Spec.rightEncode
  simp only
  rw [be64_drop v _ (ilen_le v).2, update_append, ilen_eq]

theorem mul8 (n : Nat) (h : n < 2 ^ 61) : (BitVec.ofNat 64 n * 8#64).toNat = 8 * n := by
  rw [BitVec.toNat_mul, BitVec.toNat_ofNat]
  simp; omega

theorem encodeString_eq (x : Ctx) (S : List Byte) (h : S.length < 2 ^ 61) :
    encodeString perm x S = update perm x (Spec.encodeString S) := by
  unfold encodeString Spec.encodeString
  simp only
  rw [leftEncode_eq, update_append, mul8 _ h]

theorem xorOnto_zeros (h T : List Byte) (k : Nat) : xorOnto h (T ++ List.replicate k 0) = xorOnto h T := by
  apply List.ext_getElem
  · simp [xorOnto]
  · intro i h1 h2
    rw [getElem_xorOnto, getElem_xorOnto]
    congr 1
    simp only [List.getD_eq_getElem?_getD, List.getElem?_append]
    split
    · rfl
    · rw [List.getElem?_eq_none (l := T) (by omega)]
      by_cases c : i - T.length < k <;> simp [c]

/-- `Sponge_Update(NULL,1)` after absorbing `P`: it absorbs `k` zero bytes whenever these complete
a block, `0 < k ≤ r`. -/
theorem updateNull_eq (s : Ctx) (P : List Byte) (k : Nat) (hr : 0 < s.rate) (h0 : s.filled = 0)
    (hk : 0 < k) (hk2 : k + P.length % s.rate = s.rate) :
    updateNull perm (update perm s P) = update perm s (P ++ List.replicate k 0) := by
  rw [update_fresh perm s P hr h0, update_fresh perm s _ hr h0]
  unfold updateNull
  simp only
  have hl := Spec.length_tailBlock s.rate P
  obtain ⟨A, T, rfl, hd, hT, hb, ht⟩ := Spec.split_aligned hr P
  rw [ht] at hl ⊢
  have hfull : (T ++ List.replicate k (0:Byte)).length = s.rate := by simp; omega
  have e1 : (A ++ T ++ List.replicate k (0:Byte)).length % s.rate = 0 := by
    rw [List.append_assoc, List.length_append, hfull]
    obtain ⟨q, hq⟩ := hd
    rw [hq]; simp
  rw [e1, List.append_assoc, Spec.tailBlock_append_aligned hr hd, Spec.tailBlock_full hr hfull,
    Spec.xorOnto_nil]
  have e2 : blocks s.rate (A ++ (T ++ List.replicate k (0:Byte))) =
      blocks s.rate A ++ [T ++ List.replicate k (0:Byte)] := by
    rw [Spec.blocks_append_aligned hr hd, Spec.blocks_single hr hfull]
  unfold absorb
  rw [e2, hb, List.foldl_append]
  simp only [List.foldl_cons, List.foldl_nil, xorOnto_zeros]

theorem zeroPad_pos {w n : Nat} (hw : 0 < w) (h : ¬ w ∣ n) :
    ∃ k, 0 < k ∧ k + n % w = w ∧ Spec.zeroPad w n = List.replicate k 0 := by
  have h1 : 0 < n % w := Nat.pos_of_ne_zero (fun h0 => h (Nat.dvd_of_mod_eq_zero h0))
  have h2 := Nat.mod_lt n hw
  refine ⟨w - n % w, by omega, by omega, ?_⟩
  unfold Spec.zeroPad
  rw [Nat.mod_eq_of_lt (by omega)]

theorem zeroPad_dvd {w n : Nat} (h : w ∣ n) : Spec.zeroPad w n = [] := by
  unfold Spec.zeroPad
  rw [Nat.mod_eq_zero_of_dvd h]
  simp

theorem dvd_padded {w n : Nat} (hw : 0 < w) (l : List Byte) (hl : l.length = n) :
    w ∣ (l ++ Spec.zeroPad w n).length := by
  subst hl
  by_cases h : w ∣ l.length
  · rw [zeroPad_dvd h]; simpa
  · obtain ⟨k, _, h2, h3⟩ := zeroPad_pos hw h
    rw [h3, List.length_append, List.length_replicate]
    have := Nat.div_add_mod l.length w
    exact ⟨l.length / w + 1, by rw [Nat.mul_add]; omega⟩

/-- the encoded prefix of cSHAKE before padding -/
def csPrefix (r : Nat) (N S : List Byte) : List Byte :=
  Spec.leftEncode r ++ (Spec.encodeString N ++ Spec.encodeString S)

theorem customize_raw (x : Ctx) (N S : List Byte) (hr : x.rate < 2 ^ 64)
    (hN : N.length < 2 ^ 61) (hS : S.length < 2 ^ 61) (hne : ¬ (N = [] ∧ S = [])) :
    customize perm x N S = updateNull perm (update perm (init x.rate 0x04 0x80 200) (csPrefix x.rate N S)) := by
  unfold customize
  have : ¬ (N.length = 0 ∧ S.length = 0) := by
    simpa [List.length_eq_zero_iff] using hne
  simp only [this, if_false]
  rw [leftEncode_eq, encodeString_eq perm _ N hN, encodeString_eq perm _ S hS, update_append, update_append]
  have e : (BitVec.ofNat 64 x.rate).toNat = x.rate := by rw [BitVec.toNat_ofNat, Nat.mod_eq_of_lt hr]
  rw [e]; rfl

/-- all of the prefix as one absorbed string, `k` zero bytes of padding -/
theorem customize_eq (x : Ctx) (N S : List Byte) (hr0 : 0 < x.rate) (hr : x.rate < 2 ^ 64)
    (hN : N.length < 2 ^ 61) (hS : S.length < 2 ^ 61) (hne : ¬ (N = [] ∧ S = [])) (k : Nat) (hk : 0 < k)
    (hk2 : k + (csPrefix x.rate N S).length % x.rate = x.rate) :
    customize perm x N S =
      update perm (init x.rate 0x04 0x80 200) (csPrefix x.rate N S ++ List.replicate k 0) := by
  rw [customize_raw perm x N S hr hN hS hne]
  exact updateNull_eq perm _ _ k hr0 rfl hk hk2

/-- read-out of a finalised, freshly absorbed context -/
theorem shake_read (s : Ctx) (m : List Byte) (n : Nat) (hr : 0 < s.rate) (h0 : s.filled = 0)
    (hf : s.finalized = false) :
    (read perm (shakeFinal perm (update perm s m)) n).1 =
      (List.range n).map (squeezeByte perm s.rate (absorb perm s.rate s.state
        (m ++ spongePad s.rate s.lopad s.hipad (m.length % s.rate)))) := by
  unfold shakeFinal
  have : (update perm s m).finalized = false := by rw [update_fresh perm s m hr h0]; exact hf
  rw [this, final_fresh perm s m hr h0 hf]
  simp only [Bool.false_eq_true, if_false, save]
  have := fun (x : Ctx) h => read_spec perm n x (absorb perm s.rate s.state
        (m ++ spongePad s.rate s.lopad s.hipad (m.length % s.rate))) 0 h
  rw [this _ (by exact hr) (by simp) (by simp)]
  simp

end Sponge
