import Verif.Lemmas.Keccak
import Verif.Spec.Sponge

/-!
# From octets to bits: the permutation, the padding and the sponge
-/

namespace Keccak
open Spec.Keccak (Arr bits toArr ofArr keccakP)

/-- Indexing into a concatenation of pieces of the same length. -/
theorem flatMap_get? {α β : Type} (l : List α) (f : α → List β) (c : Nat) (hc : 0 < c) (hf : ∀ a, (f a).length = c) (k : Nat) :
    (l.flatMap f)[k]? = l[k / c]?.bind fun a => (f a)[k % c]? := by
  induction l generalizing k with
  | nil => simp
  | cons a l ih =>
    rw [List.flatMap_cons, List.getElem?_append, hf]
    by_cases h : k < c
    · rw [if_pos h, Nat.div_eq_of_lt h, Nat.mod_eq_of_lt h]; rfl
    · rw [if_neg h, ih]
      have h1 : k / c = (k - c) / c + 1 := by
        rw [← Nat.sub_add_cancel (show c ≤ k by omega), Nat.add_div_right _ hc, Nat.add_sub_cancel]
      have h2 : k % c = (k - c) % c := by
        rw [← Nat.sub_add_cancel (show c ≤ k by omega), Nat.add_mod_right, Nat.add_sub_cancel]
      rw [h1, h2, List.getElem?_cons_succ]

theorem bits_get? (m : List Byte) (k : Nat) : (bits m)[k]? = m[k / 8]?.map fun b => b.getLsbD (k % 8) := by
  unfold bits
  rw [flatMap_get? m _ 8 (by decide) (by simp)]
  have : k % 8 < 8 := Nat.mod_lt _ (by decide)
  cases m[k / 8]? with
  | none => rfl
  | some b => simp [this]

theorem bits_length (m : List Byte) : (bits m).length = 8 * m.length := by
  unfold bits
  induction m with
  | nil => rfl
  | cons a l ih => rw [List.flatMap_cons, List.length_append, ih]; simp; omega

theorem bits_append (a b : List Byte) : bits (a ++ b) = bits a ++ bits b := by simp [bits]

theorem words_get? (l : State) (k : Nat) : (bits (l.flatMap st))[k]? = l[k / 64]?.map fun v => v.getLsbD (k % 64) := by
  rw [bits_get?, flatMap_get? l st 8 (by decide) (by simp [st])]
  have h1 : k / 8 / 8 = k / 64 := by omega
  rw [h1]
  cases l[k / 64]? with
  | none => rfl
  | some v =>
    have h2 : k / 8 % 8 < 8 := Nat.mod_lt _ (by decide)
    have h3 : k % 8 < 8 := Nat.mod_lt _ (by decide)
    simp only [Option.bind_some, st, List.getElem?_map, Option.map_some]
    rw [List.getElem?_range h2]
    simp only [Option.map_some, BitVec.getLsbD_setWidth, BitVec.getLsbD_ushiftRight, h3, decide_true, Bool.true_and, Option.some.injEq]
    congr 1
    omega

theorem finRange_get? (n i : Nat) (h : i < n) : (List.finRange n)[i]? = some ⟨i, h⟩ := by
  simp [h]

theorem ofArr_length (A : Arr) : (ofArr A).length = 1600 := by
  unfold ofArr
  simp [List.length_flatMap]

theorem ofArr_get? (A : Arr) (k : Nat) (hk : k < 1600) :
    (ofArr A)[k]? = some (A ⟨k / 64 % 5, Nat.mod_lt _ (by decide)⟩ ⟨k / 320, by omega⟩ ⟨k % 64, Nat.mod_lt _ (by decide)⟩) := by
  unfold ofArr
  rw [flatMap_get? _ _ 320 (by decide) (by simp [List.length_flatMap]), finRange_get? 5 (k / 320) (by omega), Option.bind_some,
    flatMap_get? _ _ 64 (by decide) (by simp), finRange_get? 5 (k % 320 / 64) (by omega), Option.bind_some,
    List.getElem?_map, finRange_get? 64 (k % 320 % 64) (by omega)]
  simp only [Option.map_some, Option.some.injEq]
  have e1 : k % 320 / 64 = k / 64 % 5 := by omega
  have e2 : k % 320 % 64 = k % 64 := by omega
  simp only [e1, e2]

theorem rel_bits {l : State} {A : Arr} (h : Rel l A) : bits (l.flatMap st) = ofArr A := by
  obtain ⟨hl, h⟩ := h
  apply List.ext_getElem?
  intro k
  by_cases hk : k < 1600
  · rw [words_get?, ofArr_get? A k hk, ← h]
    have hi : k / 64 < l.length := by omega
    rw [List.getElem?_eq_getElem hi]
    simp only [Option.map_some, Option.some.injEq]
    congr 1
    unfold get
    have e : 5 * (k / 320) + k / 64 % 5 = k / 64 := by omega
    simp only [e]
    rw [List.getD_eq_getElem?_getD, List.getElem?_eq_getElem hi]; rfl
  · rw [words_get?, List.getElem?_eq_none (by omega), List.getElem?_eq_none (by rw [ofArr_length]; omega)]; rfl

theorem horner_bit (f : Nat → Byte) (n z : Nat) (hz : z < 64) :
    ((List.range n).foldr (fun k (v : W) => v <<< 8 ||| (f k).setWidth 64) 0).getLsbD z =
      (decide (z < 8 * n) && (f (z / 8)).getLsbD (z % 8)) := by
  induction n generalizing f z with
  | zero => simp
  | succ n ih =>
    rw [List.range_succ_eq_map, List.foldr_cons, List.foldr_map, BitVec.getLsbD_or, BitVec.getLsbD_shiftLeft, BitVec.getLsbD_setWidth]
    by_cases h8 : z < 8
    · have h1 : z / 8 = 0 := by omega
      have h2 : z % 8 = z := by omega
      rw [h1, h2]
      simp [h8, hz, show z < 8 * (n + 1) by omega]
    · rw [ih (fun k => f (k + 1)) (z - 8) (by omega)]
      have h1 : (z - 8) / 8 + 1 = z / 8 := by omega
      have h2 : (z - 8) % 8 = z % 8 := by omega
      have h3 : z - 8 < 8 * n ↔ z < 8 * (n + 1) := by omega
      rw [h1, h2, BitVec.getLsbD_of_ge (f 0) z (by omega)]
      simp [h8, hz, h3]

theorem ld_rel (b : List Byte) (hb : b.length = 200) : Rel ((List.range 25).map (ld b)) (toArr (bits b)) := by
  refine ⟨by simp, fun x y z => ?_⟩
  have hx := x.isLt
  have hy := y.isLt
  have hz := z.isLt
  have hi : 5 * y.val + x.val < 25 := by omega
  unfold get toArr
  rw [List.getD_eq_getElem?_getD, List.getElem?_map, List.getElem?_range hi, Option.map_some, Option.getD_some]
  unfold ld
  rw [horner_bit (fun k => b.getD (8 * (5 * y.val + x.val) + k) 0) 8 z hz]
  rw [List.getD_eq_getElem?_getD, List.getD_eq_getElem?_getD, bits_get?]
  have e1 : (64 * (5 * y.val + x.val) + z.val) / 8 = 8 * (5 * y.val + x.val) + z.val / 8 := by omega
  have e2 : (64 * (5 * y.val + x.val) + z.val) % 8 = z.val % 8 := by omega
  rw [e1, e2]
  have : 8 * (5 * y.val + x.val) + z.val / 8 < b.length := by omega
  rw [List.getElem?_eq_getElem this]
  simp [show z.val < 64 from hz]

theorem permute_rel (nr : Nat) (hn : nr ≤ 24) (b : List Byte) (hb : b.length = 200) :
    ∃ l, permute nr b = l.flatMap st ∧ Rel l ((List.range' (24 - nr) nr).foldl Spec.Keccak.rnd (toArr (bits b))) := by
  refine ⟨_, rfl, ?_⟩
  rw [← skip_rounds _ nr hn]
  exact (loop_rel nr (ld_rel b hb) 24 (Nat.le_refl _)).2

theorem permute_bits (nr : Nat) (hn : nr ≤ 24) (b : List Byte) (hb : b.length = 200) :
    bits (permute nr b) = keccakP nr (bits b) := by
  obtain ⟨l, h1, h2⟩ := permute_rel nr hn b hb
  rw [h1, rel_bits h2]; rfl

theorem permute_length (nr : Nat) (hn : nr ≤ 24) (b : List Byte) (hb : b.length = 200) : (permute nr b).length = 200 := by
  obtain ⟨l, h1, h2⟩ := permute_rel nr hn b hb
  rw [h1, List.length_flatMap]
  have : ∀ v ∈ l, (st v).length = 8 := fun v _ => by simp [st]
  rw [List.map_congr_left this, List.map_const', h2.1]; rfl

/-! ## The sponge -/

theorem bits_take (m : List Byte) (n : Nat) : bits (m.take n) = (bits m).take (8 * n) := by
  apply List.ext_getElem?
  intro k
  rw [bits_get?, List.getElem?_take, List.getElem?_take, bits_get?]
  by_cases h : k < 8 * n
  · rw [if_pos h, if_pos (by omega)]
  · rw [if_neg h, if_neg (by omega)]; rfl

theorem bits_drop (m : List Byte) (n : Nat) : bits (m.drop n) = (bits m).drop (8 * n) := by
  apply List.ext_getElem?
  intro k
  rw [bits_get?, List.getElem?_drop, List.getElem?_drop, bits_get?]
  rw [show (8 * n + k) / 8 = n + k / 8 by omega, show (8 * n + k) % 8 = k % 8 by omega]

theorem bits_blocks (r : Nat) (m : List Byte) : Spec.Keccak.blocks (8 * r) (bits m) = (Spec.blocks r m).map bits := by
  unfold Spec.Keccak.blocks Spec.blocks
  rw [List.map_map, bits_length, Nat.mul_div_mul_left _ _ (by decide : 0 < 8)]
  apply List.map_congr_left
  intro i _
  simp only [Function.comp_apply]
  rw [bits_take, bits_drop, show i * (8 * r) = 8 * (i * r) by rw [Nat.mul_left_comm]]

theorem bits_xor (s b : List Byte) (h : b.length ≤ s.length) : bits (Spec.xorOnto s b) = Spec.Keccak.xorBlock (bits s) (bits b) := by
  apply List.ext_getElem?
  intro k
  unfold Spec.Keccak.xorBlock Spec.xorOnto
  rw [bits_get?, List.getElem?_mapIdx, List.getElem?_zipWith, bits_get?, List.getElem?_append, bits_length, bits_length, bits_get?,
    List.getElem?_replicate]
  by_cases hk : k / 8 < s.length
  · rw [List.getElem?_eq_getElem hk]
    simp only [Option.map_some]
    by_cases hb : k < 8 * b.length
    · have hb' : k / 8 < b.length := by omega
      rw [if_pos hb, List.getElem?_eq_getElem hb', List.getD_eq_getElem?_getD, List.getElem?_eq_getElem hb']
      simp
    · have hb' : b.length ≤ k / 8 := by omega
      rw [if_neg hb, if_pos (by omega), List.getD_eq_getElem?_getD, List.getElem?_eq_none hb']
      simp
  · rw [List.getElem?_eq_none (by omega)]; rfl

theorem bits_zero (n : Nat) : bits (List.replicate n 0) = List.replicate (8 * n) false := by
  apply List.ext_getElem?
  intro k
  rw [bits_get?, List.getElem?_replicate, List.getElem?_replicate]
  by_cases h : k < 8 * n
  · rw [if_pos h, if_pos (by omega)]; simp
  · rw [if_neg h, if_neg (by omega)]; rfl

/-- The octet `lo` holds the domain bits `suf` and the first bit of the padding. -/
def Dom (lo : Byte) (suf : List Bool) : Prop :=
  suf.length ≤ 6 ∧ bits [lo] = suf ++ true :: List.replicate (7 - suf.length) false

theorem bits_pad (r : Nat) (hr : 0 < r) (lo : Byte) (suf : List Bool) (hd : Dom lo suf) (m : List Byte) :
    bits (m ++ Spec.spongePad r lo 0x80 (m.length % r)) =
      (bits m ++ suf) ++ Spec.Keccak.pad101 (8 * r) (bits m ++ suf).length := by
  obtain ⟨hs, hb⟩ := hd
  rw [bits_append, List.append_assoc]
  congr 1
  have hm : (bits m ++ suf).length = 8 * m.length + suf.length := by rw [List.length_append, bits_length]
  rw [hm]
  have hq := Nat.mod_lt m.length hr
  have hml := Nat.div_add_mod m.length r
  have e : (8 * m.length + suf.length + 2) % (8 * r) = (8 * (m.length % r) + suf.length + 2) % (8 * r) := by
    conv_lhs => rw [← hml]
    rw [show 8 * (r * (m.length / r) + m.length % r) + suf.length + 2 =
      8 * (m.length % r) + suf.length + 2 + 8 * r * (m.length / r) by rw [Nat.mul_add, Nat.mul_assoc 8 r]; omega]
    exact Nat.add_mul_mod_self_left _ _ _
  unfold Spec.Keccak.pad101
  simp only
  rw [e]
  generalize m.length % r = q at *
  unfold Spec.spongePad
  by_cases hc : q + 1 = r
  · rw [if_pos hc]
    have hj : (8 * r - (8 * q + suf.length + 2) % (8 * r)) % (8 * r) = 6 - suf.length := by
      by_cases h6 : suf.length = 6
      · rw [h6, show 8 * q + 6 + 2 = 8 * r by omega, Nat.mod_self, Nat.sub_zero, Nat.mod_self]
      · rw [Nat.mod_eq_of_lt (show 8 * q + suf.length + 2 < 8 * r by omega), Nat.mod_eq_of_lt (by omega)]; omega
    rw [hj]
    have hx : bits [lo ^^^ 0x80] = (bits [lo]).take 7 ++ [(bits [lo]).getD 7 false ^^ true] := by
      clear hb; revert lo; decide +kernel
    rw [hx, hb]
    have h7 : suf.length ≤ 7 := by omega
    rw [List.take_append, List.take_of_length_le h7, List.getD_eq_getElem?_getD, List.getElem?_append_right h7, ← List.getD_eq_getElem?_getD]
    obtain ⟨u, hu⟩ : ∃ u, suf.length + u = 6 := ⟨6 - suf.length, by omega⟩
    rw [show 7 - suf.length = u + 1 by omega, show 6 - suf.length = u by omega, List.take_succ_cons, List.take_replicate,
      List.getD_cons_succ, List.append_assoc]
    simp
  · rw [if_neg hc]
    have hj : (8 * r - (8 * q + suf.length + 2) % (8 * r)) % (8 * r) = 7 - suf.length + (8 * (r - 2 - q) + 7) := by
      rw [Nat.mod_eq_of_lt (show 8 * q + suf.length + 2 < 8 * r by omega), Nat.mod_eq_of_lt (by omega)]; omega
    rw [hj, show lo :: List.replicate (r - 2 - q) 0 ++ [(0x80 : Byte)] = [lo] ++ (List.replicate (r - 2 - q) 0 ++ [(0x80 : Byte)]) from rfl,
      bits_append, bits_append, hb, bits_zero, show bits [(0x80 : Byte)] = List.replicate 7 false ++ [true] from by decide +kernel]
    rw [List.replicate_add, List.replicate_add]
    simp [List.append_assoc]

section
variable {perm : List Byte → List Byte} {f : List Bool → List Bool}
  (hp : ∀ b : List Byte, b.length = 200 → (perm b).length = 200 ∧ bits (perm b) = f (bits b))
include hp

theorem bits_absorb (l : List (List Byte)) (hl : ∀ b ∈ l, b.length ≤ 200) (s : List Byte) (hs : s.length = 200) :
    (l.foldl (fun s b => perm (Spec.xorOnto s b)) s).length = 200 ∧
    bits (l.foldl (fun s b => perm (Spec.xorOnto s b)) s) = (l.map bits).foldl (fun S p => f (Spec.Keccak.xorBlock S p)) (bits s) := by
  induction l generalizing s with
  | nil => exact ⟨hs, rfl⟩
  | cons b l ih =>
    have hx : (Spec.xorOnto s b).length = 200 := by simpa [Spec.xorOnto] using hs
    obtain ⟨h1, h2⟩ := hp _ hx
    have hb := hl b (by simp)
    rw [List.foldl_cons, List.map_cons, List.foldl_cons, ← bits_xor s b (by omega), ← h2]
    exact ih (fun c hc => hl c (by simp [hc])) _ h1

/-- Squeezing whole blocks of octets. -/
def squeezeBlocks (perm : List Byte → List Byte) (r : Nat) : (n : Nat) → List Byte → List Byte
  | 0, _ => []
  | n + 1, s => s.take r ++ squeezeBlocks perm r n (perm s)

theorem bits_squeeze (r n : Nat) (s : List Byte) (hs : s.length = 200) :
    bits (squeezeBlocks perm r n s) = Spec.Keccak.squeeze f (8 * r) n (bits s) := by
  induction n generalizing s with
  | zero => rfl
  | succ n ih =>
    obtain ⟨h1, h2⟩ := hp _ hs
    rw [squeezeBlocks, Spec.Keccak.squeeze, bits_append, bits_take, ih _ h1, h2]

theorem squeezeBlocks_get? (r : Nat) (hr : 0 < r) (hr2 : r ≤ 200) (n : Nat) (s : List Byte) (hs : s.length = 200) (k : Nat)
    (hk : k < n * r) : (squeezeBlocks perm r n s)[k]? = some (Spec.squeezeByte perm r s k) := by
  induction n generalizing s k with
  | zero => omega
  | succ n ih =>
    rw [squeezeBlocks, List.getElem?_append, List.length_take, hs, Nat.min_eq_left hr2]
    unfold Spec.squeezeByte
    by_cases h : k < r
    · rw [if_pos h, Nat.div_eq_of_lt h, Nat.mod_eq_of_lt h, List.getElem?_take, if_pos h, Function.iterate_zero_apply,
        List.getD_eq_getElem?_getD, List.getElem?_eq_getElem (by omega)]; rfl
    · rw [if_neg h, ih _ (hp _ hs).1 _ (by rw [Nat.succ_mul] at hk; omega)]
      unfold Spec.squeezeByte
      have h1 : k / r = (k - r) / r + 1 := by
        rw [← Nat.sub_add_cancel (show r ≤ k by omega), Nat.add_div_right _ hr, Nat.add_sub_cancel]
      have h2 : k % r = (k - r) % r := by
        rw [← Nat.sub_add_cancel (show r ≤ k by omega), Nat.add_mod_right, Nat.add_sub_cancel]
      rw [h1, h2, Function.iterate_succ_apply]

theorem squeezeBlocks_take (r : Nat) (hr : 0 < r) (hr2 : r ≤ 200) (n N : Nat) (hn : n ≤ N * r) (s : List Byte) (hs : s.length = 200) :
    Spec.prefixOf (Spec.squeezeByte perm r s) n = (squeezeBlocks perm r N s).take n := by
  apply List.ext_getElem?
  intro k
  unfold Spec.prefixOf
  rw [List.getElem?_map, List.getElem?_take]
  by_cases hk : k < n
  · rw [if_pos hk, List.getElem?_range hk, squeezeBlocks_get? hp r hr hr2 N s hs k (by omega)]; rfl
  · rw [if_neg hk, List.getElem?_eq_none (by simp; omega)]; rfl

/-- The sponge on octets is the sponge on bits. -/
theorem bits_stream (r : Nat) (hr : 0 < r) (hr2 : r ≤ 200) (lo : Byte) (suf : List Bool) (hd : Dom lo suf) (m : List Byte) (n : Nat) :
    bits (Spec.prefixOf (Spec.spongeStream perm r 200 lo 0x80 m) n) = Spec.Keccak.sponge f (8 * r) (bits m ++ suf) (8 * n) := by
  have hle : n ≤ (8 * n + 8 * r - 1) / (8 * r) * r := by
    have h1 := Nat.div_add_mod (8 * n + 8 * r - 1) (8 * r)
    have h2 := Nat.mod_lt (8 * n + 8 * r - 1) (show 8 * r > 0 by omega)
    generalize (8 * n + 8 * r - 1) / (8 * r) = N at *
    generalize (8 * n + 8 * r - 1) % (8 * r) = R at *
    rw [Nat.mul_assoc, Nat.mul_comm r N] at h1
    generalize N * r = T at *
    omega
  obtain ⟨h1, h2⟩ := bits_absorb hp (Spec.blocks r (m ++ Spec.spongePad r lo 0x80 (m.length % r)))
    (by
      intro b hb
      unfold Spec.blocks at hb
      obtain ⟨i, _, rfl⟩ := List.mem_map.1 hb
      rw [List.length_take]; omega) (List.replicate 200 0) List.length_replicate
  have e : Spec.spongeStream perm r 200 lo 0x80 m = Spec.squeezeByte perm r
      ((Spec.blocks r (m ++ Spec.spongePad r lo 0x80 (m.length % r))).foldl (fun s b => perm (Spec.xorOnto s b)) (List.replicate 200 0)) := rfl
  rw [e, squeezeBlocks_take hp r hr hr2 n _ hle _ h1, bits_take, bits_squeeze hp r _ _ h1, h2, ← bits_blocks, bits_pad r hr lo suf hd,
    bits_zero]
  rfl

end

theorem f1600_perm : ∀ b : List Byte, b.length = 200 → (f1600 b).length = 200 ∧ bits (f1600 b) = keccakP 24 (bits b) :=
  fun b hb => ⟨permute_length 24 (Nat.le_refl _) b hb, permute_bits 24 (Nat.le_refl _) b hb⟩

theorem dom_06 : Dom 0x06 [false, true] := by constructor <;> decide +kernel
theorem dom_1f : Dom 0x1f [true, true, true, true] := by constructor <;> decide +kernel
theorem dom_04 : Dom 0x04 [false, false] := by constructor <;> decide +kernel

end Keccak
