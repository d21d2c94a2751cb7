import Verif.Model.Fips180
import Verif.Spec.Sha
import Verif.Lemmas.Endian
import Mathlib.Tactic.Ring
import Mathlib.Tactic.NormNum

/-!
# Compression functions of `fips-180.c` and `gbt-32905.c` against the standards
-/

namespace Fips180
open Spec.Sha
variable {n : Nat}

theorem rotl_eq (x : BitVec 32) (k : Nat) (hk : k < 32) : rotl x k = x.rotateLeft k := by
  rw [rotl, BitVec.rotateLeft_def, Nat.mod_eq_of_lt hk]

theorem rotr_eq (x : BitVec n) (k : Nat) (hk : k < n) : rotr x k = x.rotateRight k := by
  rw [rotr, BitVec.rotateRight_def, Nat.mod_eq_of_lt hk]

/-! ## The ring buffer -/

/-- The list holds `F lo .. F (lo + 15)`, each at its index modulo 16. -/
def Ring (W : List (BitVec n)) (F : Nat → BitVec n) (lo : Nat) : Prop :=
  W.length = 16 ∧ ∀ i, lo ≤ i → i < lo + 16 → at_ W (i % 16) = F i

theorem Ring.step {W : List (BitVec n)} {F : Nat → BitVec n} {lo : Nat} (h : Ring W F lo) :
    Ring (W.set (lo % 16) (F (lo + 16))) F (lo + 1) := by
  obtain ⟨hl, h⟩ := h
  refine ⟨by simpa using hl, fun i h1 h2 => ?_⟩
  unfold at_
  by_cases he : i = lo + 16
  · subst he
    rw [Nat.add_mod_right, List.getD_eq_getElem _ _ (by rw [List.length_set]; omega), List.getElem_set_self]
  · have := h i (by omega) (by omega)
    unfold at_ at this
    rw [← this, List.getD_eq_getElem?_getD, List.getD_eq_getElem?_getD, List.getElem?_set_ne (by omega)]

theorem ring_init (f F : Nat → BitVec n) (h : ∀ t < 16, f t = F t) : Ring ((List.range 16).map f) F 0 := by
  refine ⟨by simp, fun i _ h2 => ?_⟩
  rw [Nat.mod_eq_of_lt (by omega), ← h i (by omega)]
  unfold at_
  rw [List.getD_eq_getElem _ _ (by simp; omega)]
  simp

/-! ## SHA-1 -/

theorem sha1_loop (H0 : V5) (M : Nat → BitVec 32) (W0 : List (BitVec 32)) (h0 : Ring W0 (sched1 M) 0) (t : Nat) :
    let s := (List.range t).foldl sha1Round ⟨H0.a, H0.b, H0.c, H0.d, H0.e, W0⟩
    (⟨s.a, s.b, s.c, s.d, s.e⟩ : V5) = vars1 (sched1 M) H0 t ∧ Ring s.W (sched1 M) (t - 16) := by
  induction t with
  | zero => exact ⟨rfl, h0⟩
  | succ t ih =>
    intro s
    set s' := (List.range t).foldl sha1Round ⟨H0.a, H0.b, H0.c, H0.d, H0.e, W0⟩ with hs'
    have hs : s = sha1Round s' t := by simp only [s, List.range_succ, List.foldl_append, List.foldl_cons, List.foldl_nil, hs']
    obtain ⟨iv, ir⟩ := ih
    have hW : Ring s.W (sched1 M) (t + 1 - 16) ∧ (if t < 16 then at_ s.W t else at_ s.W (t % 16)) = sched1 M t := by
      rw [hs]
      simp only [sha1Round]
      by_cases ht : t < 16
      · simp only [ht, if_true]
        have e : t + 1 - 16 = t - 16 := by omega
        refine ⟨by rw [e]; exact ir, ?_⟩
        have := ir.2 t (by omega) (by omega)
        rwa [Nat.mod_eq_of_lt ht] at this
      · simp only [ht, if_false]
        have e : t % 16 = (t - 16) % 16 := by omega
        have e3 := ir.2 (t - 3) (by omega) (by omega)
        have e8 := ir.2 (t - 8) (by omega) (by omega)
        have e14 := ir.2 (t - 14) (by omega) (by omega)
        have e16 := ir.2 (t - 16) (by omega) (by omega)
        rw [e3, e8, e14, e16, rotl_eq _ _ (by decide)]
        have hf : (sched1 M (t - 3) ^^^ sched1 M (t - 8) ^^^ sched1 M (t - 14) ^^^ sched1 M (t - 16)).rotateLeft 1 =
            sched1 M (t - 16 + 16) := by
          conv_rhs => rw [sched1]
          rw [show t - 16 + 16 = t by omega, if_neg ht]
        rw [hf]
        have hr := ir.step
        rw [← e] at hr
        have e1 : t + 1 - 16 = t - 16 + 1 := by omega
        refine ⟨by rw [e1]; exact hr, ?_⟩
        have := hr.2 t (by omega) (by omega)
        exact this
    refine ⟨?_, hW.1⟩
    rw [vars1, ← iv]
    have hw := hW.2
    rw [hs] at hw ⊢
    simp only [sha1Round] at hw ⊢
    rw [hw]
    have c1 : (t ≤ 19) = (t < 20) := by apply propext; omega
    have c2 : (t ≤ 39) = (t < 40) := by apply propext; omega
    have c3 : (t ≤ 59) = (t < 60) := by apply propext; omega
    have hf : (if t < 20 then ch s'.b s'.c s'.d else if t < 40 then parity s'.b s'.c s'.d else
        if t < 60 then maj s'.b s'.c s'.d else parity s'.b s'.c s'.d) = f1 t s'.b s'.c s'.d := by
      unfold f1
      simp only [c1, c2, c3]
      split_ifs <;> rfl
    have hk : kSha1 t = K1 t := by
      unfold kSha1 K1
      simp only [c1, c2, c3]
    rw [hf, hk, rotl_eq _ _ (by decide), rotl_eq _ _ (by decide)]

/-! ## SHA-2 -/

/-- The parameters of the code are the functions of the standard, and the table has its constants. -/
structure Fits (P : Par n) (F : Fn n) : Prop where
  S0 : ∀ x, P.S0 x = F.S0 x
  S1 : ∀ x, P.S1 x = F.S1 x
  s0 : ∀ x, P.s0 x = F.s0 x
  s1 : ∀ x, P.s1 x = F.s1 x
  rounds : P.rounds = F.rounds
  K : ∀ t < F.rounds, at_ P.K t = cbrtFrac n (prime t)

theorem sha2_loop {P : Par n} {F : Fn n} (hf : Fits P F) (H0 : V8 n) (M : Nat → BitVec n) (W0 : List (BitVec n))
    (h0 : Ring W0 (sched2 F M) 0) (t : Nat) (hr : t ≤ F.rounds) :
    let s := (List.range t).foldl (sha2Round P) ⟨H0.a, H0.b, H0.c, H0.d, H0.e, H0.f, H0.g, H0.h, W0⟩
    (⟨s.a, s.b, s.c, s.d, s.e, s.f, s.g, s.h⟩ : V8 n) = vars2 F (sched2 F M) H0 t ∧ Ring s.W (sched2 F M) (t - 16) := by
  induction t with
  | zero => exact ⟨rfl, h0⟩
  | succ t ih =>
    intro s
    set s' := (List.range t).foldl (sha2Round P) ⟨H0.a, H0.b, H0.c, H0.d, H0.e, H0.f, H0.g, H0.h, W0⟩ with hs'
    have hs : s = sha2Round P s' t := by simp only [s, List.range_succ, List.foldl_append, List.foldl_cons, List.foldl_nil, hs']
    obtain ⟨iv, ir⟩ := ih (by omega)
    have hW : Ring s.W (sched2 F M) (t + 1 - 16) ∧ (if t < 16 then at_ s.W t else at_ s.W (t % 16)) = sched2 F M t := by
      rw [hs]
      simp only [sha2Round]
      by_cases ht : t < 16
      · simp only [ht, if_true]
        have e : t + 1 - 16 = t - 16 := by omega
        refine ⟨by rw [e]; exact ir, ?_⟩
        have := ir.2 t (by omega) (by omega)
        rwa [Nat.mod_eq_of_lt ht] at this
      · simp only [ht, if_false]
        have e : t % 16 = (t - 16) % 16 := by omega
        have e2 := ir.2 (t - 2) (by omega) (by omega)
        have e7 := ir.2 (t - 7) (by omega) (by omega)
        have e15 := ir.2 (t - 15) (by omega) (by omega)
        have e16 := ir.2 (t - 16) (by omega) (by omega)
        rw [e2, e7, e15, e16, hf.s1, hf.s0]
        have hF : F.s1 (sched2 F M (t - 2)) + sched2 F M (t - 7) + F.s0 (sched2 F M (t - 15)) + sched2 F M (t - 16) =
            sched2 F M (t - 16 + 16) := by
          conv_rhs => rw [sched2]
          rw [show t - 16 + 16 = t by omega, if_neg ht]
        rw [hF]
        have hr := ir.step
        rw [← e] at hr
        have e1 : t + 1 - 16 = t - 16 + 1 := by omega
        refine ⟨by rw [e1]; exact hr, ?_⟩
        have := hr.2 t (by omega) (by omega)
        exact this
    refine ⟨?_, hW.1⟩
    rw [vars2, ← iv]
    have hw := hW.2
    rw [hs] at hw ⊢
    simp only [sha2Round] at hw ⊢
    rw [hw, hf.S0, hf.S1, hf.K t (by omega)]
    rfl

/-! ## SM3 -/

theorem sm3_loop (H0 : V8 32) (M : Nat → BitVec 32) (W0 : List (BitVec 32)) (h0 : Ring W0 (sched3 M) 0) (t : Nat) (hr : t ≤ 64) :
    let s := (List.range t).foldl sm3Round ⟨H0.a, H0.b, H0.c, H0.d, H0.e, H0.f, H0.g, H0.h, W0⟩
    (⟨s.a, s.b, s.c, s.d, s.e, s.f, s.g, s.h⟩ : V8 32) = vars3 (sched3 M) H0 t ∧ Ring s.W (sched3 M) t := by
  induction t with
  | zero => exact ⟨rfl, h0⟩
  | succ t ih =>
    intro s
    set s' := (List.range t).foldl sm3Round ⟨H0.a, H0.b, H0.c, H0.d, H0.e, H0.f, H0.g, H0.h, W0⟩ with hs'
    have hs : s = sm3Round s' t := by simp only [s, List.range_succ, List.foldl_append, List.foldl_cons, List.foldl_nil, hs']
    obtain ⟨iv, ir⟩ := ih (by omega)
    have e0 := ir.2 t (by omega) (by omega)
    have r : ∀ k, k < 16 → at_ s'.W ((t % 16 + k) % 16) = sched3 M (t + k) := by
      intro k hk
      rw [← ir.2 (t + k) (by omega) (by omega)]
      congr 1
      omega
    have q : ∀ (x : BitVec 32) (k : Nat), k < 32 → x <<< k ||| x >>> (32 - k) = x.rotateLeft k := by
      intro x k hk
      rw [BitVec.rotateLeft_def, Nat.mod_eq_of_lt hk]
    have q7 := fun x => q x 7 (by decide)
    have q9 := fun x => q x 9 (by decide)
    have q12 := fun x => q x 12 (by decide)
    have q15 := fun x => q x 15 (by decide)
    have q17 := fun x => q x 17 (by decide)
    have q19 := fun x => q x 19 (by decide)
    have q23 := fun x => q x 23 (by decide)
    simp only [Nat.reduceSub] at q7 q9 q12 q15 q17 q19 q23
    have p1 : ∀ x, sm3P1 x = P1 x := fun x => by unfold sm3P1 P1; rw [q15, q23]
    have p0 : ∀ x, sm3P0 x = P0 x := fun x => by unfold sm3P0 P0; rw [q9, q17]
    have hW : Ring s.W (sched3 M) (t + 1) := by
      rw [hs]
      simp only [sm3Round]
      rw [e0, r 7 (by decide), r 13 (by decide), r 3 (by decide), r 10 (by decide), p1, q15, q7]
      have hF : P1 (sched3 M t ^^^ sched3 M (t + 7) ^^^ (sched3 M (t + 13)).rotateLeft 15) ^^^ (sched3 M (t + 3)).rotateLeft 7 ^^^
          sched3 M (t + 10) = sched3 M (t + 16) := by
        conv_rhs => rw [sched3]
        rw [if_neg (by omega), show t + 16 - 16 = t by omega, show t + 16 - 9 = t + 7 by omega, show t + 16 - 3 = t + 13 by omega,
          show t + 16 - 13 = t + 3 by omega, show t + 16 - 6 = t + 10 by omega]
      rw [hF]
      exact ir.step
    refine ⟨?_, hW⟩
    rw [vars3, ← iv]
    have hT : (if t % 32 ≠ 0 then sm3T t <<< (t % 32) ||| sm3T t >>> (32 - t % 32) else sm3T t) = (T3 t).rotateLeft (t % 32) := by
      have e : sm3T t = T3 t := by
        unfold sm3T T3
        by_cases h : t < 16
        · rw [if_pos (by omega), if_pos h]
        · rw [if_neg (by omega), if_neg h, if_pos (by omega)]
      rw [e]
      split
      · exact q _ _ (Nat.mod_lt _ (by decide))
      · rename_i h
        rw [not_not.mp h, BitVec.rotateLeft_def]
        simp [BitVec.ushiftRight_eq_zero]
    have hFF : ∀ x y z, sm3FF t x y z = FF t x y z := by
      intro x y z
      unfold sm3FF FF
      by_cases h : t < 16
      · rw [if_pos (by omega), if_pos h]
      · rw [if_neg (by omega), if_neg h, if_pos (by omega)]
    have hGG : ∀ x y z, sm3GG t x y z = GG t x y z := by
      intro x y z
      unfold sm3GG GG
      by_cases h : t < 16
      · rw [if_pos (by omega), if_pos h]
      · rw [if_neg (by omega), if_neg h, if_pos (by omega)]
    rw [hs]
    simp only [sm3Round]
    rw [hT, hFF, hGG, e0, r 4 (by decide), q12, q9, q19, p0, q7]
    have a1 : ∀ x y z : BitVec 32, x + (y + z) = y + z + x := fun x y z => by ac_rfl
    rw [a1 ((T3 t).rotateLeft (t % 32)), a1 (sched3 M t ^^^ sched3 M (t + 4))]

/-! ## Words of a block -/

theorem toNat_app {k m : Nat} (x : BitVec k) (y : BitVec m) : (x ++ y).toNat = x.toNat * 2 ^ m + y.toNat := by
  rw [BitVec.toNat_append, Nat.shiftLeft_eq, Nat.or_comm, ← Nat.shiftLeft_eq, Nat.or_comm, ← Nat.shiftLeft_add_eq_or_of_lt y.isLt, Nat.shiftLeft_eq]

theorem ld32_eq (b : List (BitVec 8)) (t : Nat) : Endian.ld32 b t = word 4 b t := by
  apply BitVec.eq_of_toNat_eq
  unfold Endian.ld32 word
  rw [toNat_app, toNat_app, toNat_app, BitVec.toNat_ofNat]
  simp only [List.range_succ, List.range_zero, List.nil_append, List.map_append, List.map_cons, List.map_nil, Spec.beNat,
    List.reverse_append, List.reverse_cons, List.reverse_nil, List.cons_append, Spec.leNat, Nat.add_zero]
  have := (b.getD (4 * t) 0).isLt
  have := (b.getD (4 * t + 1) 0).isLt
  have := (b.getD (4 * t + 2) 0).isLt
  have := (b.getD (4 * t + 3) 0).isLt
  omega

theorem ld64_eq (b : List (BitVec 8)) (t : Nat) : Endian.ld64 b t = word 8 b t := by
  apply BitVec.eq_of_toNat_eq
  unfold Endian.ld64 Endian.ld32 word
  rw [toNat_app, toNat_app, toNat_app, toNat_app, toNat_app, toNat_app, toNat_app, BitVec.toNat_ofNat]
  simp only [List.range_succ, List.range_zero, List.nil_append, List.map_append, List.map_cons, List.map_nil, Spec.beNat,
    List.reverse_append, List.reverse_cons, List.reverse_nil, List.cons_append, Spec.leNat, Nat.add_zero]
  rw [show 4 * (2 * t) = 8 * t by omega, show 4 * (2 * t + 1) = 8 * t + 4 by omega]
  simp only [Nat.add_assoc, Nat.reduceAdd]
  have := (b.getD (8 * t) 0).isLt
  have := (b.getD (8 * t + 1) 0).isLt
  have := (b.getD (8 * t + 2) 0).isLt
  have := (b.getD (8 * t + 3) 0).isLt
  have := (b.getD (8 * t + 4) 0).isLt
  have := (b.getD (8 * t + 5) 0).isLt
  have := (b.getD (8 * t + 6) 0).isLt
  have := (b.getD (8 * t + 7) 0).isLt
  omega

theorem ext_byte {k : Nat} (w : BitVec k) (s : Nat) : w.extractLsb' s 8 = BitVec.ofNat 8 (w.toNat / 2 ^ s) := by
  apply BitVec.eq_of_toNat_eq
  rw [BitVec.extractLsb'_toNat, BitVec.toNat_ofNat, Nat.shiftRight_eq_div_pow]

theorem st32_eq (w : BitVec 32) : Endian.st32 w = Spec.beN 4 w.toNat := by
  unfold Endian.st32 Spec.beN
  simp only [List.range_succ, List.range_zero, List.nil_append, List.map_append, List.map_cons, List.map_nil, List.cons_append, ext_byte]
  norm_num

theorem st64_eq (w : BitVec 64) : Endian.st64 w = Spec.beN 8 w.toNat := by
  unfold Endian.st64
  rw [st32_eq, st32_eq]
  unfold Spec.beN
  simp only [List.range_succ, List.range_zero, List.nil_append, List.map_append, List.map_cons, List.map_nil, List.cons_append,
    BitVec.extractLsb'_toNat, Nat.shiftRight_eq_div_pow]
  have hw := w.isLt
  refine List.cons_eq_cons.2 ⟨?_, List.cons_eq_cons.2 ⟨?_, List.cons_eq_cons.2 ⟨?_, List.cons_eq_cons.2 ⟨?_, List.cons_eq_cons.2 ⟨?_,
    List.cons_eq_cons.2 ⟨?_, List.cons_eq_cons.2 ⟨?_, List.cons_eq_cons.2 ⟨?_, rfl⟩⟩⟩⟩⟩⟩⟩⟩ <;>
  · apply BitVec.eq_of_toNat_eq
    rw [BitVec.toNat_ofNat, BitVec.toNat_ofNat]
    norm_num
    try omega

theorem out32_8 (H : List (BitVec 32)) (h : H.length = 8) : out32 8 H = octets 4 H := by
  match H, h with
  | [a, b, c, d, e, f, g, i], _ =>
    simp only [out32, octets, List.range_succ, List.range_zero, List.nil_append, List.flatMap_append, List.flatMap_cons,
      List.flatMap_nil, List.append_nil, List.cons_append, at_, List.getD_cons_zero, List.getD_cons_succ, st32_eq, List.append_assoc]

theorem out32_5 (H : List (BitVec 32)) (h : H.length = 5) : out32 5 H = octets 4 H := by
  match H, h with
  | [a, b, c, d, e], _ =>
    simp only [out32, octets, List.range_succ, List.range_zero, List.nil_append, List.flatMap_append, List.flatMap_cons,
      List.flatMap_nil, List.append_nil, List.cons_append, at_, List.getD_cons_zero, List.getD_cons_succ, st32_eq, List.append_assoc]

theorem out64_8 (H : List (BitVec 64)) (h : H.length = 8) : out64 H = octets 8 H := by
  match H, h with
  | [a, b, c, d, e, f, g, i], _ =>
    simp only [out64, octets, List.range_succ, List.range_zero, List.nil_append, List.flatMap_append, List.flatMap_cons,
      List.flatMap_nil, List.append_nil, List.cons_append, at_, List.getD_cons_zero, List.getD_cons_succ, st64_eq, List.append_assoc]

theorem length_out32 (k : Nat) (H : List (BitVec 32)) : (out32 k H).length = 4 * k := by
  simp [out32, List.length_flatMap, Endian.st32_len, Nat.mul_comm]
theorem length_out64 (H : List (BitVec 64)) : (out64 H).length = 64 := by
  simp [out64, List.length_flatMap, Endian.st64_len]

/-! ## The compression functions -/

theorem sha1_comp (H : List (BitVec 32)) (blk : List (BitVec 8)) : sha1 H blk = comp1 H blk := by
  have h0 : Ring ((List.range 16).map (Endian.ld32 blk)) (sched1 (word 4 blk)) 0 := ring_init _ _ fun t ht => by
    rw [ld32_eq, sched1, if_pos ht]
  have h := (sha1_loop ⟨at_ H 0, at_ H 1, at_ H 2, at_ H 3, at_ H 4⟩ _ _ h0 80).1
  simp only at h
  unfold sha1 comp1
  simp only
  rw [show (⟨H.getD 0 0, H.getD 1 0, H.getD 2 0, H.getD 3 0, H.getD 4 0⟩ : V5) = ⟨at_ H 0, at_ H 1, at_ H 2, at_ H 3, at_ H 4⟩ from rfl, ← h]
  simp only [at_, BitVec.add_comm]

theorem sha2_comp {P : Par n} {F : Fn n} (hf : Fits P F) (H : List (BitVec n)) (blk : List (BitVec 8)) (M : Nat → BitVec n)
    (hM : ∀ t, P.ld blk t = M t) : sha2 P H blk = (vars2 F (sched2 F M) (V8.of H) F.rounds).with (· + ·) H := by
  have h0 : Ring ((List.range 16).map (P.ld blk)) (sched2 F M) 0 := ring_init _ _ fun t ht => by
    rw [hM, sched2, if_pos ht]
  have h := (sha2_loop hf (V8.of H) _ _ h0 F.rounds le_rfl).1
  rw [← h]
  unfold sha2 V8.with V8.of
  simp only [at_, hf.rounds, BitVec.add_comm]

theorem sm3_comp (H : List (BitVec 32)) (blk : List (BitVec 8)) : sm3 H blk = comp3 H blk := by
  have h0 : Ring ((List.range 16).map (Endian.ld32 blk)) (sched3 (word 4 blk)) 0 := ring_init _ _ fun t ht => by
    rw [ld32_eq, sched3, if_pos ht]
  have h := (sm3_loop (V8.of H) _ _ h0 64 le_rfl).1
  unfold comp3
  rw [← h]
  unfold sm3 V8.with V8.of
  simp only [at_, BitVec.xor_comm]

end Fips180
