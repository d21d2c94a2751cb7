import Verif.Model.CtrDrbg
import Verif.Spec.CtrDrbg
import Verif.Lemmas.CShake
import Verif.Lemmas.Cmac

namespace CtrDrbg
open Spec (beN beNat)
open Spec.CtrDrbg (ctr nblk keystream)

/-! ### The counter. -/

theorem split4 (l : List Byte) (h : l.length = 4) : ∃ w x y z, l = [w, x, y, z] := by
  match l, h with
  | [w, x, y, z], _ => exact ⟨w, x, y, z, rfl⟩

theorem inc_four (A : List Byte) (w x y z : Byte) : inc (A ++ [w, x, y, z]) (A.length + 4) = A ++ beN 4 (beNat [w, x, y, z] + 1) := by
  have hb : beNat [w, x, y, z] = z.toNat + 256 * (y.toNat + 256 * (x.toNat + 256 * w.toNat)) := by
    simp [beNat, Spec.leNat]
  have h1 := w.isLt
  have h2 := x.isLt
  have h3 := y.isLt
  have h4 := z.isLt
  rw [hb]
  have e0 : A.length + 4 - 1 - 0 = A.length + 3 := by omega
  have e1 : A.length + 4 - 1 - 1 = A.length + 2 := by omega
  have e2 : A.length + 4 - 1 - 2 = A.length + 1 := by omega
  have e3 : A.length + 4 - 1 - 3 = A.length + 0 := by omega
  have hset : ∀ (l : List Byte) (i : Nat) (v : Byte), (A ++ l).set (A.length + i) v = A ++ l.set i v := by
    intro l i v
    rw [List.set_append_right _ _ (by omega), Nat.add_sub_cancel_left]
  have hget : ∀ (l : List Byte) (i : Nat), (A ++ l).getD (A.length + i) 0 = l.getD i 0 := by
    intro l i
    rw [List.getD_eq_getElem?_getD, List.getD_eq_getElem?_getD, List.getElem?_append_right (by omega), Nat.add_sub_cancel_left]
  unfold inc
  simp only [show List.range 4 = [0, 1, 2, 3] from rfl, List.foldl_cons, List.foldl_nil, e0, e1, e2, e3, hset, hget,
    List.set_cons_succ, List.set_cons_zero, List.getD_cons_succ, List.getD_cons_zero]
  have hN : beN 4 (z.toNat + 256 * (y.toNat + 256 * (x.toNat + 256 * w.toNat)) + 1) =
      [BitVec.ofNat 8 ((z.toNat + 256 * (y.toNat + 256 * (x.toNat + 256 * w.toNat)) + 1) / 16777216),
       BitVec.ofNat 8 ((z.toNat + 256 * (y.toNat + 256 * (x.toNat + 256 * w.toNat)) + 1) / 65536),
       BitVec.ofNat 8 ((z.toNat + 256 * (y.toNat + 256 * (x.toNat + 256 * w.toNat)) + 1) / 256),
       BitVec.ofNat 8 ((z.toNat + 256 * (y.toNat + 256 * (x.toNat + 256 * w.toNat)) + 1) / 1)] := rfl
  rw [hN]
  congr 1
  congr 1
  · apply BitVec.eq_of_toNat_eq; rw [BitVec.toNat_ofNat, BitVec.toNat_ofNat]; omega
  congr 1
  · apply BitVec.eq_of_toNat_eq; rw [BitVec.toNat_ofNat, BitVec.toNat_ofNat]; omega
  congr 1
  · apply BitVec.eq_of_toNat_eq; rw [BitVec.toNat_ofNat, BitVec.toNat_ofNat]; omega
  congr 1
  · apply BitVec.eq_of_toNat_eq; rw [BitVec.toNat_ofNat, BitVec.toNat_ofNat]; omega

theorem ctr_length (b : Nat) (hb : 4 ≤ b) (V : List Byte) (hV : V.length = b) (i : Nat) : (ctr b V i).length = b := by
  unfold ctr
  rw [List.length_append, List.length_take, Spec.length_beN]; omega

theorem ctr_zero (b : Nat) (hb : 4 ≤ b) (V : List Byte) (hV : V.length = b) : ctr b V 0 = V := by
  unfold ctr
  have : (V.drop (b - 4)).length = 4 := by rw [List.length_drop]; omega
  have e := Spec.beN_beNat (V.drop (b - 4))
  rw [this] at e
  rw [Nat.add_zero, e, List.take_append_drop]

theorem beN4_mod (x : Nat) : beN 4 (x % 2 ^ 32) = beN 4 x := by
  have h := Spec.beN_beNat (beN 4 x)
  rw [Spec.length_beN, Spec.beNat_beN] at h
  exact h

theorem beN4_congr (x y : Nat) (h : x % 2 ^ 32 = y % 2 ^ 32) : beN 4 x = beN 4 y := by
  rw [← beN4_mod x, h, beN4_mod]

theorem ctr_drop (b : Nat) (hb : 4 ≤ b) (V : List Byte) (hV : V.length = b) (i : Nat) :
    (ctr b V i).take (b - 4) = V.take (b - 4) ∧ (ctr b V i).drop (b - 4) = beN 4 (beNat (V.drop (b - 4)) + i) := by
  unfold ctr
  have h : (V.take (b - 4)).length = b - 4 := by rw [List.length_take]; omega
  exact ⟨List.take_left' h, List.drop_left' h⟩

theorem ctr_ctr (b : Nat) (hb : 4 ≤ b) (V : List Byte) (hV : V.length = b) (i j : Nat) : ctr b (ctr b V i) j = ctr b V (i + j) := by
  obtain ⟨h1, h2⟩ := ctr_drop b hb V hV i
  rw [ctr, h1, h2, ctr]
  congr 1
  apply beN4_congr
  rw [Spec.beNat_beN]
  omega

theorem inc_ctr (b : Nat) (hb : 4 ≤ b) (V : List Byte) (hV : V.length = b) : inc V b = ctr b V 1 := by
  have h : (V.drop (b - 4)).length = 4 := by rw [List.length_drop]; omega
  obtain ⟨w, x, y, z, e⟩ := split4 _ h
  have hA : (V.take (b - 4)).length + 4 = b := by rw [List.length_take]; omega
  have h2 := inc_four (V.take (b - 4)) w x y z
  rw [← e, List.take_append_drop, hA] at h2
  exact h2

theorem inc_iv (b i : Nat) (hb : 4 ≤ b) : inc (beN 4 i ++ List.replicate (b - 4) 0) 4 = beN 4 (i + 1) ++ List.replicate (b - 4) 0 := by
  have key : ∀ (l R : List Byte), l.length = 4 → inc (l ++ R) 4 = inc l 4 ++ R := by
    intro l R hl
    obtain ⟨w, x, y, z, rfl⟩ := split4 l hl
    rfl
  rw [key _ _ (Spec.length_beN 4 i)]
  obtain ⟨w, x, y, z, e⟩ := split4 _ (Spec.length_beN 4 i)
  have h2 := inc_four [] w x y z
  rw [← e, List.nil_append, Spec.beNat_beN] at h2
  have h3 : inc (beN 4 i) 4 = [] ++ beN 4 (i % 256 ^ 4 + 1) := h2
  rw [h3, List.nil_append]
  congr 1
  apply beN4_congr
  omega

/-! ### Filling a buffer block by block. -/

theorem put_length (l : List Byte) (t : Nat) (bs : List Byte) (h : t + bs.length ≤ l.length) : (put l t bs).length = l.length := by
  unfold put
  rw [List.length_append, List.length_append, List.length_take, List.length_drop]; omega

theorem put_take (l : List Byte) (t : Nat) (bs : List Byte) (h : t + bs.length ≤ l.length) : (put l t bs).take (t + bs.length) = l.take t ++ bs := by
  unfold put
  exact List.take_left' (by rw [List.length_append, List.length_take]; omega)

/-- Blocks `0 .. n-1` of the generator `g`. -/
def cat (g : Nat → List Byte) (n : Nat) : List Byte := (List.range n).flatMap g

theorem cat_succ (g : Nat → List Byte) (n : Nat) : cat g (n + 1) = cat g n ++ g n := by
  unfold cat
  rw [List.range_succ, List.flatMap_append, List.flatMap_singleton]

theorem cat_length (g : Nat → List Byte) (b : Nat) (hg : ∀ i, (g i).length = b) (n : Nat) : (cat g n).length = n * b := by
  induction n with
  | zero => simp [cat]
  | succ n ih => rw [cat_succ, List.length_append, ih, hg, Nat.succ_mul]

/-- The first `j` blocks are in place. -/
structure Filled (g : Nat → List Byte) (b N : Nat) (j : Nat) (buf : List Byte) : Prop where
  len : buf.length = N
  pre : buf.take (j * b) = cat g j

theorem filled_zero (g : Nat → List Byte) (b : Nat) (buf : List Byte) : Filled g b buf.length 0 buf := ⟨rfl, by simp [cat]⟩

theorem filled_step {g : Nat → List Byte} {b N j : Nat} {buf : List Byte} (h : Filled g b N j buf) (hg : ∀ i, (g i).length = b) (hN : j * b + b ≤ N) :
    Filled g b N (j + 1) (put buf (j * b) (g j)) := by
  have hl : j * b + (g j).length ≤ buf.length := by rw [hg, h.len]; exact hN
  refine ⟨by rw [put_length _ _ _ hl, h.len], ?_⟩
  have := put_take buf (j * b) (g j) hl
  rw [hg] at this
  rw [Nat.succ_mul, this, h.pre, cat_succ]

theorem filled_last {g : Nat → List Byte} {b N j L : Nat} {buf : List Byte} (h : Filled g b N j buf) (hg : ∀ i, (g i).length = b) (hL : L ≤ N) (h1 : j * b < L) (h2 : L < j * b + b) :
    (put buf (j * b) ((g j).take (L - j * b))).take L = (cat g (j + 1)).take L ∧ (put buf (j * b) ((g j).take (L - j * b))).length = N := by
  have hgl : ((g j).take (L - j * b)).length = L - j * b := by rw [List.length_take, hg]; omega
  have hl : j * b + ((g j).take (L - j * b)).length ≤ buf.length := by rw [hgl, h.len]; omega
  refine ⟨?_, by rw [put_length _ _ _ hl, h.len]⟩
  have := put_take buf (j * b) ((g j).take (L - j * b)) hl
  rw [hgl, show j * b + (L - j * b) = L by omega] at this
  rw [this, h.pre, cat_succ, List.take_append, cat_length g b hg]
  congr 1
  exact (List.take_of_length_le (by rw [cat_length g b hg]; omega)).symm

theorem nblk_exact (b L j : Nat) (hb : 0 < b) (h : L = j * b) : nblk b L = j := by
  unfold nblk
  rw [h, Nat.mul_comm, Nat.mul_add_div hb, Nat.div_eq_of_lt (by omega)]; rfl

theorem nblk_part (b L j : Nat) (hb : 0 < b) (h1 : j * b < L) (h2 : L ≤ j * b + b) : nblk b L = j + 1 := by
  unfold nblk
  have : L + (b - 1) = b * (j + 1) + (L - j * b - 1) := by rw [Nat.mul_succ, Nat.mul_comm b j]; omega
  rw [this, Nat.mul_add_div hb, Nat.div_eq_of_lt (by omega)]

/-- Whole blocks while they fit, then the part of one more. -/
theorem fill_end {g : Nat → List Byte} {b N j L : Nat} {buf : List Byte} (h : Filled g b N j buf) (hg : ∀ i, (g i).length = b) (hb : 0 < b) (hL : L ≤ N)
    (h1 : j * b ≤ L) (h2 : L < j * b + b) :
    (if L > j * b then put buf (j * b) ((g j).take (L - j * b)) else buf).take L = (cat g (nblk b L)).take L ∧
    (if L > j * b then put buf (j * b) ((g j).take (L - j * b)) else buf).length = N := by
  by_cases hc : L > j * b
  · rw [if_pos hc, nblk_part b L j hb hc (by omega)]
    exact filled_last h hg hL hc h2
  · rw [if_neg hc]
    have : L = j * b := by omega
    rw [nblk_exact b L j hb this, this, h.pre, List.take_of_length_le (by rw [cat_length g b hg])]
    exact ⟨rfl, h.len⟩

section
variable {κ : Type} (enc : κ → List Byte → List Byte) (kschd : List Byte → κ) (b k : Nat)

theorem updLoop_eq (ks : κ) (fuel t : Nat) (blk sd : List Byte) : updLoop enc b k ks fuel t blk sd = genLoop enc b ks (k + b) fuel t blk sd := by
  induction fuel generalizing t blk sd with
  | zero => rfl
  | succ f ih =>
    unfold updLoop genLoop
    by_cases h : t ≤ k
    · rw [if_pos h, if_pos (by omega), ih]
    · rw [if_neg h, if_neg (by omega)]

variable (hb : 4 ≤ b) (he : ∀ ks x, x.length = b → (enc ks x).length = b)
include hb he

theorem genLoop_inv (ks : κ) (V : List Byte) (hV : V.length = b) (L N : Nat) (hL : L ≤ N) (fuel j : Nat) (blk buf : List Byte) (hf : L < fuel + j * b) (h0 : j * b ≤ L)
    (hblk : blk = ctr b V j) (h : Filled (fun i => enc ks (ctr b V (i + 1))) b N j buf) :
    ∃ j' blk' buf', genLoop enc b ks L fuel (j * b) blk buf = (j' * b, blk', buf') ∧ blk' = ctr b V j' ∧ Filled (fun i => enc ks (ctr b V (i + 1))) b N j' buf' ∧
      j' * b ≤ L ∧ L < j' * b + b := by
  have hg : ∀ i, ((fun i => enc ks (ctr b V (i + 1))) i).length = b := fun i => he _ _ (ctr_length b hb V hV _)
  induction fuel generalizing j blk buf with
  | zero => omega
  | succ f ih =>
    unfold genLoop
    by_cases hc : j * b + b ≤ L
    · rw [if_pos hc]
      have hi : inc blk b = ctr b V (j + 1) := by
        rw [hblk, inc_ctr b hb _ (ctr_length b hb V hV j), ctr_ctr b hb V hV]
      have := ih (j + 1) (inc blk b) (put buf (j * b) (enc ks (inc blk b))) (by rw [Nat.succ_mul]; omega) (by rw [Nat.succ_mul]; exact hc) hi
        (by rw [hi]; exact filled_step h hg (by omega))
      rw [Nat.succ_mul] at this
      exact this
    · rw [if_neg hc]
      exact ⟨j, blk, buf, rfl, hblk, h, h0, by omega⟩

/-- Both loops with their remainder. -/
theorem gen_fill (ks : κ) (V : List Byte) (hV : V.length = b) (L : Nat) (buf : List Byte) (hL : L ≤ buf.length) (fuel : Nat) (hf : L < fuel) :
    ∃ t blk' buf', genLoop enc b ks L fuel 0 V buf = (t, blk', buf') ∧
      (if L > t then put buf' t ((enc ks (inc blk' b)).take (L - t)) else buf').take L = (cat (fun i => enc ks (ctr b V (i + 1))) (nblk b L)).take L ∧
      (if L > t then put buf' t ((enc ks (inc blk' b)).take (L - t)) else buf').length = buf.length := by
  have hg : ∀ i, ((fun i => enc ks (ctr b V (i + 1))) i).length = b := fun i => he _ _ (ctr_length b hb V hV _)
  obtain ⟨j, blk', buf', e, h1, h2, h3, h4⟩ := genLoop_inv enc b hb he ks V hV L buf.length hL fuel 0 V buf (by omega) (by omega) (ctr_zero b hb V hV).symm (filled_zero _ b buf)
  rw [Nat.zero_mul] at e
  have hi : inc blk' b = ctr b V (j + 1) := by
    rw [h1, inc_ctr b hb _ (ctr_length b hb V hV j), ctr_ctr b hb V hV]
  refine ⟨j * b, blk', buf', e, ?_⟩
  rw [hi]
  exact fill_end h2 hg (by omega) hL h3 h4

/-- A context in step with the state of the specification. -/
def Rel (x : Ctx κ) (s : List Byte × List Byte) : Prop := x.seed = s.1 ++ s.2 ∧ s.1.length = k ∧ s.2.length = b ∧ x.ks = kschd s.1

omit hb he in
theorem mix (T s : List Byte) : (T.mapIdx fun i v => if i < s.length ∧ i < T.length then v ^^^ s.getD i 0 else v) = Spec.xorBytes T (Spec.fitTo s T.length) := by
  unfold Spec.xorBytes Spec.fitTo
  apply List.ext_getElem
  · simp
  · intro i h1 h2
    rw [List.getElem_mapIdx, List.getElem_zipWith, List.getElem_map, List.getElem_range]
    have hi : i < T.length := by simpa using h1
    by_cases c : i < s.length
    · rw [if_pos ⟨c, hi⟩]
    · rw [if_neg (fun hc => c hc.1)]
      rw [List.getD_eq_getElem?_getD, List.getElem?_eq_none (by omega)]
      simp

omit hb he in
theorem fitTo_nil (n : Nat) (T : List Byte) (h : T.length = n) : Spec.xorBytes T (Spec.fitTo [] n) = T := by
  unfold Spec.xorBytes Spec.fitTo
  apply List.ext_getElem
  · simp [h]
  · intro i h1 h2
    simp

omit hb he in
theorem mixO (T : List Byte) (D : Option (List Byte)) (hTl : T.length = k + b) :
    (match D with | none => T | some s => T.mapIdx fun i v => if i < s.length ∧ i < k + b then v ^^^ s.getD i 0 else v) = Spec.xorBytes T (Spec.fitTo (D.getD []) (k + b)) := by
  cases D with
  | none => exact (fitTo_nil _ T hTl).symm
  | some d => rw [← hTl]; exact mix T d

theorem update_rel (x : Ctx κ) (s : List Byte × List Byte) (h : Rel kschd b k x s) (D : Option (List Byte)) :
    Rel kschd b k (update enc kschd b k x D) (Spec.CtrDrbg.update (fun key => enc (kschd key)) b k (D.getD []) s) := by
  obtain ⟨h1, h2, h3, h4⟩ := h
  have hV : (x.seed.drop k).take b = s.2 := by
    rw [h1, List.drop_left' h2, List.take_of_length_le (by omega)]
  have hlen : x.seed.length = k + b := by rw [h1, List.length_append]; omega
  unfold update
  rw [hV]
  simp only [updLoop_eq, h4]
  have gf := gen_fill enc b hb he (kschd s.1) s.2 h3 (k + b) x.seed (Nat.le_of_eq hlen.symm)
  have : ∃ t blk' buf', genLoop enc b (kschd s.1) (k + b) (k + 1) 0 s.2 x.seed = (t, blk', buf') ∧
      (if k + b > t then put buf' t ((enc (kschd s.1) (inc blk' b)).take (k + b - t)) else buf').take (k + b) = (cat (fun i => enc (kschd s.1) (ctr b s.2 (i + 1))) (nblk b (k + b))).take (k + b) ∧
      (if k + b > t then put buf' t ((enc (kschd s.1) (inc blk' b)).take (k + b - t)) else buf').length = x.seed.length := by
    have hfu : ∀ (f : Nat) (t : Nat) (blk sd : List Byte), k < f + t → genLoop enc b (kschd s.1) (k + b) f t blk sd = genLoop enc b (kschd s.1) (k + b) (f + b) t blk sd := by
      intro f
      induction f with
      | zero =>
        intro t blk sd hk
        obtain ⟨c, hc⟩ : ∃ c, b = c + 1 := ⟨b - 1, by omega⟩
        have e2 : genLoop enc b (kschd s.1) (k + b) (c + 1) t blk sd = (t, blk, sd) := by
          unfold genLoop; rw [if_neg (by omega)]
        rw [Nat.zero_add]
        conv_rhs => rw [show genLoop enc b (kschd s.1) (k + b) b t blk sd = genLoop enc b (kschd s.1) (k + b) (c + 1) t blk sd by rw [← hc]]
        rw [e2]; rfl
      | succ f ih =>
        intro t blk sd hk
        rw [show f + 1 + b = (f + b) + 1 by omega]
        unfold genLoop
        by_cases c : t + b ≤ k + b
        · rw [if_pos c, if_pos c, ih _ _ _ (by omega)]
        · rw [if_neg c, if_neg c]
    rw [hfu _ _ _ _ (by omega)]
    exact gf (k + 1 + b) (by omega)
  obtain ⟨t, blk', buf', e, e1, e2⟩ := this
  rw [e]
  simp only []
  rw [show b + k = k + b by omega]
  obtain ⟨T, hT⟩ : ∃ T, T = if k + b > t then put buf' t ((enc (kschd s.1) (inc blk' b)).take (k + b - t)) else buf' := ⟨_, rfl⟩
  rw [← hT] at e1 e2 ⊢
  rw [List.take_of_length_le (by omega)] at e1
  have hTl : T.length = k + b := by omega
  have hks : Spec.CtrDrbg.keystream (fun key => enc (kschd key)) b s.1 s.2 (nblk b (k + b)) = cat (fun i => enc (kschd s.1) (ctr b s.2 (i + 1))) (nblk b (k + b)) := rfl
  obtain ⟨U, hU⟩ : ∃ U, U = Spec.xorBytes T (Spec.fitTo (D.getD []) (k + b)) := ⟨_, rfl⟩
  have hUl : U.length = k + b := by rw [hU]; simp [Spec.xorBytes, Spec.fitTo, hTl]
  have hm := mixO b k T D hTl
  rw [← hU] at hm
  suffices hsuf : ∀ W, W = U → Rel kschd b k { seed := W, ks := kschd (W.take k) } (Spec.CtrDrbg.update (fun key => enc (kschd key)) b k (D.getD []) s) from hsuf _ hm
  intro W hW
  rw [hW]
  have hsp : Spec.CtrDrbg.update (fun key => enc (kschd key)) b k (D.getD []) s = (U.take k, U.drop k) := by
    unfold Spec.CtrDrbg.update
    rw [hks, ← e1, ← hU]
  rw [hsp]
  refine ⟨(List.take_append_drop k U).symm, ?_, ?_, rfl⟩
  · rw [List.length_take]; omega
  · rw [List.length_drop]; omega

theorem generate_out (x : Ctx κ) (s : List Byte × List Byte) (h : Rel kschd b k x s) (out : List Byte) :
    (generate enc kschd b k x out).1 = Spec.CtrDrbg.output (fun key => enc (kschd key)) b s out.length := by
  obtain ⟨h1, h2, h3, h4⟩ := h
  have hV : (x.seed.drop k).take b = s.2 := by
    rw [h1, List.drop_left' h2, List.take_of_length_le (by omega)]
  unfold generate
  rw [hV, h4]
  obtain ⟨t, blk', buf', e, e1, e2⟩ := gen_fill enc b hb he (kschd s.1) s.2 h3 out.length out (Nat.le_refl _) (out.length + 1) (by omega)
  simp only [e]
  rw [List.take_of_length_le (by omega)] at e1
  exact e1

/-! ### The derivation function. -/

omit hb he in
theorem bcc_sponge (ks : κ) (s : Sponge.Ctx) (hr : s.rate = b) (m : List Byte) (hlt : s.filled < b) :
    m.foldl (bccByte enc b ks) (s.state, s.filled) = ((Sponge.update (enc ks) s m).state, (Sponge.update (enc ks) s m).filled) ∧ (Sponge.update (enc ks) s m).filled < b := by
  induction m generalizing s with
  | nil => exact ⟨rfl, hlt⟩
  | cons c m ih =>
    show m.foldl _ (bccByte enc b ks (s.state, s.filled) c) = ((Sponge.update (enc ks) (Sponge.absorbByte (enc ks) s c) m).state, _) ∧ _
    have e : bccByte enc b ks (s.state, s.filled) c = ((Sponge.absorbByte (enc ks) s c).state, (Sponge.absorbByte (enc ks) s c).filled) := by
      unfold bccByte Sponge.absorbByte
      simp only [hr]
      by_cases hc : s.filled + 1 ≥ b
      · have : s.filled + 1 = b := by omega
        rw [if_pos hc, if_pos this]
      · have : ¬ s.filled + 1 = b := by omega
        rw [if_neg hc, if_neg this]
    rw [e]
    apply ih
    · unfold Sponge.absorbByte; simp only []; split <;> exact hr
    · unfold Sponge.absorbByte
      simp only [hr]
      split
      · show 0 < b; omega
      · show s.filled + 1 < b; omega

omit hb he in
theorem spongePad_zero (q : Nat) (hq : q < b) : Spec.spongePad b 0x80 0 q = [0x80] ++ List.replicate (b - 1 - q) 0 := by
  unfold Spec.spongePad
  by_cases h : q + 1 = b
  · rw [if_pos h, show b - 1 - q = 0 by omega]; rfl
  · rw [if_neg h, show b - 1 - q = b - 2 - q + 1 by omega, List.replicate_succ']; rfl

omit hb he in
theorem pad_len (n : Nat) (hb1 : 1 < b) : (b - (n + 1) % b) % b = b - 1 - n % b := by
  have hm := Nat.mod_lt n (show 0 < b by omega)
  by_cases hc : n % b + 1 = b
  · have : (n + 1) % b = 0 := by rw [Nat.add_mod, Nat.mod_eq_of_lt hb1, hc, Nat.mod_self]
    rw [this, Nat.sub_zero, Nat.mod_self]; omega
  · have h2 : n % b + 1 < b := by omega
    have : (n + 1) % b = n % b + 1 := by rw [Nat.add_mod, Nat.mod_eq_of_lt hb1, Nat.mod_eq_of_lt h2]
    rw [this]
    have h3 : b - (n % b + 1) < b := by omega
    rw [Nat.mod_eq_of_lt h3]; omega

omit he in
theorem bcc_eq (ks : κ) (iv : List Byte) (hiv : iv.length = b) (LN input : List Byte) (E : List Byte → List Byte → List Byte) (K : List Byte) (hE : E K = enc ks) :
    bcc enc b ks [iv, LN, input] = Spec.CtrDrbg.bcc E b K (iv ++ ((LN ++ input ++ [0x80]) ++ Spec.zeroPad b (LN ++ input ++ [0x80]).length)) := by
  have hb0 : 0 < b := by omega
  unfold bcc
  have h1 : [iv, LN, input].foldl (fun s e => e.foldl (bccByte enc b ks) s) (List.replicate b 0, 0) = (iv ++ LN ++ input).foldl (bccByte enc b ks) (List.replicate b 0, 0) := by
    simp only [List.foldl_cons, List.foldl_nil, List.foldl_append]
  rw [h1]
  obtain ⟨S, hS⟩ : ∃ S, S = Sponge.init b 0x80 0 b := ⟨_, rfl⟩
  have hS1 : S.state = List.replicate b 0 := by rw [hS]; rfl
  have hS2 : S.filled = 0 := by rw [hS]; rfl
  have hS3 : S.rate = b := by rw [hS]; rfl
  obtain ⟨h2, h3⟩ := bcc_sponge enc b ks S hS3 (iv ++ LN ++ input) (by omega)
  rw [hS1, hS2] at h2
  rw [h2]
  simp only []
  have h4 := Sponge.final_fresh (enc ks) S (iv ++ LN ++ input) (by omega) hS2 (by rw [hS]; rfl)
  have hup := Sponge.update_fresh (enc ks) S (iv ++ LN ++ input) (by omega) hS2
  obtain ⟨U, hU⟩ : ∃ U, U = Sponge.update (enc ks) S (iv ++ LN ++ input) := ⟨_, rfl⟩
  rw [← hU] at h4 h3 hup ⊢
  have h5 : (Sponge.final (enc ks) U).state = enc ks (U.state.modify U.filled (· ^^^ 0x80)) := by
    unfold Sponge.final
    have a1 : U.finalized = false := by rw [hup, hS]; rfl
    have a2 : U.lopad = 0x80 := by rw [hup, hS]; rfl
    have a3 : U.hipad = 0 := by rw [hup, hS]; rfl
    rw [a1, a2, a3]
    simp only [Bool.false_eq_true, if_false]
    congr 1
    apply List.ext_getElem
    · simp
    · intro i _ _
      rw [List.getElem_modify]
      split
      · simp
      · rfl
  rw [← h5, h4]
  have a4 : S.lopad = 0x80 := by rw [hS]; rfl
  have a5 : S.hipad = 0 := by rw [hS]; rfl
  rw [hS3, a4, a5, hS1]
  unfold Spec.CtrDrbg.bcc Spec.absorb
  rw [hE]
  congr 2
  rw [spongePad_zero b _ (Nat.mod_lt _ hb0)]
  simp only [List.append_assoc]
  congr 4
  unfold Spec.zeroPad
  have h6 : (iv ++ (LN ++ input)).length = b + (LN ++ input).length := by rw [List.length_append, hiv]
  have h7 : (LN ++ (input ++ [0x80])).length = (LN ++ input).length + 1 := by simp; omega
  rw [h6, h7]
  rw [Nat.add_mod_left]
  rw [pad_len b _ (by omega)]

theorem bcc_length (ks : κ) (iv : List Byte) (hiv : iv.length = b) (LN input : List Byte) : (bcc enc b ks [iv, LN, input]).length = b := by
  rw [bcc_eq enc b hb ks iv hiv LN input (fun _ => enc ks) [] rfl]
  unfold Spec.CtrDrbg.bcc
  generalize Spec.blocks b _ = bs
  have : ∀ (bs : List (List Byte)) (c : List Byte), c.length = b → (bs.foldl (fun c x => enc ks (Spec.xorOnto c x)) c).length = b := by
    intro bs
    induction bs with
    | nil => intro c h; exact h
    | cons x bs ih => intro c h; rw [List.foldl_cons]; exact ih _ (he _ _ (by rw [Spec.length_xorOnto, h]))
  exact this bs _ List.length_replicate

/-- The initialisation vector of block `i`. -/
def iv (b i : Nat) : List Byte := beN 4 i ++ List.replicate (b - 4) 0

omit he in
theorem iv_length (i : Nat) : (iv b i).length = b := by
  unfold iv; rw [List.length_append, Spec.length_beN, List.length_replicate]; omega

theorem dfLoop_inv (ks : κ) (LN input : List Byte) (N : Nat) (hN : k + b ≤ N) (fuel j : Nat) (buf key : List Byte) (hf : k < fuel + j * b) (h0 : j * b ≤ k + b)
    (hbuf : buf = iv b j) (h : Filled (fun i => bcc enc b ks [iv b i, LN, input]) b N j key) :
    ∃ j' buf' key', dfLoop enc b k ks LN input fuel (j * b) buf key = (j' * b, buf', key') ∧ buf' = iv b j' ∧ Filled (fun i => bcc enc b ks [iv b i, LN, input]) b N j' key' ∧
      j' * b ≤ k + b ∧ k + b < j' * b + b := by
  have hg : ∀ i, ((fun i => bcc enc b ks [iv b i, LN, input]) i).length = b := fun i => bcc_length enc b hb he ks _ (iv_length b hb i) _ _
  induction fuel generalizing j buf key with
  | zero => exact ⟨j, buf, key, rfl, hbuf, h, h0, by omega⟩
  | succ f ih =>
    unfold dfLoop
    by_cases hc : j * b ≤ k
    · rw [if_pos hc]
      have hi : inc buf 4 = iv b (j + 1) := by rw [hbuf]; exact inc_iv b j hb
      have ht : (bcc enc b ks [buf, LN, input]).take (k + b - j * b) = bcc enc b ks [iv b j, LN, input] := by
        rw [hbuf, List.take_of_length_le]
        have := hg j
        simp only [] at this
        omega
      have := ih (j + 1) (inc buf 4) (put key (j * b) ((bcc enc b ks [buf, LN, input]).take (k + b - j * b))) (by rw [Nat.succ_mul]; omega) (by rw [Nat.succ_mul]; omega) hi
        (by rw [ht]; exact filled_step h hg (by omega))
      rw [Nat.succ_mul] at this
      exact this
    · rw [if_neg hc]
      exact ⟨j, buf, key, rfl, hbuf, h, h0, by omega⟩

/-- The output loop: after `j` blocks the first `min (j b) L` bytes are in place. -/
theorem dfOut_eq (ks : κ) (X : List Byte) (hX : X.length = b) (L fuel j : Nat) (blk out : List Byte) (hf : L < fuel + j * b) (hblk : blk = (enc ks)^[j] X)
    (hlen : out.length = L) (hpre : out.take (j * b) = (cat (fun i => (enc ks)^[i + 1] X) j).take L) :
    dfOut enc b ks L fuel (j * b) blk out = (cat (fun i => (enc ks)^[i + 1] X) (max j (nblk b L))).take L := by
  have hit : ∀ i, ((enc ks)^[i] X).length = b := by
    intro i
    induction i with
    | zero => exact hX
    | succ i ih => rw [Function.iterate_succ_apply']; exact he _ _ ih
  have hg : ∀ i, ((fun i => (enc ks)^[i + 1] X) i).length = b := fun i => hit (i + 1)
  have hstop : ∀ (j : Nat) (out : List Byte), out.length = L → L ≤ j * b → out.take (j * b) = (cat (fun i => (enc ks)^[i + 1] X) j).take L →
      out = (cat (fun i => (enc ks)^[i + 1] X) (max j (nblk b L))).take L := by
    intro j out hlen hc hpre
    have : nblk b L ≤ j := by
      unfold nblk
      apply Nat.lt_succ_iff.mp
      apply (Nat.div_lt_iff_lt_mul (by omega)).mpr
      rw [Nat.succ_mul]; omega
    rw [Nat.max_eq_left this, ← hpre, List.take_of_length_le (by omega)]
  induction fuel generalizing j blk out with
  | zero => unfold dfOut; exact hstop j out hlen (by omega) hpre
  | succ f ih =>
    unfold dfOut
    by_cases hc : j * b < L
    · rw [if_pos hc]
      have hb2 : enc ks blk = (enc ks)^[j + 1] X := by rw [hblk, Function.iterate_succ_apply']
      have hjn : j + 1 ≤ nblk b L := by
        unfold nblk
        apply (Nat.le_div_iff_mul_le (by omega)).mpr
        rw [Nat.succ_mul]; omega
      have hpt : ((enc ks)^[j + 1] X).length = b := hit (j + 1)
      obtain ⟨P, hP⟩ : ∃ P, P = (enc ks blk).take (L - j * b) := ⟨_, rfl⟩
      have hPl : P.length = min (L - j * b) b := by rw [hP, List.length_take, hb2, hpt]
      have hpl : j * b + P.length ≤ out.length := by rw [hPl, hlen]; omega
      have hcl := cat_length (fun i => (enc ks)^[i + 1] X) b hg j
      have e := ih (j + 1) (enc ks blk) (put out (j * b) P) (by rw [Nat.succ_mul]; omega) hb2 (by rw [put_length _ _ _ hpl, hlen]) (by
        have hq := put_take out (j * b) P hpl
        have h3 : (put out (j * b) P).take ((j + 1) * b) = (put out (j * b) P).take (j * b + P.length) := by
          by_cases hle : j * b + b ≤ L
          · rw [hPl, Nat.min_eq_right (by omega), Nat.succ_mul]
          · rw [hPl, Nat.min_eq_left (by omega), List.take_of_length_le (by rw [put_length _ _ _ hpl, Nat.succ_mul]; omega), List.take_of_length_le (by rw [put_length _ _ _ hpl]; omega)]
        rw [h3, hq, hpre, cat_succ, List.take_append, hcl]
        rw [hP, hb2])
      rw [Nat.succ_mul] at e
      rw [← hP, e, Nat.max_eq_right hjn, Nat.max_eq_right (by omega)]
    · rw [if_neg hc]
      exact hstop j out hlen (by omega) hpre

omit hb he in
theorem beN_shift (n : Nat) : (List.range 4).map (fun o => (BitVec.ofNat 8 (n / 2 ^ (24 - o * 8)) : Byte)) = beN 4 n := rfl

theorem df_eq (input key out : List Byte) (hk : k + b ≤ key.length) :
    (df enc kschd b k input key out).1 = Spec.CtrDrbg.df (fun key => enc (kschd key)) b k input out.length := by
  unfold df
  rw [beN_shift, beN_shift]
  obtain ⟨K0, hK0⟩ : ∃ K0 : List Byte, K0 = (List.range k).map (BitVec.ofNat 8) := ⟨_, rfl⟩
  have hK0l : K0.length = k := by rw [hK0]; simp
  simp only []
  rw [← hK0]
  have hp1 : (put key 0 K0).take k = K0 := by
    have := put_take key 0 K0 (by omega)
    rw [Nat.zero_add, hK0l] at this
    rw [this]; rfl
  have hp2 : (put key 0 K0).length = key.length := put_length _ _ _ (by omega)
  rw [hp1]
  obtain ⟨key1, hk1⟩ : ∃ key1, key1 = put key 0 K0 := ⟨_, rfl⟩
  rw [← hk1] at hp2 ⊢
  obtain ⟨LN, hLN⟩ : ∃ LN, LN = beN 4 input.length ++ beN 4 out.length := ⟨_, rfl⟩
  rw [← hLN]
  have hg : ∀ i, ((fun i => bcc enc b (kschd K0) [iv b i, LN, input]) i).length = b := fun i => bcc_length enc b hb he _ _ (iv_length b hb i) _ _
  have hz : List.replicate b (0 : Byte) = iv b 0 := by
    unfold iv
    have : beN 4 0 = List.replicate 4 (0 : Byte) := rfl
    rw [this, List.replicate_append_replicate, show 4 + (b - 4) = b by omega]
  obtain ⟨j, buf', key', e, e1, e2, e3, e4⟩ := dfLoop_inv enc b k hb he (kschd K0) LN input key1.length (by omega) (k + 1) 0 (List.replicate b 0) key1 (by omega) (by omega) hz (filled_zero _ b key1)
  rw [Nat.zero_mul] at e
  rw [e]
  simp only []
  have fe := fill_end e2 hg (by omega) (show k + b ≤ key1.length by omega) e3 e4
  rw [e1]
  obtain ⟨T, hT⟩ : ∃ T, T = if k + b > j * b then put key' (j * b) ((bcc enc b (kschd K0) [iv b j, LN, input]).take (k + b - j * b)) else key' := ⟨_, rfl⟩
  rw [← hT] at fe ⊢
  have htemp : (cat (fun i => bcc enc b (kschd K0) [iv b i, LN, input]) (nblk b (k + b))) =
      (List.range (nblk b (k + b))).flatMap fun i => Spec.CtrDrbg.bcc (fun key => enc (kschd key)) b K0 (beN 4 i ++ List.replicate (b - 4) 0 ++ ((LN ++ input ++ [0x80]) ++ Spec.zeroPad b (LN ++ input ++ [0x80]).length)) := by
    unfold cat
    rw [List.flatMap_def, List.flatMap_def]
    congr 1
    apply List.map_congr_left
    intro i _
    rw [bcc_eq enc b hb (kschd K0) (iv b i) (iv_length b hb i) LN input (fun key => enc (kschd key)) K0 rfl]
    rfl
  unfold Spec.CtrDrbg.df
  simp only []
  rw [← hK0, ← hLN, ← htemp, ← fe.1]
  have ht1 : (T.take (k + b)).take k = T.take k := by rw [List.take_take, Nat.min_eq_left (by omega)]
  have ht2 : (T.take (k + b)).drop k = (T.drop k).take b := by rw [List.drop_take, Nat.add_sub_cancel_left]
  rw [ht1, ht2]
  have hXl : ((T.drop k).take b).length = b := by rw [List.length_take, List.length_drop, fe.2]; omega
  have := dfOut_eq enc b hb he (kschd (T.take k)) _ hXl out.length (out.length + 1) 0 ((T.drop k).take b) out (by omega) rfl rfl (by simp [cat])
  rw [Nat.zero_mul, Nat.max_eq_right (Nat.zero_le _)] at this
  exact this

end

end CtrDrbg
