import Verif.Lemmas.Mac
import Mathlib.Data.Nat.Bitwise

namespace Spec

theorem leNat_append (a b : List (BitVec 8)) : leNat (a ++ b) = leNat a + 256 ^ a.length * leNat b := by
  induction a with
  | nil => simp [leNat]
  | cons x a ih => simp only [List.cons_append, leNat, ih, List.length_cons, pow_succ]; ring

theorem beNat_cons (x : BitVec 8) (l : List (BitVec 8)) : beNat (x :: l) = x.toNat * 256 ^ l.length + beNat l := by
  unfold beNat
  rw [List.reverse_cons, leNat_append]
  simp [leNat]; ring

theorem beNat_snoc (l : List (BitVec 8)) (x : BitVec 8) : beNat (l ++ [x]) = 256 * beNat l + x.toNat := by
  unfold beNat
  rw [List.reverse_append]
  simp [leNat]; ring

theorem beNat_lt (l : List (BitVec 8)) : beNat l < 256 ^ l.length := by
  induction l with
  | nil => simp [beNat, leNat]
  | cons x l ih =>
    rw [beNat_cons, List.length_cons, pow_succ]
    have := x.isLt
    have h2 : x.toNat * 256 ^ l.length ≤ 255 * 256 ^ l.length := Nat.mul_le_mul_right _ (by omega)
    omega

theorem length_beN (n x : Nat) : (beN n x).length = n := by simp [beN]

theorem beN_succ (n x : Nat) : beN (n + 1) x = beN n (x / 256) ++ [BitVec.ofNat 8 x] := by
  unfold beN
  rw [List.range_succ, List.map_append]
  congr 1
  · apply List.map_congr_left
    intro i hi
    rw [List.mem_range] at hi
    rw [Nat.div_div_eq_div_mul, ← pow_succ', show n + 1 - 1 - i = n - 1 - i + 1 by omega]
  · simp

theorem beN_beNat (l : List (BitVec 8)) : beN l.length (beNat l) = l := by
  induction l using List.reverseRecOn with
  | nil => rfl
  | append_singleton l x ih =>
    rw [List.length_append, List.length_singleton, beN_succ, beNat_snoc,
      show (256 * beNat l + x.toNat) / 256 = beNat l by have := x.isLt; omega, ih]
    congr 2
    apply BitVec.eq_of_toNat_eq
    rw [BitVec.toNat_ofNat]
    have := x.isLt
    omega

theorem bytes128_block128 (l : List (BitVec 8)) (h : l.length = 16) : bytes128 (block128 l) = l := by
  unfold bytes128 block128
  have := beNat_lt l
  rw [h] at this
  rw [BitVec.toNat_ofNat, Nat.mod_eq_of_lt (by omega), ← h]
  exact beN_beNat l

theorem length_bytes128 (v : BitVec 128) : (bytes128 v).length = 16 := length_beN _ _

theorem beNat_beN (n x : Nat) : beNat (beN n x) = x % 256 ^ n := by
  induction n generalizing x with
  | zero => simp [beN, beNat, leNat, Nat.mod_one]
  | succ n ih =>
    rw [beN_succ, beNat_snoc, ih, BitVec.toNat_ofNat]
    have h := Nat.mod_mul (x := x) (a := 256) (b := 256 ^ n)
    rw [← Nat.pow_succ'] at h
    rw [h]
    omega

theorem toNat_block128 (l : List (BitVec 8)) (h : l.length = 16) : (block128 l).toNat = beNat l := by
  have := beNat_lt l
  rw [h] at this
  unfold block128
  rw [BitVec.toNat_ofNat]
  exact Nat.mod_eq_of_lt (lt_of_lt_of_le this (by norm_num))

theorem block128_bytes128 (v : BitVec 128) : block128 (bytes128 v) = v := by
  unfold block128 bytes128
  apply BitVec.eq_of_toNat_eq
  rw [beNat_beN, BitVec.toNat_ofNat]
  have := v.isLt
  omega

end Spec

namespace Mac
open Spec

/-- Shift a byte string left by one bit. -/
def shl : List Byte → List Byte
  | [] => []
  | [b] => [b <<< 1]
  | b :: c :: l => ((b <<< 1) ||| (c >>> 7)) :: shl (c :: l)

theorem byte_shl (b c : Byte) : ((b <<< 1) ||| (c >>> 7)).toNat = 2 * b.toNat % 256 + c.toNat / 128 := by
  rw [BitVec.toNat_or, BitVec.toNat_shiftLeft, BitVec.toNat_ushiftRight, Nat.shiftLeft_eq, Nat.shiftRight_eq_div_pow]
  have h1 : b.toNat * 2 ^ 1 % 2 ^ 8 = 2 ^ 1 * (b.toNat % 128) := by omega
  have h2 : c.toNat / 2 ^ 7 < 2 ^ 1 := by have := c.isLt; omega
  rw [h1, ← Nat.two_pow_add_eq_or_of_lt h2]
  omega

theorem length_shl : ∀ l, (shl l).length = l.length
  | [] => rfl
  | [_] => rfl
  | _ :: c :: l => by
    show (shl (c :: l)).length + 1 = _
    rw [length_shl (c :: l)]; rfl

theorem beNat_shl : ∀ l : List Byte, beNat (shl l) = 2 * beNat l % 256 ^ l.length
  | [] => by simp [shl, beNat, leNat]
  | [b] => by
    simp only [shl, beNat, leNat, List.reverse_singleton]
    rw [BitVec.toNat_shiftLeft, Nat.shiftLeft_eq]
    simp; omega
  | b :: c :: l => by
    show beNat (((b <<< 1) ||| (c >>> 7)) :: shl (c :: l)) = _
    rw [beNat_cons, byte_shl, length_shl, beNat_shl (c :: l), beNat_cons b]
    have h1 := beNat_lt l
    have h2 : beNat (c :: l) = c.toNat * 256 ^ l.length + beNat l := beNat_cons c l
    have h3 : (c :: l).length = l.length + 1 := rfl
    have hc := c.isLt
    have hb := b.isLt
    rw [h3, List.length_cons, h3, h2]
    set X := 256 ^ l.length with hX
    have hXp : 256 ^ (l.length + 1) = 256 * X := by rw [hX]; ring
    have hXp2 : 256 ^ (l.length + 1 + 1) = 256 * (256 * X) := by rw [hX]; ring
    rw [hXp, hXp2]
    have hq : 2 * (c.toNat * X + beNat l) / (256 * X) = c.toNat / 128 := by
      rw [Nat.div_eq_iff (by omega)]
      have e1 : c.toNat = 128 * (c.toNat / 128) + c.toNat % 128 := by omega
      set q := c.toNat / 128
      set r := c.toNat % 128 with hr
      have hr' : r ≤ 127 := by omega
      have h5 : r * X ≤ 127 * X := Nat.mul_le_mul_right _ hr'
      have e2 : c.toNat * X = 128 * (q * X) + r * X := by rw [e1]; ring
      have e3 : q * (256 * X) = 256 * (q * X) := by ring
      constructor
      · rw [e2]; nlinarith
      · rw [e2, e3]; omega
    have hdm := Nat.div_add_mod (2 * (c.toNat * X + beNat l)) (256 * X)
    rw [hq] at hdm
    set R := 2 * (c.toNat * X + beNat l) % (256 * X) with hR
    have hRl : R < 256 * X := Nat.mod_lt _ (by omega)
    have e4 : 2 * (b.toNat * (256 * X) + (c.toNat * X + beNat l)) = (2 * b.toNat / 256) * (256 * (256 * X)) + ((2 * b.toNat % 256 + c.toNat / 128) * (256 * X) + R) := by
      have : 2 * b.toNat = 256 * (2 * b.toNat / 256) + 2 * b.toNat % 256 := by omega
      rw [Nat.mul_add, ← hdm, ← Nat.mul_assoc 2]
      conv_lhs => rw [this]
      ring
    rw [e4, Nat.mul_add_mod_self_right]
    symm
    apply Nat.mod_eq_of_lt
    have h7 : 2 * b.toNat % 256 + c.toNat / 128 ≤ 255 := by omega
    have := Nat.mul_le_mul_right (256 * X) h7
    omega

theorem dblLoop (k : Nat) : ∀ (a l : List Byte) (c : Byte), l.length = k →
    (List.range' a.length k).foldl (fun (K : List Byte) j => K.set j ((K.getD j 0 <<< 1) ||| (K.getD (j + 1) 0 >>> 7))) (a ++ c :: l) =
      a ++ (shl (c :: l)).dropLast ++ [(c :: l).getLast (by simp)] := by
  induction k with
  | zero =>
    intro a l c h
    have : l = [] := List.eq_nil_of_length_eq_zero h
    subst this
    simp [shl]
  | succ k ih =>
    intro a l c h
    obtain ⟨d, l, rfl⟩ : ∃ d l', l = d :: l' := by
      cases l with
      | nil => simp at h
      | cons d l => exact ⟨d, l, rfl⟩
    rw [List.range'_succ, List.foldl_cons]
    have e : (a ++ c :: d :: l).set a.length (((a ++ c :: d :: l).getD a.length 0 <<< 1) ||| ((a ++ c :: d :: l).getD (a.length + 1) 0 >>> 7)) =
        (a ++ [(c <<< 1) ||| (d >>> 7)]) ++ d :: l := by
      have g1 : (a ++ c :: d :: l).getD a.length 0 = c := by simp
      have g2 : (a ++ c :: d :: l).getD (a.length + 1) 0 = d := by
        rw [List.getD_eq_getElem?_getD, List.getElem?_append_right (by omega)]; simp
      rw [g1, g2]
      simp
    rw [e]
    have := ih (a ++ [(c <<< 1) ||| (d >>> 7)]) l d (by simpa using h)
    rw [List.length_append, List.length_singleton] at this
    rw [this]
    have hne : shl (d :: l) ≠ [] := by
      intro h0
      have := length_shl (d :: l)
      rw [h0] at this; simp at this
    show _ = a ++ (((c <<< 1) ||| (d >>> 7)) :: shl (d :: l)).dropLast ++ _
    rw [List.dropLast_cons_of_ne_nil hne]
    simp

theorem shl_last : ∀ (l : List Byte) (h : l ≠ []), shl l = (shl l).dropLast ++ [l.getLast h <<< 1]
  | [], h => absurd rfl h
  | [b], _ => rfl
  | b :: c :: l, _ => by
    have := shl_last (c :: l) (by simp)
    have hne : shl (c :: l) ≠ [] := by
      intro h0
      have := length_shl (c :: l)
      rw [h0] at this; simp at this
    show ((b <<< 1) ||| (c >>> 7)) :: shl (c :: l) = (((b <<< 1) ||| (c >>> 7)) :: shl (c :: l)).dropLast ++ _
    rw [List.dropLast_cons_of_ne_nil hne, List.cons_append]
    congr 1

theorem cmacDouble_eq (K : List Byte) (hK : K.length = 16) :
    cmacDouble K = (shl K).dropLast ++ [(K.getLast (by intro h; rw [h] at hK; simp at hK) <<< 1) ^^^ (0x87#8 &&& (0#8 - (K.getD 0 0 >>> 7)))] := by
  obtain ⟨c, l, rfl⟩ : ∃ c l, K = c :: l := by
    cases K with
    | nil => simp at hK
    | cons c l => exact ⟨c, l, rfl⟩
  have hl : l.length = 15 := by simpa using hK
  unfold cmacDouble
  have := dblLoop 15 [] l c hl
  simp only [List.nil_append, List.length_nil] at this
  rw [List.range_eq_range', this]
  simp only []
  have hd : (shl (c :: l)).dropLast.length = 15 := by rw [List.length_dropLast, length_shl]; simp [hl]
  have g1 : ((shl (c :: l)).dropLast ++ [(c :: l).getLast (by simp)]).getD 15 0 = (c :: l).getLast (by simp) := by
    rw [List.getD_eq_getElem?_getD, List.getElem?_append_right (by omega), hd]; simp
  rw [g1]
  have : ∀ (v w : Byte) (a : List Byte), a.length = 15 → (a ++ [w]).set 15 v = a ++ [v] := by
    intro v w a ha
    rw [List.set_append_right _ _ (by omega), ha]; rfl
  rw [this _ _ _ hd]

theorem xor_low (a x y : Nat) (hx : x < 256) (hy : y < 256) : (256 * a + x) ^^^ y = 256 * a + (x ^^^ y) := by
  have hxy : x ^^^ y < 2 ^ 8 := Nat.xor_lt_two_pow (n := 8) hx hy
  apply Nat.eq_of_testBit_eq
  intro i
  rw [Nat.testBit_xor, show 256 * a = 2 ^ 8 * a by norm_num, Nat.testBit_two_pow_mul_add a (show x < 2 ^ 8 from hx),
    Nat.testBit_two_pow_mul_add a hxy]
  by_cases c : i < 8
  · rw [if_pos c, if_pos c, Nat.testBit_xor]
  · rw [if_neg c, if_neg c, Nat.testBit_lt_two_pow (x := y) (lt_of_lt_of_le hy (by
      have : 2 ^ 8 ≤ 2 ^ i := Nat.pow_le_pow_right (by decide) (by omega)
      exact this))]
    simp

theorem mask_eq (b : Byte) : 0x87#8 &&& (0#8 - (b >>> 7)) = if b.toNat ≥ 128 then 0x87#8 else 0#8 := by
  revert b; decide

theorem toNat_dbl (v : BitVec 128) : (dbl v).toNat = if 2 ^ 127 ≤ v.toNat then (2 * v.toNat % 256 ^ 16) ^^^ 0x87 else 2 * v.toNat % 256 ^ 16 := by
  have h : (v <<< 1).toNat = 2 * v.toNat % 256 ^ 16 := by
    rw [BitVec.toNat_shiftLeft, Nat.shiftLeft_eq, Nat.pow_one, Nat.mul_comm, show (256 : Nat) ^ 16 = 2 ^ 128 by norm_num]
  unfold dbl
  rw [BitVec.msb_eq_decide]
  by_cases c : 2 ^ 127 ≤ v.toNat
  · rw [if_pos c, if_pos (by simpa using c), BitVec.toNat_xor, h]; rfl
  · rw [if_neg c, if_neg (by simpa using c), h]

theorem cmacDouble_spec (K : List Byte) (hK : K.length = 16) : cmacDouble K = bytes128 (dbl (block128 K)) := by
  have hne : K ≠ [] := by intro h; rw [h] at hK; simp at hK
  have hlen : (cmacDouble K).length = 16 := by
    rw [cmacDouble_eq K hK]; simp [length_shl, hK]
  rw [← bytes128_block128 _ hlen]
  congr 1
  have hsl := shl_last K hne
  have hbs := beNat_shl K
  rw [hsl, beNat_snoc, hK] at hbs
  have hmsb : 2 ^ 127 ≤ beNat K ↔ (K.headD 0).toNat ≥ 128 := by
    obtain ⟨c, l, rfl⟩ : ∃ c l, K = c :: l := by
      cases K with
      | nil => simp at hK
      | cons c l => exact ⟨c, l, rfl⟩
    have hl : l.length = 15 := by simpa using hK
    have := beNat_lt l
    rw [beNat_cons, hl, List.headD_cons]
    rw [hl] at this
    generalize c.toNat = c at *
    generalize beNat l = r at *
    constructor <;> intro h <;> omega
  have hhead : K.getD 0 0 = K.headD 0 := by cases K <;> rfl
  apply BitVec.eq_of_toNat_eq
  rw [toNat_block128 _ hlen, toNat_dbl, toNat_block128 _ hK, cmacDouble_eq K hK, mask_eq, hhead, beNat_snoc, ← hbs, BitVec.toNat_xor]
  have hul := (K.getLast hne <<< 1).isLt
  by_cases c : (K.headD 0).toNat ≥ 128
  · rw [if_pos c, if_pos (hmsb.2 c), xor_low _ _ _ hul (by norm_num)]
    rfl
  · rw [if_neg c, if_neg (fun h => c (hmsb.1 h))]
    simp

variable (enc : List Byte → List Byte)

/-- The chaining function on (state, whole block). -/
def cmacF (h blk : List Byte) : List Byte := enc (xorBytes h blk)

/-- `T` holds the chaining value with the buffered bytes already added. -/
def CRel (c : Cmac) (s : List Byte × List Byte) : Prop :=
  s.1.length = 16 ∧ s.2.length ≤ 16 ∧ c.filled = s.2.length ∧
    c.T = xorBytes s.1 (s.2 ++ List.replicate (16 - s.2.length) 0)

theorem xorBytes_zero (a : List Byte) (n : Nat) (h : a.length = n) : xorBytes a (List.replicate n 0) = a := by
  subst h
  apply List.ext_getElem
  · simp [xorBytes]
  · intro i h1 h2; simp [xorBytes]

theorem xorBytes_modify (h l : List Byte) (b : Byte) (hh : h.length = 16) (hl : l.length < 16) :
    (xorBytes h (l ++ List.replicate (16 - l.length) 0)).modify l.length (· ^^^ b) =
      xorBytes h (l ++ [b] ++ List.replicate (15 - l.length) 0) := by
  apply List.ext_getElem
  · simp [xorBytes, hh]; omega
  · intro i h1 h2
    simp [xorBytes, hh] at h1
    rw [List.getElem_modify]
    simp only [xorBytes, List.getElem_zipWith]
    by_cases c : l.length = i
    · subst c
      rw [if_pos rfl]
      simp
    · rw [if_neg c]
      by_cases c2 : i < l.length
      · simp [c2]
      · have hi : i - l.length = (i - l.length - 1) + 1 := by omega
        have e : (l ++ [b] ++ List.replicate (15 - l.length) (0#8 : Byte))[i]'(by simp; omega) = 0#8 := by
          rw [List.getElem_append_right (by simp; omega)]; simp
        have e2 : (l ++ List.replicate (16 - l.length) (0#8 : Byte))[i]'(by simp; omega) = 0#8 := by
          rw [List.getElem_append_right (by omega)]; simp
        exact congrArg (h[i]'(by omega) ^^^ ·) (e2.trans e.symm)

theorem cmac_push (hE : ∀ x : List Byte, x.length = 16 → (enc x).length = 16) (c : Cmac) (s : List Byte × List Byte) (h : CRel c s) (b : Byte) :
    CRel
      (let c := if c.filled ≥ 16 then { c with T := enc c.T, filled := 0 } else c
       { c with T := c.T.modify c.filled (· ^^^ b), filled := c.filled + 1 })
      (lazyPush (cmacF enc) 16 s b) := by
  obtain ⟨h1, h2, h3, h4⟩ := h
  unfold lazyPush
  by_cases e : s.2.length = 16
  · rw [if_pos e, if_pos (by omega)]
    have hl : (xorBytes s.1 s.2).length = 16 := by simp [xorBytes, h1, e]
    have e5 : (enc c.T) = cmacF enc s.1 s.2 := by rw [h4, e]; simp [cmacF]
    have e6 : (cmacF enc s.1 s.2).length = 16 := hE _ hl
    refine ⟨e6, by simp, by simp, ?_⟩
    simp only []
    rw [e5]
    have := xorBytes_modify (cmacF enc s.1 s.2) [] b e6 (by simp)
    simp only [List.length_nil, List.nil_append] at this
    rw [xorBytes_zero _ 16 e6] at this
    rw [this]; rfl
  · rw [if_neg e, if_neg (by omega)]
    refine ⟨h1, by simp; omega, by simp; omega, ?_⟩
    simp only []
    rw [h3, h4, xorBytes_modify _ _ _ h1 (by omega)]
    congr 2
    simp

/-- The loop flushes a full block only when more data follows: the same as flushing before each byte. -/
theorem cmacUpdate_lazy (data : List Byte) : ∀ c : Cmac, cmacUpdate enc c data =
    data.foldl (fun c b =>
      let c := if c.filled ≥ 16 then { c with T := enc c.T, filled := 0 } else c
      { c with T := c.T.modify c.filled (· ^^^ b), filled := c.filled + 1 }) c := by
  induction data with
  | nil => intro c; simp [cmacUpdate, cmacLoop]
  | cons b ds ih =>
    intro c
    rw [List.foldl_cons, ← ih]
    unfold cmacUpdate
    simp only [List.length_cons, ne_eq, Nat.add_eq_zero_iff, one_ne_zero, and_false, not_false_eq_true, and_true]
    rw [cmacLoop]

theorem cmacUpdates (hE : ∀ x : List Byte, x.length = 16 → (enc x).length = 16) (ms : List (List Byte)) :
    ∀ (c : Cmac) (s : List Byte × List Byte), CRel c s →
      CRel (ms.foldl (cmacUpdate enc) c) (ms.flatten.foldl (lazyPush (cmacF enc) 16) s) := by
  induction ms with
  | nil => intro c s h; exact h
  | cons m ms ih =>
    intro c s h
    rw [List.foldl_cons, List.flatten_cons, List.foldl_append]
    apply ih
    rw [cmacUpdate_lazy]
    clear ih
    induction m generalizing c s with
    | nil => exact h
    | cons b m ihm =>
      rw [List.foldl_cons, List.foldl_cons]
      exact ihm _ _ (cmac_push enc hE c s h b)

theorem cmacUpdate_keys (ms : List (List Byte)) : ∀ c : Cmac,
    (ms.foldl (cmacUpdate enc) c).K1 = c.K1 ∧ (ms.foldl (cmacUpdate enc) c).K2 = c.K2 ∧ (ms.foldl (cmacUpdate enc) c).flags = c.flags := by
  induction ms with
  | nil => intro c; exact ⟨rfl, rfl, rfl⟩
  | cons m ms ih =>
    intro c
    rw [List.foldl_cons]
    have : (cmacUpdate enc c m).K1 = c.K1 ∧ (cmacUpdate enc c m).K2 = c.K2 ∧ (cmacUpdate enc c m).flags = c.flags := by
      rw [cmacUpdate_lazy]
      induction m generalizing c with
      | nil => exact ⟨rfl, rfl, rfl⟩
      | cons b m ihm =>
        rw [List.foldl_cons]
        obtain ⟨a1, a2, a3⟩ := ihm (let c := if c.filled ≥ 16 then { c with T := enc c.T, filled := 0 } else c
          { c with T := c.T.modify c.filled (· ^^^ b), filled := c.filled + 1 })
        rw [a1, a2, a3]
        split <;> exact ⟨rfl, rfl, rfl⟩
    rw [(ih _).1, (ih _).2.1, (ih _).2.2]
    exact this

theorem flag_lost (f : Byte) : f.setWidth 32 &&& 0x100#32 = 0#32 := by revert f; decide

theorem flag_store (f : Byte) : (f.setWidth 32 ||| 0x100#32).setWidth 8 = f := by revert f; decide

/-- `CMAC_Final` always finalises: bit 8 of an 8-bit member is never set. -/
def cmacFin (c : Cmac) : Cmac :=
  if c.filled ≥ 16 then { c with T := enc (xorBytes c.T c.K1) }
  else { c with T := enc (xorBytes (c.T.modify c.filled (· ^^^ 0x80#8)) c.K2), filled := 0 }

theorem cmacFinal_snd (c : Cmac) (t : Nat) : (cmacFinal enc c t).2 = cmacFin enc c := by
  unfold cmacFinal cmacFin
  rw [if_neg (by rw [flag_lost]; simp)]
  simp only [flag_store]
  split <;> rfl

theorem cmacFinal_fst (c : Cmac) (t : Nat) (h : (cmacFin enc c).T.length = 16) : (cmacFinal enc c t).1 = fitTo (cmacFin enc c).T t := by
  have e : (cmacFinal enc c t).1 = (List.range t).map fun i => if i < 16 then (cmacFinal enc c t).2.T.getD i 0 else 0 := rfl
  rw [e, cmacFinal_snd]
  unfold fitTo
  apply List.map_congr_left
  intro i _
  split
  · rfl
  · rw [List.getD_eq_getElem?_getD, List.getElem?_eq_none (by omega)]; rfl

theorem xorBytes_assoc (a b c : List Byte) : xorBytes (xorBytes a b) c = xorBytes a (xorBytes b c) := by
  unfold xorBytes
  apply List.ext_getElem
  · simp [Nat.min_assoc]
  · intro i h1 h2; simp [BitVec.xor_assoc]

theorem xorBytes_comm (a b : List Byte) : xorBytes a b = xorBytes b a := by
  unfold xorBytes
  exact List.zipWith_comm_of_comm (fun x y => BitVec.xor_comm x y)

theorem length_xorBytes (a b : List Byte) (n : Nat) (ha : a.length = n) (hb : b.length = n) : (xorBytes a b).length = n := by
  simp [xorBytes, ha, hb]

theorem cmacFin_T (hE : ∀ x : List Byte, x.length = 16 → (enc x).length = 16) (c0 c : Cmac) (keylen : Nat) (hk : cmacSetKey enc c0 keylen = some c)
    (ms : List (List Byte)) : (cmacFin enc (ms.foldl (cmacUpdate enc) c)).T = cmac enc ms.flatten ∧ (cmac enc ms.flatten).length = 16 := by
  unfold cmacSetKey at hk
  split at hk
  · exact absurd hk (by simp)
  have hz : (enc (List.replicate 16 0)).length = 16 := hE _ (by simp)
  obtain ⟨hT, hK1, hK2, hf⟩ : c.T = List.replicate 16 0 ∧ c.K1 = cmacDouble (enc (List.replicate 16 0)) ∧
      c.K2 = cmacDouble (cmacDouble (enc (List.replicate 16 0))) ∧ c.filled = 0 := by
    simp only [Option.some.injEq] at hk
    subst hk
    simp only [and_self]
  have hrel : CRel c (List.replicate 16 0, []) := ⟨by simp, by simp, by rw [hf]; rfl, by rw [hT]; rfl⟩
  rw [cmacDouble_spec _ hz] at hK1 hK2
  rw [cmacDouble_spec _ (length_bytes128 _), block128_bytes128] at hK2
  have hr := cmacUpdates enc hE ms _ _ hrel
  rw [foldl_lazyPush _ _ (by norm_num)] at hr
  have hkeys := cmacUpdate_keys enc ms c
  generalize ms.foldl (cmacUpdate enc) c = d at *
  obtain ⟨h1, h2, h3, h4⟩ := hr
  simp only [] at h1 h2 h3 h4
  unfold cmacFin cmac
  rw [h3]
  simp only []
  by_cases e : (lastBlock 16 ms.flatten).length = 16
  · rw [if_pos (by omega), if_pos e]
    simp only []
    constructor
    · rw [h4, hkeys.1, hK1, e, xorBytes_assoc, xorBytes_comm (bytes128 _)]
      simp only [Nat.sub_self, List.replicate_zero, List.append_nil]
      rfl
    · exact hE _ (length_xorBytes _ _ _ h1 (length_xorBytes _ _ _ (length_bytes128 _) e))
  · rw [if_neg (by omega), if_neg e]
    simp only []
    constructor
    · rw [h4, hkeys.2.1, hK2, xorBytes_modify _ _ _ h1 (by omega), xorBytes_assoc, xorBytes_comm (bytes128 _)]
      rfl
    · exact hE _ (length_xorBytes _ _ _ h1 (length_xorBytes _ _ _ (length_bytes128 _) (by simp; omega)))

theorem cmac_final_value (hE : ∀ x : List Byte, x.length = 16 → (enc x).length = 16) (c0 c : Cmac) (keylen : Nat) (hk : cmacSetKey enc c0 keylen = some c)
    (ms : List (List Byte)) (t : Nat) :
    (cmacFinal enc (ms.foldl (cmacUpdate enc) c) t).1 = fitTo (cmac enc ms.flatten) t := by
  obtain ⟨h1, h2⟩ := cmacFin_T enc hE c0 c keylen hk ms
  rw [cmacFinal_fst _ _ _ (by rw [h1]; exact h2), h1]

end Mac
