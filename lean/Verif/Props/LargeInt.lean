import Verif.Lemmas.LargeInt6
import Verif.Spec.LargeInt

/-!
# C78: the integer descriptors of `largeint.c`

An integer is described by an address, a number of 32-bit words, the order of the words and the order of the octets in a word.
-/
namespace LargeInt
open Spec

theorem leNat_append (l m : List (BitVec 8)) : leNat (l ++ m) = leNat l + 256 ^ l.length * leNat m := by
  induction l with
  | nil => simp [leNat]
  | cons b l ih => simp only [List.cons_append, leNat, ih, List.length_cons, pow_succ]; ring

theorem word_octets (w : W) (msb : Bool) : leNat (if msb then (memOctets w).reverse else memOctets w) = (w32 w msb).toNat := by
  cases msb
  · simp only [memOctets, leNat, w32, Bool.false_eq_true, if_false, BitVec.extractLsb'_toNat, Nat.shiftRight_eq_div_pow]
    have := w.isLt
    omega
  · simp only [memOctets, leNat, w32, if_true, List.reverse_cons, List.reverse_nil, List.nil_append, List.cons_append, swap32, BitVec.toNat_append,
      BitVec.extractLsb'_toNat, Nat.shiftRight_eq_div_pow]
    have h : ∀ x y : Nat, y < 2 ^ 8 → x <<< 8 ||| y = x * 256 + y := fun x y hy => by
      rw [Nat.shiftLeft_eq, Nat.mul_comm, ← Nat.two_pow_add_eq_or_of_lt hy]
    rw [h _ _ (Nat.mod_lt _ (by decide)), h _ _ (Nat.mod_lt _ (by decide)), h _ _ (Nat.mod_lt _ (by decide))]
    ring

theorem leNat_words (l : List W) (msb : Bool) :
    leNat (l.flatMap fun w => if msb then (memOctets w).reverse else memOctets w) = wsum (fun i => (w32 (l.getD i 0) msb).toNat) l.length := by
  induction l using List.reverseRecOn with
  | nil => rfl
  | append_singleton l w ih =>
    rw [List.flatMap_append, leNat_append, ih, List.length_append, List.length_singleton, wsum]
    congr 1
    · exact wsum_congr fun i hi => by rw [List.getD_append _ _ _ _ hi]
    · have hw : ∀ a : W, (if msb then (memOctets a).reverse else memOctets a).length = 4 := fun a => by cases msb <;> rfl
      have hlen : ∀ l : List W, (l.flatMap fun w => if msb then (memOctets w).reverse else memOctets w).length = 4 * l.length := by
        intro l
        induction l with
        | nil => rfl
        | cons a l ih2 => rw [List.flatMap_cons, List.length_append, List.length_cons, hw, ih2]; ring
      rw [hlen, List.flatMap_singleton, word_octets, List.getD_eq_getElem?_getD, List.getElem?_concat_length, Option.getD_some, Nat.mul_comm,
        show (256 : Nat) = 2 ^ 8 from rfl, ← pow_mul]
      congr 2; ring

/-- The words `getword32` gives are the digits of that number. -/
theorem dval_mem (s : Store) (d : Desc) : dval s d = memNat s (d.p.getD 0) d.len d.msw d.msb := by
  unfold memNat dval
  dsimp only
  rw [leNat_words]
  cases hm : d.msw
  · simp only [Bool.false_eq_true, if_false, List.length_map, List.length_range]
    exact wsum_congr fun i hi => by
      unfold wd
      rw [get_eq s d i hi, addr, hm, List.getD_eq_getElem?_getD, List.getElem?_map, List.getElem?_range hi]
      rfl
  · simp only [if_true, List.length_reverse, List.length_map, List.length_range]
    exact wsum_congr fun i hi => by
      unfold wd
      rw [get_eq s d i hi, addr, hm, List.getD_eq_getElem?_getD, List.getElem?_reverse (by simpa using hi), List.length_map, List.length_range,
        List.getElem?_map, List.getElem?_range (by omega)]
      rw [show d.len - 1 - i = d.len - i - 1 by omega]
      rfl

end LargeInt

namespace Props
open LargeInt Spec

/-- The number a descriptor describes in memory `s`. -/
def liNat (s : Store) (d : Desc) : Nat := memNat s (d.p.getD 0) d.len d.msw d.msb

/-- The memory of two descriptors does not meet. -/
def LiApart (d e : Desc) : Prop := d.p.getD 0 + d.len ≤ e.p.getD 0 ∨ e.p.getD 0 + e.len ≤ d.p.getD 0

/-- Two descriptors of the same words in the same order (the octet order may differ). -/
def LiSame (d e : Desc) : Prop := d.p = e.p ∧ d.len = e.len ∧ d.msw = e.msw

/-- An address outside the memory of a descriptor. -/
def LiOutside (d : Desc) (k : Nat) : Prop := k < d.p.getD 0 ∨ d.p.getD 0 + d.len ≤ k

theorem later_of {a out : Desc} (h : LiApart out a ∨ LiSame a out) : Later (fun s i => get s a i) (full out) := by
  intro s i x j hij
  show LargeInt.get _ a j = LargeInt.get s a j
  rcases h with h | ⟨h1, h2, h3⟩
  · rw [← set_full, get_set_apart s out a h]
  · by_cases hj : j < a.len
    · rw [get_eq _ _ _ hj, get_eq _ _ _ hj, ← set_full, set_eq _ _ _ _ (by omega)]
      unfold wr
      rw [if_neg]
      intro e
      have ea : addr a j = addr out j := by unfold addr; rw [h1, h2, h3]
      rw [ea] at e
      have := addr_inj (d := out) (by omega) (by omega) e
      omega
    · unfold LargeInt.get; rw [if_pos (by omega), if_pos (by omega)]

/-- C78: `li_add` leaves the sum modulo the size of `out` in `out` and writes nowhere else; the operands, of any sizes and orders, may be `out`
itself. -/
theorem C78_add (s : Store) (out a b : Desc) (ha : LiApart out a ∨ LiSame a out) (hb : LiApart out b ∨ LiSame b out) :
    liNat (liAdd s out a b) out = (liNat s a + liNat s b) % 2 ^ (32 * out.len) ∧ ∀ k, LiOutside out k → liAdd s out a b k = s k := by
  have e : liAdd s out a b = ((List.range (max out.len (max a.len b.len))).foldl (addG (fun s i => get s a i) (fun s i => get s b i) (full out)) (s, 0)).1 := by
    unfold liAdd
    congr 1
    have : addStep out a b = addG (fun s i => get s a i) (fun s i => get s b i) (full out) := by
      funext st i
      unfold addStep addG
      dsimp only
      rw [set_full]
    rw [this]
  obtain ⟨-, -, o, ho, he⟩ := add_loop _ _ (full out) (full_ok out) (later_of ha) (later_of hb) s (max out.len (max a.len b.len))
  unfold liNat
  rw [← dval_mem, ← dval_mem, ← dval_mem, e]
  refine ⟨?_, fun k hk => fold_out _ (full out) (fun _ _ => ⟨_, rfl⟩) _ (s, 0) k hk⟩
  rw [dval_full, ho.val (by show out.len ≤ _; omega)]
  have e1 : wsum (fun i => (get s a i).toNat) (max out.len (max a.len b.len)) = dval s a := dval_ext s a _ (by omega)
  have e2 : wsum (fun i => (get s b i).toNat) (max out.len (max a.len b.len)) = dval s b := dval_ext s b _ (by omega)
  rw [e1, e2] at he
  rw [← he]
  obtain ⟨c, hc⟩ := Nat.exists_eq_add_of_le (show out.len ≤ max out.len (max a.len b.len) by omega)
  show _ % 2 ^ (32 * out.len) = _
  conv_rhs => rw [hc, Nat.mul_add, pow_add, Nat.mul_left_comm, Nat.add_mul_mod_self_left]
  rw [hc]

/-- C78: `li_sub` leaves the difference modulo the size of `out`. -/
theorem C78_sub (s : Store) (out a b : Desc) (ha : LiApart out a ∨ LiSame a out) (hb : LiApart out b ∨ LiSame b out) :
    (liNat (liSub s out a b) out : Int) = ((liNat s a : Int) - liNat s b) % 2 ^ (32 * out.len) ∧ ∀ k, LiOutside out k → liSub s out a b k = s k := by
  have e : liSub s out a b = ((List.range (max out.len (max a.len b.len))).foldl (subG (fun s i => get s a i) (fun s i => get s b i) (full out)) (s, 0)).1 := by
    unfold liSub
    congr 1
    have : subStep out a b = subG (fun s i => get s a i) (fun s i => get s b i) (full out) := by
      funext st i
      unfold subStep subG
      dsimp only
      rw [set_full]
    rw [this]
  obtain ⟨-, bo, -, o, ho, he⟩ := sub_loop _ _ (full out) (full_ok out) (later_of ha) (later_of hb) s (max out.len (max a.len b.len))
  unfold liNat
  rw [← dval_mem, ← dval_mem, ← dval_mem, e]
  refine ⟨?_, fun k hk => fold_out _ (full out) (fun _ _ => ⟨_, rfl⟩) _ (s, 0) k hk⟩
  rw [dval_full, ho.val (by show out.len ≤ _; omega)]
  have e1 : wsum (fun i => (get s a i).toNat) (max out.len (max a.len b.len)) = dval s a := dval_ext s a _ (by omega)
  have e2 : wsum (fun i => (get s b i).toNat) (max out.len (max a.len b.len)) = dval s b := dval_ext s b _ (by omega)
  rw [e1, e2] at he
  obtain ⟨c, hc⟩ := Nat.exists_eq_add_of_le (show out.len ≤ max out.len (max a.len b.len) by omega)
  have hz : ((dval s a : Int) - dval s b) = (wsum o (max out.len (max a.len b.len)) : Int) - 2 ^ (32 * out.len) * (bo.toNat * 2 ^ (32 * c)) := by
    have : (wsum o (max out.len (max a.len b.len)) : Int) + dval s b = dval s a + bo.toNat * 2 ^ (32 * max out.len (max a.len b.len)) := by exact_mod_cast he
    rw [show (2 : Int) ^ (32 * out.len) * (bo.toNat * 2 ^ (32 * c)) = bo.toNat * 2 ^ (32 * max out.len (max a.len b.len)) from by
      conv_rhs => rw [hc, Nat.mul_add, pow_add]
      ring]
    linarith
  rw [hz, Int.sub_mul_emod_self_left]
  push_cast
  rfl

/-- C79: the full claim would be the product modulo the size of `out`.  Proved: when `out` is not longer than `b`, or the most significant
word of `b` is zero.  Missing: the code drops the carry of each row into the word behind the row. -/
theorem C79_mul_partial (s : Store) (out a b : Desc) (ha : LiApart out a) (hb : LiApart out b)
    (hB : out.len ≤ b.len ∨ 0 < b.len ∧ liNat s b < 2 ^ (32 * (b.len - 1))) :
    liNat (liMul s out a b) out = liNat s a * liNat s b % 2 ^ (32 * out.len) := by
  unfold liNat at *
  rw [← dval_mem] at hB
  rw [← dval_mem, ← dval_mem, ← dval_mem]
  exact mul_val out a b ha hb s (hB.imp id fun h => ⟨h.2, h.1⟩)

/-- Three integers of one, one and two words. -/
def li1 : Desc := ⟨1, false, false, some 10⟩
def li2 : Desc := ⟨1, false, false, some 20⟩
def li3 : Desc := ⟨2, false, false, some 30⟩

/-- C79 is false of the code: (2^32 - 1)^2 in two words is not what `li_mul` writes. -/
theorem C79_mul_wrong : ∃ s : Store, liNat s li1 = 2 ^ 32 - 1 ∧ liNat s li2 = 2 ^ 32 - 1 ∧ liNat (liMul s li3 li1 li2) li3 = 1 ∧
    liNat s li1 * liNat s li2 % 2 ^ (32 * li3.len) ≠ 1 := by
  refine ⟨fun _ => 0xffffffff, ?_⟩
  decide +kernel

/-- For a one-word multiplier every carry is lost: each word of the result is the low half of a product of words. -/
theorem C79_mul_word (s : Store) (out a b : Desc) (ha : LiApart out a) (hb : LiApart out b) (h1 : b.len = 1) (i : Nat) (hi : i < out.len) :
    get (liMul s out a b) out i = if i < a.len then get s a i * get s b 0 else 0 := by
  unfold liMul
  have key : ∀ n, let t := (List.range n).foldl (fun s i => ((List.range b.len).foldl (mulStep out a b i) (s, 0)).1) (clear s out)
      (∀ k, get t a k = get s a k) ∧ (∀ k, get t b k = get s b k) ∧ ∀ j < out.len, get t out j = if j < n then get s a j * get s b 0 else 0 := by
    intro n
    induction n with
    | zero => exact ⟨fun k => clear_apart s out a ha k, fun k => clear_apart s out b hb k, fun j _ => by rw [if_neg (by omega)]; exact clear_get s out j⟩
    | succ n ih =>
      simp only [List.range_succ, List.foldl_append, List.foldl_cons, List.foldl_nil] at ih ⊢
      generalize (List.range n).foldl (fun s i => ((List.range b.len).foldl (mulStep out a b i) (s, 0)).1) (clear s out) = t at ih ⊢
      obtain ⟨i1, i2, i3⟩ := ih
      rw [h1]
      simp only [List.range_one, List.foldl_cons, List.foldl_nil]
      unfold mulStep
      dsimp only
      by_cases hn : n + 0 ≥ out.len
      · rw [if_pos hn]
        exact ⟨i1, i2, fun j hj => by rw [i3 j hj, if_pos (by omega), if_pos (by omega)]⟩
      · rw [if_neg hn]
        refine ⟨fun k => by rw [get_set_apart _ _ _ ha, i1], fun k => by rw [get_set_apart _ _ _ hb, i2], fun j hj => ?_⟩
        by_cases e : j = n
        · subst e
          simp only [Nat.add_zero]
          rw [get_set_at _ _ _ _ (by omega), if_pos (by omega), i3 j hj, if_neg (by omega), i1, i2]
          apply BitVec.eq_of_toNat_eq
          simp [BitVec.toNat_mul]
        · rw [get_set_ne _ _ _ _ _ (by omega), i3 j hj]
          by_cases hj2 : j < n
          · rw [if_pos hj2, if_pos (by omega)]
          · rw [if_neg hj2, if_neg (by omega)]
  exact (key a.len).2.2 i hi

/-- C80: quotient and remainder, both wanted: the operands cut to the shortest of the four sizes, `n` words, are divided. -/
theorem C80_div (s : Store) (quo rem a b : Desc) (hq0 : 0 < quo.len) (hr0 : 0 < rem.len) (ha0 : 0 < a.len) (hb0 : 0 < b.len) (hqp : quo.p.isSome) (hrp : rem.p.isSome)
    (n : Nat) (hn : n = min (min (min quo.len rem.len) a.len) b.len) (hn2 : n < 2 ^ 24)
    (hqr : LiApart quo rem) (hqa : LiApart quo a) (hqb : LiApart quo b) (hra : LiApart rem a) (hrb : LiApart rem b) (hB : liNat s b % 2 ^ (32 * n) ≠ 0) :
    liNat (liDiv s quo rem a b) quo = (liNat s a % 2 ^ (32 * n)) / (liNat s b % 2 ^ (32 * n)) ∧
    liNat (liDiv s quo rem a b) rem = (liNat s a % 2 ^ (32 * n)) % (liNat s b % 2 ^ (32 * n)) ∧
    ∀ k, LiOutside quo k → LiOutside rem k → liDiv s quo rem a b k = s k := by
  unfold liNat at *
  rw [← dval_mem] at hB
  rw [← dval_mem, ← dval_mem, ← dval_mem, ← dval_mem]
  exact div_both s quo rem a b hq0 hr0 ha0 hb0 hqp hrp n hn hn2 hqr hqa hqb hra hrb (Nat.pos_of_ne_zero hB)

/-- C80: the remainder alone, with a NULL quotient of length 0. -/
theorem C80_rem (s : Store) (quo rem a b : Desc) (hq0 : quo.len = 0) (hr0 : 0 < rem.len) (ha0 : 0 < a.len) (hb0 : 0 < b.len) (hqp : quo.p = none) (hrp : rem.p.isSome)
    (n : Nat) (hn : n = min (min rem.len a.len) b.len) (hn2 : n < 2 ^ 24)
    (hra : LiApart rem a) (hrb : LiApart rem b) (hB : liNat s b % 2 ^ (32 * n) ≠ 0) :
    liNat (liDiv s quo rem a b) rem = (liNat s a % 2 ^ (32 * n)) % (liNat s b % 2 ^ (32 * n)) ∧ ∀ k, LiOutside rem k → liDiv s quo rem a b k = s k := by
  unfold liNat at *
  rw [← dval_mem] at hB
  rw [← dval_mem, ← dval_mem, ← dval_mem]
  exact div_rem s quo rem a b hq0 hr0 ha0 hb0 hqp hrp n hn hn2 hra hrb (Nat.pos_of_ne_zero hB)

/-- C80: the quotient alone, with a NULL remainder of length 0, if it is not shorter than both operands. -/
theorem C80_quo (s : Store) (quo rem a b : Desc) (hr0 : rem.len = 0) (hq0 : 0 < quo.len) (ha0 : 0 < a.len) (hb0 : 0 < b.len) (hrp : rem.p = none) (hqp : quo.p.isSome)
    (n : Nat) (hn : n = min a.len b.len) (hnq : n ≤ quo.len) (hn2 : n < 2 ^ 24)
    (hqa : LiApart quo a) (hqb : LiApart quo b) (hB : liNat s b % 2 ^ (32 * n) ≠ 0) :
    liNat (liDiv s quo rem a b) quo = (liNat s a % 2 ^ (32 * n)) / (liNat s b % 2 ^ (32 * n)) ∧ ∀ k, LiOutside quo k → liDiv s quo rem a b k = s k := by
  unfold liNat at *
  rw [← dval_mem] at hB
  rw [← dval_mem, ← dval_mem, ← dval_mem]
  exact div_quo s quo rem a b hr0 hq0 ha0 hb0 hrp hqp n hn hnq hn2 hqa hqb (Nat.pos_of_ne_zero hB)

/-- A concrete memory: 2^64 + 7 in three big-endian words at 10, 2^32 + 1 in three little-endian words at 20, 3 in two words at 40. -/
def liMem : Store := fun k => if k = 10 then 0x01000000 else if k = 11 then 0 else if k = 12 then 0x07000000 else if k = 20 then 1 else if k = 21 then 1 else
  if k = 22 then 0 else if k = 40 then 3 else if k = 41 then 0 else 0xdddddddd
def liA : Desc := ⟨3, true, true, some 10⟩
def liB : Desc := ⟨3, false, false, some 20⟩
def liC : Desc := ⟨2, false, true, some 30⟩


set_option maxRecDepth 100000 in
/-- The documented cut to the shortest does not happen for a quotient alone: a quotient of one word with operands of three words comes out as 0,
neither the quotient (which fits) nor the quotient of the low words. -/
theorem C80_short_quotient : let q : Desc := ⟨1, false, false, some 50⟩
    liNat liMem liA = 2 ^ 64 + 7 ∧ liNat liMem liB = 2 ^ 32 + 1 ∧ (2 ^ 64 + 7) / (2 ^ 32 + 1) = 2 ^ 32 - 1 ∧
    (2 ^ 64 + 7) % 2 ^ 32 / ((2 ^ 32 + 1) % 2 ^ 32) = 7 ∧
    liNat (liDiv liMem q ⟨0, false, false, none⟩ liA liB) q = 0 := by
  decide +kernel

set_option maxRecDepth 100000 in
/-- The hypotheses of the theorems are met by this memory; sums, differences, quotients and remainders over mixed orders and sizes, in place too. -/
example : LiApart liC liA ∧ LiApart liC liB ∧ LiSame liB liB ∧ liNat liMem liB % 2 ^ (32 * 3) ≠ 0 ∧
    liNat (liAdd liMem liC liA liB) liC = 2 ^ 32 + 8 ∧
    liNat (liAdd liMem liB liA liB) liB = 2 ^ 64 + 2 ^ 32 + 8 ∧
    liNat (liSub liMem liC liB liA) liC = 2 ^ 32 - 6 ∧
    liNat (liMul liMem liC liA liB) liC = 7 * (2 ^ 32 + 1) := by
  unfold LiApart LiSame
  decide +kernel
set_option maxRecDepth 100000 in
example : let q : Desc := ⟨4, true, false, some 50⟩
    let r : Desc := ⟨3, false, true, some 60⟩
    liNat (liDiv liMem q r liA liB) q = 2 ^ 32 - 1 ∧ liNat (liDiv liMem q r liA liB) r = 8 ∧
    liNat (liDiv liMem q ⟨0, false, false, none⟩ liA liB) q = 2 ^ 32 - 1 ∧ liNat (liDiv liMem ⟨0, false, false, none⟩ r liA liB) r = 8 := by
  decide +kernel

end Props
