import Verif.Lemmas.Blake2

/-!
# Property C16 (and C14 for this family): BLAKE2b and BLAKE2s, plain and keyed
-/

namespace Props
open Blake2
open Spec (fitTo)

theorem init_spec {W : Nat} {p : Prm W} {P : Spec.Blake2.Variant W} (M : Match p P)
    (hk : p.maxKey ≤ bsize W) (ho : p.maxOut < 256) (hkk : p.maxKey < 256) (outlen : Nat)
    (key : List Byte) (x : Ctx W) (hx : init p outlen key = some x) :
    ∃ h, Rv 8 h (Spec.Blake2.h0 P outlen key.length) ∧
      Rel x ((h, 0), if key = [] then [] else key ++ List.replicate (bsize W - key.length) 0) ∧
      x.outlen = outlen ∧ x.finalized = false ∧ outlen ≤ p.maxOut := by
  unfold init at hx
  split at hx
  · exact absurd hx (by simp)
  rename_i hn
  push Not at hn
  simp only at hx
  have hRv : Rv 8 (p.iv.set 0 (p.iv.getD 0 0 ^^^
      ((0x01010000#32 ^^^ (BitVec.ofNat 32 key.length <<< 8) ^^^ BitVec.ofNat 32 outlen).setWidth W)))
      (Spec.Blake2.h0 P outlen key.length) := by
    refine ⟨by simpa using M.ivl, fun i hi => ?_⟩
    rw [getD_set _ _ _ _ _ (by rw [M.ivl]; omega)]
    unfold Spec.Blake2.h0
    by_cases c : i = 0
    · rw [if_pos c, if_pos c, M.iv 0 (by omega)]
      congr 1
      apply BitVec.eq_of_toNat_eq
      rw [BitVec.toNat_setWidth, BitVec.toNat_ofNat, BitVec.toNat_xor, BitVec.toNat_xor, BitVec.toNat_shiftLeft,
        BitVec.toNat_ofNat, BitVec.toNat_ofNat, BitVec.toNat_ofNat, Nat.shiftLeft_eq,
        Nat.mod_eq_of_lt (a := outlen) (by omega), Nat.mod_eq_of_lt (a := key.length) (by omega),
        Nat.mod_eq_of_lt (a := key.length * 2 ^ 8) (by omega)]
    · rw [if_neg c, if_neg c, M.iv i hi]
  generalize (p.iv.set 0 _) = h at hx hRv
  have hB := bsize_pos M.hW
  refine ⟨h, hRv, ?_⟩
  by_cases c : key = []
  · subst c
    rw [if_neg (by simp)] at hx
    obtain rfl := Option.some.inj hx
    rw [if_pos rfl]
    exact ⟨⟨rfl, rfl, by simp, rfl, by simp, by simp⟩, rfl, rfl, hn.1⟩
  · have hpos : 0 < key.length := List.length_pos_iff.2 c
    rw [if_pos hpos] at hx
    obtain rfl := Option.some.inj hx
    rw [if_neg c]
    obtain ⟨k1, k2, k3, k4⟩ := update_b p M.hW key
      { b := List.replicate (bsize W) 0, h := h, t := 0, filled := 0, outlen := outlen,
        keylen := key.length, finalized := false } (by simp only; omega) (by simp)
    obtain ⟨-, u2, u3⟩ := update_spec p M.hW key
      { b := List.replicate (bsize W) 0, h := h, t := 0, filled := 0, outlen := outlen,
        keylen := key.length, finalized := false } ((h, 0), []) ⟨rfl, rfl, by simp, rfl, by simp, by simp⟩
    have kb : key.length ≤ bsize W := by omega
    refine ⟨⟨k3, k4, ?_, ?_, ?_, ?_⟩, u2, u3, hn.1⟩
    · simp only [k1]; simp; omega
    · simp; omega
    · simp; omega
    · simp only [k1]
      rw [List.take_of_length_le (by simp; omega)]
      simp

/-- C16: for every admissible output length and key (both within the sizes the initialiser accepts) and
every sequence of `Update` calls, the digest is RFC 7693 BLAKE2 of the concatenated data. -/
theorem blake2_digest {W : Nat} {p : Prm W} {P : Spec.Blake2.Variant W} (M : Match p P)
    (hk : p.maxKey ≤ bsize W) (ho : p.maxOut < 256) (hkk : p.maxKey < 256) (hout : p.maxOut ≤ 8 * (W / 8))
    (outlen : Nat) (key : List Byte) (x : Ctx W) (hx : init p outlen key = some x)
    (ms : List (List Byte)) (hlen : bsize W + ms.flatten.length < 2 ^ 64) (t : Nat) :
    (final p (ms.foldl (update p) x) t).1 = fitTo (Spec.Blake2.hash P outlen key ms.flatten) t := by
  obtain ⟨h, hRv, hRel, hol, hfin, hmax⟩ := init_spec M hk ho hkk outlen key x hx
  have hB := bsize_pos M.hW
  have hkl : key.length ≤ bsize W := by
    unfold init at hx
    split at hx
    · exact absurd hx (by simp)
    · omega
  obtain ⟨r1, o1, f1⟩ := updates_spec p M.hW ms x _ hRel
  rw [hol] at o1
  rw [hfin] at f1
  set data := Spec.Blake2.input (16 * (W / 8)) key ms.flatten with hdata
  have hdl : data.length < 2 ^ 64 := by
    rw [hdata]
    unfold Spec.Blake2.input
    by_cases c : key = []
    · rw [if_pos c]; simp only [List.nil_append]; omega
    · rw [if_neg c]
      unfold bsize at hkl hlen
      rw [List.length_append, List.length_append, List.length_replicate]; omega
  have efold : ms.flatten.foldl (Spec.lazyPush (stepF p) (bsize W))
      ((h, 0), if key = [] then [] else key ++ List.replicate (bsize W - key.length) 0) =
      ((Spec.initBlocks (bsize W) data).foldl (stepF p) (h, 0), Spec.lastBlock (bsize W) data) := by
    rw [← Spec.foldl_lazyPush (stepF p) (bsize W) hB, hdata]
    unfold Spec.Blake2.input
    rw [List.foldl_append]
    congr 1
    rw [lazy_short, List.nil_append]; rfl
    by_cases c : key = []
    · rw [if_pos c]; simp
    · rw [if_neg c]
      unfold bsize at hkl ⊢
      rw [List.length_append, List.length_replicate]; simp; omega
  rw [efold] at r1
  generalize ms.foldl (update p) x = y at r1 o1 f1
  have hnb : (Spec.initBlocks (bsize W) data).length = (data.length - 1) / bsize W := by
    simp [Spec.initBlocks]
  have hle : (data.length - 1) / bsize W * bsize W ≤ data.length - 1 := Nat.div_mul_le_self _ _
  obtain ⟨c1, c2⟩ := fold_counter p M (Spec.initBlocks (bsize W) data) h _ 0 hRv
    (by rw [hnb, Nat.zero_add]; omega)
  rw [Nat.zero_mul, Nat.zero_add, hnb] at c2
  rw [Nat.zero_mul, show BitVec.ofNat 64 0 = (0 : BitVec 64) from rfl] at c1
  have ct : y.t + BitVec.ofNat 64 y.filled = BitVec.ofNat 64 data.length := by
    rw [r1.ht, r1.fl]
    simp only
    rw [show (0 : BitVec 64) = BitVec.ofNat 64 0 from rfl, c2, ← BitVec.ofNat_add]
    congr 1
    simp only [Spec.lastBlock, List.length_drop]
    omega
  have hbuf : zeroLoop (bsize W - y.filled) y.filled y.b =
      Spec.lastBlock (bsize W) data ++ List.replicate (bsize W - (Spec.lastBlock (bsize W) data).length) 0 := by
    rw [zeroLoop_eq _ _ _ (by rw [r1.bl]; have := r1.fl; have := r1.le; omega), r1.bf, r1.fl]
  have hfinal := compress_spec M c1 (Spec.lastBlock (bsize W) data ++
    List.replicate (bsize W - (Spec.lastBlock (bsize W) data).length) 0) (BitVec.ofNat 64 data.length) true
  rw [BitVec.toNat_ofNat, Nat.mod_eq_of_lt hdl] at hfinal
  unfold final finalize
  rw [f1]
  simp only [Bool.false_eq_true, if_false]
  rw [ct, hbuf, r1.hh]
  simp only
  rw [o1]
  unfold fitTo
  apply List.map_congr_left
  intro i _
  unfold Spec.Blake2.hash
  by_cases c : i < outlen
  · rw [if_pos c, store_all M.hW _ _ _ _ hfinal i (by omega), List.getD_eq_getElem?_getD, List.getElem?_map,
      List.getElem?_range c]
    simp only [Option.map_some, Option.getD_some]
    rfl
    have := r1.le
    simp only at this
    rw [List.length_append, List.length_replicate]; omega
  · rw [if_neg c, List.getD_eq_getElem?_getD, List.getElem?_eq_none (by simp; omega)]; rfl

/-- C16 for BLAKE2b: whenever the initialiser accepts the output length (1..64) and the key (at most 64
bytes, empty for the unkeyed hash), then after any sequence of updates the digest is RFC 7693 BLAKE2b. -/
theorem C16_blake2b (outlen : Nat) (key : List Byte) (x : Ctx 64) (hx : init prmB outlen key = some x)
    (ms : List (List Byte)) (hlen : 128 + ms.flatten.length < 2 ^ 64) (t : Nat) :
    (final prmB (ms.foldl (update prmB) x) t).1 =
      fitTo (Spec.Blake2.hash Spec.Blake2.blake2b outlen key ms.flatten) t :=
  blake2_digest matchB (by decide) (by decide) (by decide) (by decide) outlen key x hx ms hlen t

/-- C16 for BLAKE2s (output 1..32 bytes, key at most 32 bytes). -/
theorem C16_blake2s (outlen : Nat) (key : List Byte) (x : Ctx 32) (hx : init prmS outlen key = some x)
    (ms : List (List Byte)) (hlen : 64 + ms.flatten.length < 2 ^ 64) (t : Nat) :
    (final prmS (ms.foldl (update prmS) x) t).1 =
      fitTo (Spec.Blake2.hash Spec.Blake2.blake2s outlen key ms.flatten) t :=
  blake2_digest matchS (by decide) (by decide) (by decide) (by decide) outlen key x hx ms hlen t

/-- C16: the initialisers accept exactly the admissible sizes. -/
theorem C16_init_accepts (outlen : Nat) (key : List Byte) :
    ((init prmB outlen key).isSome ↔ 1 ≤ outlen ∧ outlen ≤ 64 ∧ key.length ≤ 64) ∧
    ((init prmS outlen key).isSome ↔ 1 ≤ outlen ∧ outlen ≤ 32 ∧ key.length ≤ 32) := by
  constructor
  · unfold init
    split
    · rename_i h; simp [prmB] at h ⊢; omega
    · rename_i h; simp [prmB] at h; split <;> simp <;> omega
  · unfold init
    split
    · rename_i h; simp [prmS] at h ⊢; omega
    · rename_i h; simp [prmS] at h; split <;> simp <;> omega

/-- C14 for BLAKE2: further finalisations return the same digest. -/
theorem C14_blake2 {W : Nat} (p : Prm W) (x : Ctx W) (ts : List Nat) (t : Nat) :
    (final p (ts.foldl (fun s u => (final p s u).2) x) t).1 = (final p x t).1 := by
  have hidem : ∀ s : Ctx W, finalize p (finalize p s) = finalize p s := by
    intro s
    have : (finalize p s).finalized = true := by
      unfold finalize
      split
      · assumption
      · rfl
    generalize finalize p s = y at this ⊢
    unfold finalize
    rw [if_pos this]
  have gen : ∀ (ts : List Nat) s, finalize p (ts.foldl (fun s u => (final p s u).2) s) = finalize p s := by
    intro ts
    induction ts with
    | nil => intro s; rfl
    | cons u ts ih => intro s; rw [List.foldl_cons, ih]; exact hidem s
  have hm : ∀ a b : Ctx W, finalize p a = finalize p b → (final p a t).1 = (final p b t).1 := by
    intro a b h; unfold final; rw [h]
  exact hm _ _ (gen ts x)

/-- A non-trivial instance of the hypotheses: an accepted initialisation and two updates. -/
example : ∃ x, init prmB 64 [] = some x ∧ 128 + ([[0x61], [0x62, 0x63]] : List (List Byte)).flatten.length < 2 ^ 64 :=
  ⟨_, rfl, by decide⟩

/-- A keyed, non-trivial instance of the hypotheses. -/
example : (init prmS 32 [1, 2, 3]).isSome = true := by decide +kernel

end Props
