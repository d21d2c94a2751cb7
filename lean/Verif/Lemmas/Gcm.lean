import Verif.Lemmas.Aead
import Verif.Lemmas.Ghash

namespace Gcm
open Spec Aead Ghash

theorem put32_eq (v : BitVec 32) : put32 v = beN 4 v.toNat := by
  unfold put32 beN
  simp only [show List.range 4 = [0, 1, 2, 3] from rfl, List.map_cons, List.map_nil, Nat.sub_zero, Nat.reduceSub, Nat.pow_zero, Nat.div_one, Nat.pow_one]
  have h : ∀ k, ((v >>> k).setWidth 8 : BitVec 8) = BitVec.ofNat 8 (v.toNat / 2 ^ k) := by
    intro k
    apply BitVec.eq_of_toNat_eq
    rw [BitVec.toNat_setWidth, BitVec.toNat_ushiftRight, Nat.shiftRight_eq_div_pow, BitVec.toNat_ofNat]
  have h0 : (v.setWidth 8 : BitVec 8) = BitVec.ofNat 8 v.toNat := by
    apply BitVec.eq_of_toNat_eq
    rw [BitVec.toNat_setWidth, BitVec.toNat_ofNat]
  rw [h, h, h, h0]
  rfl

theorem put64_eq (v : BitVec 64) : put64 v = beN 8 v.toNat := by
  unfold put64 beN
  simp only [show List.range 8 = [0, 1, 2, 3, 4, 5, 6, 7] from rfl, List.map_cons, List.map_nil, Nat.sub_zero, Nat.reduceSub, Nat.pow_zero, Nat.div_one, Nat.pow_one]
  have h : ∀ k, ((v >>> k).setWidth 8 : BitVec 8) = BitVec.ofNat 8 (v.toNat / 2 ^ k) := by
    intro k
    apply BitVec.eq_of_toNat_eq
    rw [BitVec.toNat_setWidth, BitVec.toNat_ushiftRight, Nat.shiftRight_eq_div_pow, BitVec.toNat_ofNat]
  have h0 : (v.setWidth 8 : BitVec 8) = BitVec.ofNat 8 v.toNat := by
    apply BitVec.eq_of_toNat_eq
    rw [BitVec.toNat_setWidth, BitVec.toNat_ofNat]
  rw [h, h, h, h, h, h, h, h0]
  rfl

theorem get_put32 (iv : List Byte) (hiv : iv.length = 12) (v : BitVec 32) : get32 (iv ++ put32 v) = v := by
  unfold get32
  have hg : ∀ k, (iv ++ put32 v).getD (12 + k) 0 = (put32 v).getD k 0 := by
    intro k
    rw [List.getD_eq_getElem?_getD, List.getElem?_append_right (by omega), hiv, List.getD_eq_getElem?_getD]
    congr 2
    omega
  have h0 := hg 0
  have h1 := hg 1
  have h2 := hg 2
  have h3 := hg 3
  simp only [Nat.add_zero, Nat.reduceAdd] at h0 h1 h2 h3
  rw [h0, h1, h2, h3]
  unfold put32
  simp only [List.getD_cons_zero, List.getD_cons_succ]
  apply BitVec.eq_of_getLsbD_eq
  intro i hi
  simp only [BitVec.getLsbD_append, BitVec.getLsbD_setWidth, BitVec.getLsbD_ushiftRight]
  by_cases c1 : i < 8
  · simp [c1]
  · by_cases c2 : i - 8 < 8
    · simp [c1, c2]; rw [show 8 + (i - 8) = i by omega]
    · by_cases c3 : i - 8 - 8 < 8
      · simp [c1, c2, c3]; rw [show 16 + (i - 8 - 8) = i by omega]
      · have : i - 8 - 8 - 8 < 8 := by omega
        simp [c1, c2, c3, this]; rw [show 24 + (i - 8 - 8 - 8) = i by omega]

/-- The counter block number `x`. -/
def ctr (iv : List Byte) (x : Nat) : List Byte := iv ++ put32 (BitVec.ofNat 32 x)

theorem incr_ctr (iv : List Byte) (hiv : iv.length = 12) (x : Nat) : incr (ctr iv x) = ctr iv (x + 1) := by
  unfold incr ctr
  rw [get_put32 iv hiv, List.take_left' hiv, BitVec.ofNat_add]
  rfl

theorem beN_mod (x : Nat) : beN 4 (x % 2 ^ 32) = beN 4 x := by
  unfold beN
  apply List.map_congr_left
  intro i hi
  have hi := List.mem_range.mp hi
  apply BitVec.eq_of_toNat_eq
  rw [BitVec.toNat_ofNat, BitVec.toNat_ofNat]
  have : i = 0 ∨ i = 1 ∨ i = 2 ∨ i = 3 := by omega
  rcases this with h | h | h | h <;> subst h <;> simp <;> omega

theorem ctr_eq (iv : List Byte) (x : Nat) : ctr iv x = iv ++ beN 4 x := by
  unfold ctr
  rw [put32_eq, BitVec.toNat_ofNat, beN_mod]

section
variable (m : Mem) (inp out len : Nat) (ks : Nat → Byte)

/-- The inner loop of the encryption. -/
theorem encBlock_spec (hs : Streamable inp out len) (b : Nat) (hb : 16 * b < len) (X : List Byte) (hX : X.length = 16)
    (hk : ∀ i, i < 16 → X.getD i 0 = ks (i + 16 * b)) :
    encBlock len inp out (16 * b) (X, xored m inp out ks (16 * b)) =
      (gather (fun k => m (inp + k) ^^^ ks k) len (16 * b), xored m inp out ks (min len (16 * b + 16))) := by
  have key : ∀ n, n ≤ 16 → ∀ r, r = (List.range n).foldl (fun (s : List Byte × Mem) i =>
      if i + 16 * b < len then
        let b' := s.2 (inp + (i + 16 * b)) ^^^ s.1.getD i 0
        (s.1.set i b', Spec.poke s.2 (out + (i + 16 * b)) b')
      else (s.1.set i 0, s.2)) (X, xored m inp out ks (16 * b)) →
      r.1.length = 16 ∧ (∀ i, i < 16 → r.1.getD i 0 = if i < n then (gather (fun k => m (inp + k) ^^^ ks k) len (16 * b)).getD i 0 else X.getD i 0) ∧
        r.2 = xored m inp out ks (min len (16 * b + n)) := by
    intro n
    induction n with
    | zero =>
      intro _ r hr
      subst hr
      refine ⟨hX, fun i _ => by rw [if_neg (by omega)]; rfl, ?_⟩
      rw [Nat.add_zero, Nat.min_eq_right (by omega)]
      rfl
    | succ n ih =>
      intro hn r hr
      rw [List.range_succ, List.foldl_append, List.foldl_cons, List.foldl_nil] at hr
      obtain ⟨q, hq⟩ : ∃ q, q = (List.range n).foldl (fun (s : List Byte × Mem) i =>
        if i + 16 * b < len then
          let b' := s.2 (inp + (i + 16 * b)) ^^^ s.1.getD i 0
          (s.1.set i b', Spec.poke s.2 (out + (i + 16 * b)) b')
        else (s.1.set i 0, s.2)) (X, xored m inp out ks (16 * b)) := ⟨_, rfl⟩
      obtain ⟨q1, q2, q3⟩ := ih (by omega) q hq
      rw [← hq] at hr
      have hset : ∀ (v : Byte), v = (gather (fun k => m (inp + k) ^^^ ks k) len (16 * b)).getD n 0 →
          ∀ i, i < 16 → (q.1.set n v).getD i 0 = if i < n + 1 then (gather (fun k => m (inp + k) ^^^ ks k) len (16 * b)).getD i 0 else X.getD i 0 := by
        intro v hv i hi
        rw [List.getD_eq_getElem?_getD, List.getElem?_set]
        by_cases h : n = i
        · subst h
          rw [if_pos rfl, if_pos (by omega), if_pos (by omega), Option.getD_some, hv]
        · rw [if_neg h, ← List.getD_eq_getElem?_getD, q2 i hi]
          by_cases h2 : i < n
          · rw [if_pos h2, if_pos (by omega)]
          · rw [if_neg h2, if_neg (by omega)]
      have hqn := q2 n (by omega)
      rw [if_neg (by omega)] at hqn
      by_cases hc : n + 16 * b < len
      · rw [if_pos hc] at hr
        simp only [q3, hqn, hk n (by omega)] at hr
        rw [Nat.min_eq_right (by omega), show 16 * b + n = n + 16 * b by omega] at hr
        subst hr
        refine ⟨by simp [q1], ?_, ?_⟩
        · refine hset _ ?_
          rw [xored_read hs m ks _ _ (le_refl _) hc, getD_gather _ _ _ _ (by omega), if_pos hc]
        · simp only []
          rw [xored_step hs m ks _ hc]
          congr 1
          omega
      · rw [if_neg hc] at hr
        subst hr
        refine ⟨by simp [q1], ?_, ?_⟩
        · refine hset _ ?_
          rw [getD_gather _ _ _ _ (by omega), if_neg hc]
        · simp only [q3]
          congr 1
          omega
  obtain ⟨k1, k2, k3⟩ := key 16 (le_refl _) _ rfl
  unfold encBlock
  apply Prod.ext
  · apply list_ext_getD
    · rw [k1, gather_length]
    · intro i hi
      rw [k1] at hi
      rw [k2 i hi, if_pos hi]
  · exact k3

theorem decBlock_spec (hs : Streamable inp out len) (b : Nat) (hb : 16 * b < len) (X : List Byte)
    (hk : ∀ i, i < 16 → X.getD i 0 = ks (i + 16 * b)) :
    decBlock len inp out (16 * b) X (xored m inp out ks (16 * b)) = xored m inp out ks (min len (16 * b + 16)) := by
  have key : ∀ n, n ≤ min 16 (len - 16 * b) → (List.range n).foldl (fun (mem : Mem) i => Spec.poke mem (out + (i + 16 * b))
      (mem (inp + (i + 16 * b)) ^^^ X.getD i 0)) (xored m inp out ks (16 * b)) = xored m inp out ks (n + 16 * b) := by
    intro n
    induction n with
    | zero => intro _; rw [Nat.zero_add]; rfl
    | succ n ih =>
      intro hn
      rw [List.range_succ, List.foldl_append, ih (by omega), List.foldl_cons, List.foldl_nil, hk n (by omega),
        xored_step hs m ks _ (by omega)]
      congr 1
      omega
  unfold decBlock
  rw [key _ (le_refl _)]
  congr 1
  omega
end

/-- Byte `k` of the GCM key stream. -/
def gks (g : Ctx) (iv : List Byte) (k : Nat) : Byte := (g.enc (ctr iv (k / 16 + 2))).getD (k % 16) 0

theorem gks_block (g : Ctx) (iv : List Byte) (b i : Nat) (hi : i < 16) : (g.enc (ctr iv (b + 2))).getD i 0 = gks g iv (i + 16 * b) := by
  unfold gks
  rw [show (i + 16 * b) / 16 = b by omega, show (i + 16 * b) % 16 = i by omega]

theorem encLoop_spec (g : Ctx) (hE : ∀ x, x.length = 16 → (g.enc x).length = 16) (m : Mem) (iv : List Byte) (hiv : iv.length = 12) (len inp out : Nat)
    (hs : Streamable inp out len) : ∀ (d b : Nat) (S : List Byte), b + d = (len + 15) / 16 →
    encLoop g len inp out (16 * b) (ctr iv (b + 1)) S (xored m inp out (gks g iv) (min len (16 * b))) =
      (absorb (fun S X => hash1block S g.H X) (fun k => m (inp + k) ^^^ gks g iv k) len (16 * b) S, xored m inp out (gks g iv) len) := by
  intro d
  induction d with
  | zero =>
    intro b S h
    rw [encLoop, absorb, if_neg (by omega), if_neg (by omega), Nat.min_eq_left (by omega)]
  | succ d ih =>
    intro b S h
    have hb : 16 * b < len := by omega
    rw [encLoop, absorb, if_pos hb, if_pos hb, Nat.min_eq_right (by omega)]
    simp only [incr_ctr iv hiv]
    rw [encBlock_spec m inp out len (gks g iv) hs b hb _ (hE _ (by simp [ctr, hiv, put32])) (fun i hi => gks_block g iv b i hi)]
    simp only []
    rw [show 16 * b + 16 = 16 * (b + 1) by ring]
    exact ih (b + 1) _ (by omega)

theorem decLoop_spec (g : Ctx) (m : Mem) (iv : List Byte) (hiv : iv.length = 12) (len inp out : Nat)
    (hs : Streamable inp out len) : ∀ (d b : Nat), b + d = (len + 15) / 16 →
    decLoop g len inp out (16 * b) (ctr iv (b + 1)) (xored m inp out (gks g iv) (min len (16 * b))) = xored m inp out (gks g iv) len := by
  intro d
  induction d with
  | zero =>
    intro b h
    rw [decLoop, if_neg (by omega), Nat.min_eq_left (by omega)]
  | succ d ih =>
    intro b h
    have hb : 16 * b < len := by omega
    rw [decLoop, if_pos hb, Nat.min_eq_right (by omega)]
    simp only [incr_ctr iv hiv]
    rw [decBlock_spec m inp out len (gks g iv) hs b hb _ (fun i hi => gks_block g iv b i hi)]
    rw [show 16 * b + 16 = 16 * (b + 1) by ring]
    exact ih (b + 1) (by omega)

theorem ctr_one (iv : List Byte) : iv ++ put32 1#32 = ctr iv (0 + 1) := rfl

/-! The two functions. -/

theorem hash1block_mul {mul : List Byte → List Byte → List Byte} (hm : ∀ a b, a.length = 16 → b.length = 16 → IsGfProduct a b (mul a b))
    (Y H X : List Byte) (hY : Y.length = 16) (hH : H.length = 16) (hX : X.length = 16) : hash1block Y H X = mul (xorBytes Y X) H :=
  product_unique (hash1block_spec Y H X hY hX) (hm _ _ (by simp [xorBytes, hY, hX]) hH)

theorem foldl_hash {mul : List Byte → List Byte → List Byte} (hm : ∀ a b, a.length = 16 → b.length = 16 → IsGfProduct a b (mul a b))
    (H : List Byte) (hH : H.length = 16) (l : List (List Byte)) (hl : ∀ x ∈ l, x.length = 16) : ∀ (S : List Byte), S.length = 16 →
    l.foldl (fun S X => hash1block S H X) S = l.foldl (fun Y X => mul (xorBytes Y X) H) S ∧ (l.foldl (fun S X => hash1block S H X) S).length = 16 := by
  induction l with
  | nil => intro S hS; exact ⟨rfl, hS⟩
  | cons x l ih =>
    intro S hS
    have hx := hl x (by simp)
    rw [List.foldl_cons, List.foldl_cons]
    have := ih (fun y hy => hl y (by simp [hy])) (hash1block S H x) rfl
    rw [hash1block_mul hm S H x hS hH hx] at this ⊢
    exact this

/-- The accumulator: GHASH of the padded strings. -/
theorem ghash_spec {mul : List Byte → List Byte → List Byte} (hm : ∀ a b, a.length = 16 → b.length = 16 → IsGfProduct a b (mul a b))
    (H : List Byte) (hH : H.length = 16) (A C : List Byte) (hA : A.length < 2 ^ 61) (hC : C.length < 2 ^ 61) (src : Nat → Byte)
    (hsrc : ∀ i, i < C.length → src i = C.getD i 0) :
    hash1block (absorb (fun S X => hash1block S H X) src C.length 0
      (absorb (fun S X => hash1block S H X) (fun i => A.getD i 0) A.length 0 (List.replicate 16 0))) H
      (put64 (BitVec.ofNat 64 (A.length * 8)) ++ put64 (BitVec.ofNat 64 (C.length * 8))) =
    ghash mul H (zeroFill 16 A ++ zeroFill 16 C ++ beN 8 (8 * A.length) ++ beN 8 (8 * C.length)) := by
  rw [absorb_eq _ _ A (fun _ _ => rfl), absorb_eq _ _ C hsrc, put64_eq, put64_eq, BitVec.toNat_ofNat, BitVec.toNat_ofNat,
    Nat.mod_eq_of_lt (by omega), Nat.mod_eq_of_lt (by omega), Nat.mul_comm _ 8, Nat.mul_comm _ 8]
  unfold ghash
  rw [List.append_assoc, List.append_assoc, blocks_zeroFill_append, blocks_zeroFill_append,
    blocks_single (b := beN 8 (8 * A.length) ++ beN 8 (8 * C.length)) (by omega) (by simp [beN])]
  rw [← List.append_assoc, List.foldl_append, List.foldl_append]
  have h1 : ∀ x ∈ blocks 16 (zeroFill 16 A), x.length = 16 := fun x hx => mem_blocks_length hx
  have h2 : ∀ x ∈ blocks 16 (zeroFill 16 C), x.length = 16 := fun x hx => mem_blocks_length hx
  obtain ⟨e1, l1⟩ := foldl_hash hm H hH _ h1 (List.replicate 16 0) (by simp)
  rw [← e1]
  obtain ⟨e2, l2⟩ := foldl_hash hm H hH _ h2 _ l1
  rw [← e2, List.foldl_cons, List.foldl_nil]
  exact hash1block_mul hm _ H _ l2 hH (by simp [beN])

theorem encrypt_spec {mul : List Byte → List Byte → List Byte} (hm : ∀ a b, a.length = 16 → b.length = 16 → IsGfProduct a b (mul a b))
    (E : List Byte → List Byte) (hE : ∀ x, x.length = 16 → (E x).length = 16) (iv A : List Byte) (len inp out tlen : Nat) (m : Mem)
    (hiv : iv.length = 12) (hA : A.length < 2 ^ 61) (hlen : len ≤ 2 ^ 36 - 32) (hs : Streamable inp out len) :
    encrypt ⟨E (List.replicate 16 0), E⟩ iv A len inp out tlen m =
      some (storeAt m out (gcmCipher E iv (bytesAt m inp len)), fitTo (gcmTag mul E iv A (gcmCipher E iv (bytesAt m inp len))) tlen) := by
  have hEi : ∀ i, ((fun i => E (iv ++ beN 4 (i + 2))) i).length = 16 := fun i => hE _ (by simp [hiv, beN])
  unfold encrypt
  rw [if_neg (by omega)]
  simp only []
  have hl := encLoop_spec ⟨E (List.replicate 16 0), E⟩ hE m iv hiv len inp out hs ((len + 15) / 16) 0
    (absorb (fun S X => hash1block S (E (List.replicate 16 0)) X) (fun i => A.getD i 0) A.length 0 (List.replicate 16 0)) (by omega)
  rw [Nat.mul_zero, Nat.min_eq_right (by omega), xored_zero] at hl
  rw [ctr_one, hl]
  simp only []
  have hk : gks ⟨E (List.replicate 16 0), E⟩ iv = fun k => ((fun i => E (iv ++ beN 4 (i + 2))) (k / 16)).getD (k % 16) 0 := by
    funext k
    unfold gks
    rw [ctr_eq]
  have hCl : (gcmCipher E iv (bytesAt m inp len)).length = len := by
    unfold gcmCipher
    rw [length_streamXor 16 (by omega) _ hEi, length_bytesAt]
  have hg := ghash_spec hm (E (List.replicate 16 0)) (hE _ (by simp)) A (gcmCipher E iv (bytesAt m inp len)) hA (by rw [hCl]; omega)
    (fun k => m (inp + k) ^^^ gks ⟨E (List.replicate 16 0), E⟩ iv k) (by
      intro i hi
      rw [hCl] at hi
      unfold gcmCipher
      rw [getD_streamXor 16 (by omega) _ hEi _ i (by rw [length_bytesAt]; exact hi), getD_bytesAt _ _ _ _ hi, hk])
  rw [hCl] at hg
  rw [hg, hk, xored_eq_store m inp out len 16 (by omega) _ hEi]
  congr 2
  rw [fit_eq, ctr_eq]
  · unfold gcmTag xorBytes
    rw [hCl]
  · rw [List.length_zipWith, hE _ (by simp [ctr, hiv, put32])]
    unfold ghash
    have := (foldl_hash hm (E (List.replicate 16 0)) (hE _ (by simp)) (blocks 16 (zeroFill 16 A ++ zeroFill 16 (gcmCipher E iv (bytesAt m inp len)) ++
      beN 8 (8 * A.length) ++ beN 8 (8 * len))) (fun x hx => mem_blocks_length hx) (List.replicate 16 0) (by simp))
    rw [← this.1, this.2]
    rfl

theorem decrypt_spec {mul : List Byte → List Byte → List Byte} (hm : ∀ a b, a.length = 16 → b.length = 16 → IsGfProduct a b (mul a b))
    (E : List Byte → List Byte) (hE : ∀ x, x.length = 16 → (E x).length = 16) (iv A T : List Byte) (len inp out : Nat) (m : Mem)
    (hiv : iv.length = 12) (hA : A.length < 2 ^ 61) (hlen : len ≤ 2 ^ 36 - 32) (hs : Streamable inp out len) :
    decrypt ⟨E (List.replicate 16 0), E⟩ iv A len inp out T m =
      if T = fitTo (gcmTag mul E iv A (bytesAt m inp len)) T.length then (true, storeAt m out (gcmCipher E iv (bytesAt m inp len)))
      else (false, m) := by
  have hEi : ∀ i, ((fun i => E (iv ++ beN 4 (i + 2))) i).length = 16 := fun i => hE _ (by simp [hiv, beN])
  unfold decrypt
  rw [if_neg (by omega)]
  simp only []
  have hg := ghash_spec hm (E (List.replicate 16 0)) (hE _ (by simp)) A (bytesAt m inp len) hA (by rw [length_bytesAt]; omega)
    (fun k => m (inp + k)) (by
      intro i hi
      rw [length_bytesAt] at hi
      rw [getD_bytesAt _ _ _ _ hi])
  rw [length_bytesAt] at hg
  rw [hg, ctr_one]
  have hgl : (ghash mul (E (List.replicate 16 0)) (zeroFill 16 A ++ zeroFill 16 (bytesAt m inp len) ++ beN 8 (8 * A.length) ++ beN 8 (8 * len))).length = 16 := by
    unfold ghash
    have := (foldl_hash hm (E (List.replicate 16 0)) (hE _ (by simp)) (blocks 16 (zeroFill 16 A ++ zeroFill 16 (bytesAt m inp len) ++
      beN 8 (8 * A.length) ++ beN 8 (8 * len))) (fun x hx => mem_blocks_length hx) (List.replicate 16 0) (by simp))
    rw [← this.1, this.2]
  have hX : (List.zipWith (· ^^^ ·) (E (ctr iv (0 + 1))) (ghash mul (E (List.replicate 16 0)) (zeroFill 16 A ++ zeroFill 16 (bytesAt m inp len) ++
      beN 8 (8 * A.length) ++ beN 8 (8 * len)))).length = 16 := by
    rw [List.length_zipWith, hE _ (by simp [ctr, hiv, put32]), hgl]
    rfl
  have hc := tag_cmp T _ hX
  have ht : List.zipWith (· ^^^ ·) (E (ctr iv (0 + 1))) (ghash mul (E (List.replicate 16 0)) (zeroFill 16 A ++ zeroFill 16 (bytesAt m inp len) ++
      beN 8 (8 * A.length) ++ beN 8 (8 * len))) = gcmTag mul E iv A (bytesAt m inp len) := by
    unfold gcmTag xorBytes
    rw [length_bytesAt, ctr_eq]
  rw [ht] at hc ⊢
  have hdl := decLoop_spec ⟨E (List.replicate 16 0), E⟩ m iv hiv len inp out hs ((len + 15) / 16) 0 (by omega)
  rw [Nat.mul_zero, Nat.min_eq_right (by omega), xored_zero] at hdl
  have hk : gks ⟨E (List.replicate 16 0), E⟩ iv = fun k => ((fun i => E (iv ++ beN 4 (i + 2))) (k / 16)).getD (k % 16) 0 := by
    funext k
    unfold gks
    rw [ctr_eq]
  rw [hdl, hk, xored_eq_store m inp out len 16 (by omega) _ hEi]
  by_cases h : T = fitTo (gcmTag mul E iv A (bytesAt m inp len)) T.length
  · rw [if_pos h, if_neg (fun (e : _ ≠ _) => e (hc.mpr h))]
    rfl
  · rw [if_neg h, if_pos (fun e => h (hc.mp e))]

end Gcm
