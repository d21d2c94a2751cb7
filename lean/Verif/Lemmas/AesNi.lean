import Verif.Model.AesNi
import Verif.Lemmas.AesCipher

namespace Aes
open Spec Spec.Isa

theorem length_ldv (p : List Byte) (o : Nat) : (ldv p o).length = 16 := by simp [ldv]

theorem xor_ldv (s w : List Byte) (o : Nat) (h : s.length = 16) : xorBytes s (ldv w o) = addRoundKey s w o := by
  obtain ⟨a0, a1, a2, a3, a4, a5, a6, a7, a8, a9, a10, a11, a12, a13, a14, a15, rfl⟩ := list16 s h
  simp [xorBytes, ldv, addRoundKey, range16]

theorem ldv_zero (s : List Byte) (h : s.length = 16) : ldv s 0 = s := by
  unfold ldv
  simp only [Nat.zero_add]
  exact copy16 s h

theorem isb_sb (x : Byte) : aesInvSub (sb x) = x := all_bytes (P := fun x => aesInvSub (sb x) = x) (by decide +kernel) x

theorem isb_spec (x : Byte) : ∃ y, x = sb y ∧ aesInvSub x = y := by
  obtain ⟨i, hi, h⟩ := table_surj x
  refine ⟨BitVec.ofNat 8 i, ?_, ?_⟩
  · rw [← h, sb]
    simp [Nat.mod_eq_of_lt hi]
  · rw [show x = sb (BitVec.ofNat 8 i) by rw [← h, sb]; simp [Nat.mod_eq_of_lt hi], isb_sb]

theorem invSub_spec (s : List Byte) (h : s.length = 16) : invSubBytes s = s.map aesInvSub := by
  obtain ⟨t, ht, hs⟩ : ∃ t : List Byte, t.length = 16 ∧ s = t.map sb := by
    refine ⟨s.map aesInvSub, by simp [h], ?_⟩
    rw [List.map_map]
    conv_lhs => rw [← List.map_id s]
    refine List.map_congr_left fun x _ => ?_
    obtain ⟨y, h1, h2⟩ := isb_spec x
    simp only [Function.comp, id]
    rw [h2, ← h1]
  rw [hs, ← subBytes_map t ht, invSub_sub t ht, subBytes_map t ht, List.map_map]
  conv_lhs => rw [← List.map_id t]
  exact List.map_congr_left fun x _ => (isb_sb x).symm

theorem invShift_spec (s : List Byte) (h : s.length = 16) : invShiftRows s = aesInvShiftRows s := by
  obtain ⟨a0, a1, a2, a3, a4, a5, a6, a7, a8, a9, a10, a11, a12, a13, a14, a15, rfl⟩ := list16 s h
  simp [invShiftRows, put, at', aesInvShiftRows, aesState, aesAt, range16]

theorem mulE (x : Byte) : gf8Mul 0x0e x = mE x := all_bytes (P := fun x => gf8Mul 0x0e x = mE x) (by decide +kernel) x
theorem mulB (x : Byte) : gf8Mul 0x0b x = mB x := all_bytes (P := fun x => gf8Mul 0x0b x = mB x) (by decide +kernel) x
theorem mulD (x : Byte) : gf8Mul 0x0d x = mD x := all_bytes (P := fun x => gf8Mul 0x0d x = mD x) (by decide +kernel) x
theorem mul9 (x : Byte) : gf8Mul 0x09 x = m9 x := all_bytes (P := fun x => gf8Mul 0x09 x = m9 x) (by decide +kernel) x

theorem invMix_spec (s : List Byte) (h : s.length = 16) : invMixColumns s = aesInvMixColumns s := by
  obtain ⟨a0, a1, a2, a3, a4, a5, a6, a7, a8, a9, a10, a11, a12, a13, a14, a15, rfl⟩ := list16 s h
  rw [mix_bwd]
  simp only [aesInvMixColumns, aesState, aesAt, range16, mulE, mulB, mulD, mul9, col]
  rfl

theorem length_invSub (s : List Byte) : (invSubBytes s).length = 16 := by simp [invSubBytes, range4, bytes]
theorem length_invShift (s : List Byte) (h : s.length = 16) : (invShiftRows s).length = 16 := by
  simp [invShiftRows, put, h]
theorem length_invMix (s : List Byte) : (invMixColumns s).length = 16 := by simp [invMixColumns, mix, range4]

theorem mE_add (x y : Byte) : mE (x ^^^ y) = mE x ^^^ mE y := by unfold mE; simp only [xt_add]; ac_rfl
theorem mB_add (x y : Byte) : mB (x ^^^ y) = mB x ^^^ mB y := by unfold mB; simp only [xt_add]; ac_rfl
theorem mD_add (x y : Byte) : mD (x ^^^ y) = mD x ^^^ mD y := by unfold mD; simp only [xt_add]; ac_rfl
theorem m9_add (x y : Byte) : m9 (x ^^^ y) = m9 x ^^^ m9 y := by unfold m9; simp only [xt_add]; ac_rfl

theorem col_add (a b c d a' b' c' d' : Byte) : col (a ^^^ a') (b ^^^ b') (c ^^^ c') (d ^^^ d') = col a b c d ^^^ col a' b' c' d' := by
  unfold col
  rw [mE_add, mB_add, mD_add, m9_add]; ac_rfl

/-- Mixing the columns distributes over exclusive or. -/
theorem invMix_xor (s t : List Byte) (hs : s.length = 16) (ht : t.length = 16) :
    invMixColumns (xorBytes s t) = xorBytes (invMixColumns s) (invMixColumns t) := by
  obtain ⟨a0, a1, a2, a3, a4, a5, a6, a7, a8, a9, a10, a11, a12, a13, a14, a15, rfl⟩ := list16 s hs
  obtain ⟨b0, b1, b2, b3, b4, b5, b6, b7, b8, b9, b10, b11, b12, b13, b14, b15, rfl⟩ := list16 t ht
  simp only [xorBytes, List.zipWith_cons_cons, List.zipWith_nil_left, mix_bwd, col_add]

/-- Substitution and row shifts commute. -/
theorem shift_map (f : Byte → Byte) (s : List Byte) (h : s.length = 16) : (aesShiftRows s).map f = aesShiftRows (s.map f) := by
  obtain ⟨a0, a1, a2, a3, a4, a5, a6, a7, a8, a9, a10, a11, a12, a13, a14, a15, rfl⟩ := list16 s h
  simp [aesShiftRows, aesState, aesAt, range16]

theorem length_xor16 (s t : List Byte) (hs : s.length = 16) (ht : t.length = 16) : (xorBytes s t).length = 16 := by simp [xorBytes, hs, ht]

theorem fwd_step (s w : List Byte) (o : Nat) (hs : s.length = 16) :
    aesenc s (ldv w o) = addRoundKey (mixColumns (shiftRows (subBytes s))) w o ∧
    aesenclast s (ldv w o) = addRoundKey (shiftRows (subBytes s)) w o ∧
    vcipher s (ldv w o) = addRoundKey (mixColumns (shiftRows (subBytes s))) w o ∧
    vcipherlast s (ldv w o) = addRoundKey (shiftRows (subBytes s)) w o := by
  have l1 := length_shift _ (length_sub s)
  have e : aesShiftRows (s.map aesSub) = shiftRows (subBytes s) := by rw [shift_spec _ (length_sub s), sub_spec s hs]
  unfold aesenc aesenclast vcipher vcipherlast
  rw [shift_map _ _ hs, e, ← mix_spec _ l1, xor_ldv _ _ _ (length_mix _), xor_ldv _ _ _ l1]
  exact ⟨rfl, rfl, rfl, rfl⟩

theorem bwd_step (s w : List Byte) (o : Nat) (hs : s.length = 16) :
    aesdec s (aesimc (ldv w o)) = invMixColumns (addRoundKey (invSubBytes (invShiftRows s)) w o) ∧
    aesdeclast s (ldv w o) = addRoundKey (invSubBytes (invShiftRows s)) w o ∧
    vncipher s (ldv w o) = invMixColumns (addRoundKey (invSubBytes (invShiftRows s)) w o) ∧
    vncipherlast s (ldv w o) = addRoundKey (invSubBytes (invShiftRows s)) w o := by
  have l0 := length_invShift s hs
  have l1 := length_invSub (invShiftRows s)
  have e : (aesInvShiftRows s).map aesInvSub = invSubBytes (invShiftRows s) := by rw [invSub_spec _ l0, invShift_spec s hs]
  unfold aesdec aesdeclast vncipher vncipherlast aesimc
  rw [e, ← invMix_spec _ l1, ← invMix_spec _ (length_ldv w o), ← invMix_xor _ _ l1 (length_ldv w o), xor_ldv _ _ _ l1,
    ← invMix_spec _ (length_ark _ _ _)]
  exact ⟨rfl, rfl, rfl, rfl⟩

theorem cipherX86_eq (inp w : List Byte) (Nr : Nat) (h : inp.length = 16) : cipherX86 inp w Nr = cipher inp w Nr := by
  have hr : ∀ n s, s.length = 16 → (List.range n).foldl (fun state j => aesenc state (ldv w ((j + 1) * 16))) s = rounds w n s := by
    intro n s hs
    induction n with
    | zero => rfl
    | succ n ih => rw [List.range_succ, List.foldl_append, ih, rounds_succ, List.foldl_cons, List.foldl_nil, (fwd_step _ _ _ (length_rounds w n s hs)).1]
  unfold cipherX86 cipher
  simp only [ldv_zero inp h, copy16 inp h, xor_ldv inp w 0 h]
  rw [hr _ _ (length_ark _ _ _), (fwd_step _ _ _ (length_rounds _ _ _ (length_ark _ _ _))).2.1]
  rfl

theorem cipherPpc_eq (inp w : List Byte) (Nr : Nat) (h : inp.length = 16) : cipherPpc inp w Nr = cipher inp w Nr := by
  have hr : ∀ n s, s.length = 16 → (List.range n).foldl (fun state j => vcipher state (ldv w ((j + 1) * 16))) s = rounds w n s := by
    intro n s hs
    induction n with
    | zero => rfl
    | succ n ih => rw [List.range_succ, List.foldl_append, ih, rounds_succ, List.foldl_cons, List.foldl_nil, (fwd_step _ _ _ (length_rounds w n s hs)).2.2.1]
  unfold cipherPpc cipher
  simp only [ldv_zero inp h, copy16 inp h, xor_ldv inp w 0 h]
  rw [hr _ _ (length_ark _ _ _), (fwd_step _ _ _ (length_rounds _ _ _ (length_ark _ _ _))).2.2.2]
  rfl

theorem aese_eq (s w : List Byte) (o : Nat) (hs : s.length = 16) : aese s (ldv w o) = shiftRows (subBytes (addRoundKey s w o)) := by
  unfold aese
  rw [xor_ldv s w o hs, shift_map _ _ (length_ark _ _ _), shift_spec _ (length_sub _), sub_spec _ (length_ark _ _ _)]

theorem cipherArm_eq (inp w : List Byte) (Nr : Nat) (h : inp.length = 16) : cipherArm inp w Nr = cipher inp w Nr := by
  have hr : ∀ n s, s.length = 16 → (List.range n).foldl (fun state j => aese (aesmc state) (ldv w ((j + 1) * 16))) (shiftRows (subBytes s)) =
      shiftRows (subBytes (rounds w n s)) := by
    intro n s hs
    induction n with
    | zero => rfl
    | succ n ih =>
      rw [List.range_succ, List.foldl_append, ih, rounds_succ, List.foldl_cons, List.foldl_nil, aesmc, ← mix_spec _ (length_shift _ (length_sub _)),
        aese_eq _ _ _ (length_mix _)]
  unfold cipherArm cipher
  simp only [ldv_zero inp h, copy16 inp h, aese_eq inp w 0 h]
  rw [hr _ _ (length_ark _ _ _), xor_ldv _ _ _ (length_shift _ (length_sub _))]
  rfl

theorem invLoop_length (w : List Byte) (n : Nat) (s : List Byte) (h : s.length = 16) : (invLoop w n s).length = 16 := by
  induction n generalizing s with
  | zero => exact h
  | succ n ih => exact ih _ (length_invMix _)

theorem invCipherX86_eq (inp w : List Byte) (Nr : Nat) (h : inp.length = 16) : invCipherX86 inp w Nr = invCipher inp w Nr := by
  have hr : ∀ n s, s.length = 16 → invLoopX86 w n s = invLoop w n s := by
    intro n
    induction n with
    | zero => intro s _; rfl
    | succ n ih =>
      intro s hs
      unfold invLoopX86 invLoop
      simp only []
      rw [(bwd_step _ _ _ hs).1, ih _ (length_invMix _)]
  unfold invCipherX86 invCipher
  simp only [ldv_zero inp h, copy16 inp h, xor_ldv inp w _ h]
  rw [hr _ _ (length_ark _ _ _), (bwd_step _ _ _ (invLoop_length _ _ _ (length_ark _ _ _))).2.1]

theorem invCipherPpc_eq (inp w : List Byte) (Nr : Nat) (h : inp.length = 16) : invCipherPpc inp w Nr = invCipher inp w Nr := by
  have hr : ∀ n s, s.length = 16 → invLoopPpc w n s = invLoop w n s := by
    intro n
    induction n with
    | zero => intro s _; rfl
    | succ n ih =>
      intro s hs
      unfold invLoopPpc invLoop
      simp only []
      rw [(bwd_step _ _ _ hs).2.2.1, ih _ (length_invMix _)]
  unfold invCipherPpc invCipher
  simp only [ldv_zero inp h, copy16 inp h, xor_ldv inp w _ h]
  rw [hr _ _ (length_ark _ _ _), (bwd_step _ _ _ (invLoop_length _ _ _ (length_ark _ _ _))).2.2.2]

theorem aesd_eq (s w : List Byte) (o : Nat) (hs : s.length = 16) : aesd s (ldv w o) = invSubBytes (invShiftRows (addRoundKey s w o)) := by
  unfold aesd
  rw [xor_ldv s w o hs, invSub_spec _ (length_invShift _ (length_ark _ _ _)), invShift_spec _ (length_ark _ _ _)]

theorem aesd_imc (s w : List Byte) (o : Nat) (hs : s.length = 16) :
    aesd (aesimc s) (aesimc (ldv w o)) = invSubBytes (invShiftRows (invMixColumns (addRoundKey s w o))) := by
  unfold aesd aesimc
  rw [← invMix_spec _ hs, ← invMix_spec _ (length_ldv _ _), ← invMix_xor _ _ hs (length_ldv _ _), xor_ldv _ _ _ hs,
    invSub_spec _ (length_invShift _ (length_invMix _)), invShift_spec _ (length_invMix _)]

theorem invCipherArm_eq (inp w : List Byte) (Nr : Nat) (h : inp.length = 16) : invCipherArm inp w Nr = invCipher inp w Nr := by
  have hr : ∀ n s, s.length = 16 → invLoopArm w n (invSubBytes (invShiftRows s)) = invSubBytes (invShiftRows (invLoop w n s)) := by
    intro n
    induction n with
    | zero => intro s _; rfl
    | succ n ih =>
      intro s hs
      unfold invLoopArm invLoop
      simp only []
      rw [aesd_imc _ _ _ (length_invSub _), ih _ (length_invMix _)]
  unfold invCipherArm invCipher
  simp only [ldv_zero inp h, copy16 inp h]
  rw [aesd_eq _ _ _ h, hr _ _ (length_ark _ _ _), xor_ldv _ _ _ (length_invSub _)]

/-- The portable inverse cipher is INVCIPHER of FIPS 197. -/
theorem invCipher_spec (inp w : List Byte) (Nr : Nat) (hNr : 1 ≤ Nr) (kw : Nat → List Byte) (h : inp.length = 16)
    (hk : ∀ j, j < 4 * (Nr + 1) → (kw j).length = 4)
    (hw : ∀ j, j < 4 * (Nr + 1) → ∀ c, c < 4 → w.getD (4 * j + c) 0 = (kw j).getD c 0) : invCipher inp w Nr = aesInvCipher Nr kw inp := by
  have ark : ∀ (s : List Byte) (i : Nat), i ≤ Nr → s.length = 16 → addRoundKey s w (i * 16) = xorBytes s (aesRoundKey kw i) :=
    fun s i hi hs => ark_spec s w i kw hs (fun j hj => hk j (by omega)) (fun j hj => hw j (by omega))
  have hsub : ∀ s : List Byte, s.length = 16 → invSubBytes (invShiftRows s) = (aesInvShiftRows s).map aesInvSub := by
    intro s hs
    rw [invSub_spec _ (length_invShift s hs), invShift_spec s hs]
  have hr : ∀ n s, n ≤ Nr - 1 → s.length = 16 → invLoop w n s = (List.range n).reverse.foldl
      (fun s j => aesInvMixColumns (xorBytes ((aesInvShiftRows s).map aesInvSub) (aesRoundKey kw (j + 1)))) s := by
    intro n
    induction n with
    | zero => intro s _ _; rfl
    | succ n ih =>
      intro s hn hs
      rw [List.range_succ, List.reverse_append, List.reverse_cons, List.reverse_nil, List.nil_append, List.cons_append, List.nil_append, List.foldl_cons]
      unfold invLoop
      rw [ih _ (by omega) (length_invMix _), ark _ _ (by omega) (length_invSub _), hsub s hs, invMix_spec]
      rw [← hsub s hs, ← ark _ _ (by omega) (length_invSub _), length_ark]
  unfold invCipher aesInvCipher
  simp only []
  have hl : (addRoundKey inp w (Nr * 16)).length = 16 := length_ark _ _ _
  have e0 : ∀ s : List Byte, s.length = 16 → addRoundKey s w 0 = xorBytes s (aesRoundKey kw 0) := by
    intro s hs
    have := ark s 0 (by omega) hs
    rwa [Nat.zero_mul] at this
  rw [copy16 inp h, ← ark inp Nr (le_refl _) h, ← hr (Nr - 1) _ (le_refl _) hl, ← hsub _ (invLoop_length _ _ _ hl), ← e0 _ (length_invSub _)]

theorem aesInv_spec (key inp : List Byte) (Nk Nr : Nat) (hN : 1 ≤ Nk) (hkey : key.length = 4 * Nk) (hNr : 1 ≤ Nr) (hle : Nk ≤ 4 * (Nr + 1))
    (h : inp.length = 16) : invCipher inp (keyExpansion key Nk Nr) Nr = aesInv Nk Nr key inp :=
  invCipher_spec inp _ Nr hNr _ h (key_spec key Nk Nr hN hkey hle).1 (key_spec key Nk Nr hN hkey hle).2

end Aes
