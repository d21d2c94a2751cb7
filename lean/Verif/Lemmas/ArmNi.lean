import Verif.Model.ArmNi
import Verif.Lemmas.ShaNi
import Verif.Lemmas.Sm4
import Verif.Lemmas.Keccak

/-!
# The Arm versions of SM3, SM4 and Keccak against the portable ones
-/

namespace Fips180
open Spec.Sha Spec.Isa

theorem toQ_toD (q : Q) : q.toD.toQ = q := by
  obtain ⟨a, b, c, d⟩ := q
  unfold Q.toD D.toQ
  have h0 : ∀ x y : BitVec 32, (x ++ y : BitVec 64).setWidth 32 = y := fun x y => by
    apply BitVec.eq_of_toNat_eq
    have e := toNat_app x y
    rw [BitVec.toNat_setWidth, e]
    omega
  have h1 : ∀ x y : BitVec 32, ((x ++ y : BitVec 64) >>> 32).setWidth 32 = x := fun x y => by
    apply BitVec.eq_of_toNat_eq
    have e := toNat_app x y
    have := x.isLt
    have := y.isLt
    rw [BitVec.toNat_setWidth, BitVec.toNat_ushiftRight, e, Nat.shiftRight_eq_div_pow]
    omega
  simp only [h0, h1]

theorem rev4_eq (a b c d : BitVec 32) : rev4 ⟨a, b, c, d⟩ = ⟨d, c, b, a⟩ := by
  have h : (vtrn1d (vtrn2d (Q.mk a b c d).toD (Q.mk a b c d).toD) (Q.mk a b c d).toD) = (Q.mk c d a b).toD := rfl
  unfold rev4
  simp only
  rw [h, toQ_toD]
  rfl

/-! ## SM3 -/

theorem sched3_rec (M : Nat → BitVec 32) (t : Nat) :
    sched3 M (t + 16) = P1 (sched3 M t ^^^ sched3 M (t + 7) ^^^ (sched3 M (t + 13)).rotateLeft 15) ^^^ (sched3 M (t + 3)).rotateLeft 7 ^^^
      sched3 M (t + 10) := by
  rw [sched3, if_neg (by omega)]
  rfl

theorem P1_xor (x y : BitVec 32) : P1 (x ^^^ y) = P1 x ^^^ P1 y := by
  unfold P1
  rw [rol_xor _ _ 15 (by decide), rol_xor _ _ 23 (by decide)]
  ac_rfl

theorem quad_add3 (F : Nat → BitVec 32) (i k : Nat) : quad F (i + k) = ⟨F (4 * i + 4 * k), F (4 * i + (4 * k + 1)), F (4 * i + (4 * k + 2)),
    F (4 * i + (4 * k + 3))⟩ := by
  unfold quad
  rw [show 4 * (i + k) = 4 * i + 4 * k by omega]
  rfl

theorem arm_su3 (M : Nat → BitVec 32) (i : Nat) :
    vsm3partw2 (vsm3partw1 (quad (sched3 M) i) (tblLanes (quad (sched3 M) (i + 1)) (quad (sched3 M) (i + 2)) 3) (quad (sched3 M) (i + 3)))
      (tblLanes (quad (sched3 M) (i + 2)) (quad (sched3 M) (i + 3)) 2) (tblLanes (quad (sched3 M) i) (quad (sched3 M) (i + 1)) 3) =
      quad (sched3 M) (i + 4) := by
  rw [quad_add3 _ i 1, quad_add3 _ i 2, quad_add3 _ i 3, quad_add3 _ i 4]
  unfold quad vsm3partw2 vsm3partw1 tblLanes Q.xor
  simp only [Nat.reduceMul, Nat.reduceAdd, List.getD_cons_zero, List.getD_cons_succ]
  have r0 := sched3_rec M (4 * i)
  have r1 := sched3_rec M (4 * i + 1)
  have r2 := sched3_rec M (4 * i + 2)
  have r3 := sched3_rec M (4 * i + 3)
  simp only [Nat.add_assoc, Nat.reduceAdd] at r0 r1 r2 r3
  generalize sched3 M = F at *
  have hP : ∀ x : BitVec 32, x ^^^ x.rotateLeft 15 ^^^ x.rotateLeft 23 = P1 x := fun _ => rfl
  simp only [hP]
  rw [r3, r0, r1, r2]
  refine Q.ext ?_ ?_ ?_ ?_
  · simp only; ac_rfl
  · simp only; ac_rfl
  · simp only; ac_rfl
  · simp only [rol_xor _ _ 15 (by decide), P1_xor]; ac_rfl

/-- The working variables with the first of each four in lane 3. -/
def abcd3 (v : V8 32) : Q := ⟨v.d, v.c, v.b, v.a⟩
def efgh3 (v : V8 32) : Q := ⟨v.h, v.g, v.f, v.e⟩

theorem vars3_step (W : Nat → BitVec 32) (v : V8 32) (j : Nat) : vars3 W v (j + 1) =
    let u := vars3 W v j
    let SS1 := (u.a.rotateLeft 12 + u.e + (T3 j).rotateLeft (j % 32)).rotateLeft 7
    ⟨FF j u.a u.b u.c + u.d + (SS1 ^^^ u.a.rotateLeft 12) + (W j ^^^ W (j + 4)), u.a, u.b.rotateLeft 9, u.c,
     P0 (GG j u.e u.f u.g + u.h + SS1 + W j), u.e, u.f.rotateLeft 19, u.g⟩ := rfl

theorem rotT (shl : BitVec 32 → Nat → BitVec 32) (hs : ∀ x k, k < 64 → shl x k = x <<< (k % 32)) (j : Nat) (hj : j < 64) :
    (if j % 32 ≠ 0 then shl (sm3T j) j ||| sm3T j >>> (32 - j % 32) else sm3T j) = (T3 j).rotateLeft (j % 32) := by
  have e : sm3T j = T3 j := by
    unfold sm3T T3
    by_cases h : j < 16
    · rw [if_pos (by omega), if_pos h]
    · rw [if_neg (by omega), if_neg h, if_pos (by omega)]
  rw [e, hs _ _ hj, BitVec.rotateLeft_def]
  split
  · rw [Nat.mod_mod]
  · rename_i h
    rw [not_not.mp h]
    simp [BitVec.ushiftRight_eq_zero]

theorem lane_quad (F : Nat → BitVec 32) (i k : Nat) (hk : k < 4) : (quad F i).lane k = F (4 * i + k) := by
  match k, hk with
  | 0, _ => rfl
  | 1, _ => rfl
  | 2, _ => rfl
  | 3, _ => rfl

theorem lane_xor (F : Nat → BitVec 32) (i k : Nat) (hk : k < 4) :
    ((quad F i).xor (quad F (i + 1))).lane k = F (4 * i + k) ^^^ F (4 * i + k + 4) := by
  have e : ∀ c, 4 * (i + 1) + c = 4 * i + c + 4 := fun c => by omega
  have e0 := e 0
  match k, hk with
  | 0, _ => show F (4 * i) ^^^ F (4 * (i + 1)) = _; rw [show 4 * (i + 1) = 4 * i + 0 + 4 by omega]; rfl
  | 1, _ => show F (4 * i + 1) ^^^ F (4 * (i + 1) + 1) = _; rw [e 1]
  | 2, _ => show F (4 * i + 2) ^^^ F (4 * (i + 1) + 2) = _; rw [e 2]
  | 3, _ => show F (4 * i + 3) ^^^ F (4 * (i + 1) + 3) = _; rw [e 3]

theorem cf1_eq (shl : BitVec 32 → Nat → BitVec 32) (hs : ∀ x k, k < 64 → shl x k = x <<< (k % 32)) (W : Nat → BitVec 32) (v : V8 32)
    (i k : Nat) (hi : i < 16) (hk : k < 4) (s : A3) (h0 : atq s.W (i % 4) = quad W i) (h1 : atq s.W ((i + 1) % 4) = quad W (i + 1))
    (ha : s.abcd = abcd3 (vars3 W v (4 * i + k))) (he : s.efgh = efgh3 (vars3 W v (4 * i + k))) :
    (cf1Rnd shl i s k).W = s.W ∧ (cf1Rnd shl i s k).abcd = abcd3 (vars3 W v (4 * i + (k + 1))) ∧
      (cf1Rnd shl i s k).efgh = efgh3 (vars3 W v (4 * i + (k + 1))) := by
  have hr := rotT shl hs (i * 4 + k) (by omega)
  have hj : i * 4 + k = 4 * i + k := by omega
  rw [hj] at hr
  have hl := lane_quad W i k hk
  have hx := lane_xor W i k hk
  refine ⟨rfl, ?_, ?_⟩
  · simp only [cf1Rnd]
    rw [h0, h1, hj, hr, ha, he, show 4 * i + (k + 1) = 4 * i + k + 1 by omega, vars3_step]
    generalize hK : (T3 (4 * i + k)).rotateLeft ((4 * i + k) % 32) = K
    generalize hu : vars3 W v (4 * i + k) = u
    unfold vsm3tt1a vsm3tt1b sm3tt1
    rw [hx]
    obtain ⟨a, b, c, d, e, f, g, h⟩ := u
    simp only [abcd3, efgh3, vsm3ss1, dup32]
    by_cases h4 : i < 4
    · rw [if_pos h4]
      refine Q.ext rfl rfl rfl ?_
      unfold FF
      rw [if_pos (by omega)]
      rw [show c ^^^ (a ^^^ b) = a ^^^ b ^^^ c by ac_rfl]
    · rw [if_neg h4]
      refine Q.ext rfl rfl rfl ?_
      unfold FF
      rw [if_neg (by omega)]
      rw [show (a &&& c) ||| (a &&& b) ||| (c &&& b) = (a &&& b) ||| (a &&& c) ||| (b &&& c) by ac_rfl]
  · simp only [cf1Rnd]
    rw [h0, hj, hr, ha, he, show 4 * i + (k + 1) = 4 * i + k + 1 by omega, vars3_step]
    generalize hK : (T3 (4 * i + k)).rotateLeft ((4 * i + k) % 32) = K
    generalize hu : vars3 W v (4 * i + k) = u
    unfold vsm3tt2a vsm3tt2b sm3tt2
    rw [hl]
    obtain ⟨a, b, c, d, e, f, g, h⟩ := u
    simp only [abcd3, efgh3, vsm3ss1, dup32]
    by_cases h4 : i < 4
    · rw [if_pos h4]
      refine Q.ext rfl rfl rfl ?_
      unfold GG
      rw [if_pos (by omega), show g ^^^ (e ^^^ f) = e ^^^ f ^^^ g by ac_rfl]
      rfl
    · rw [if_neg h4]
      refine Q.ext rfl rfl rfl ?_
      unfold GG
      rw [if_neg (by omega)]
      rfl

theorem arm3_loop (shl : BitVec 32 → Nat → BitVec 32) (hs : ∀ x k, k < 64 → shl x k = x <<< (k % 32)) (v : V8 32) (M : Nat → BitVec 32)
    (w0 : List Q) (h0 : RingQ w0 (quad (sched3 M)) 0) (n : Nat) (hn : n ≤ 16) :
    let s := (List.range n).foldl (armSm3Step shl) ⟨w0, abcd3 v, efgh3 v⟩
    s.abcd = abcd3 (vars3 (sched3 M) v (4 * n)) ∧ s.efgh = efgh3 (vars3 (sched3 M) v (4 * n)) ∧ RingQ s.W (quad (sched3 M)) n := by
  induction n with
  | zero => exact ⟨rfl, rfl, h0⟩
  | succ i ih =>
    obtain ⟨ia, ie, ir⟩ := ih (by omega)
    simp only [List.range_succ, List.foldl_append, List.foldl_cons, List.foldl_nil]
    generalize (List.range i).foldl (armSm3Step shl) ⟨w0, abcd3 v, efgh3 v⟩ = s at ia ie ir ⊢
    have w0 := ir.2 i (by omega) (by omega)
    have w1 := ir.2 (i + 1) (by omega) (by omega)
    have w2 := ir.2 (i + 2) (by omega) (by omega)
    have w3 := ir.2 (i + 3) (by omega) (by omega)
    obtain ⟨a1, b1, c1⟩ := cf1_eq shl hs (sched3 M) v i 0 (by omega) (by decide) s w0 w1 ia ie
    obtain ⟨a2, b2, c2⟩ := cf1_eq shl hs (sched3 M) v i 1 (by omega) (by decide) _ (by rw [a1]; exact w0) (by rw [a1]; exact w1) b1 c1
    obtain ⟨a3, b3, c3⟩ := cf1_eq shl hs (sched3 M) v i 2 (by omega) (by decide) _ (by rw [a2, a1]; exact w0) (by rw [a2, a1]; exact w1) b2 c2
    obtain ⟨a4, b4, c4⟩ := cf1_eq shl hs (sched3 M) v i 3 (by omega) (by decide) _ (by rw [a3, a2, a1]; exact w0)
      (by rw [a3, a2, a1]; exact w1) b3 c3
    refine ⟨b4, c4, ?_⟩
    simp only [armSm3Step]
    rw [a4, a3, a2, a1, show (i + 0) % 4 = i % 4 from rfl, w0, w1, w2, w3]
    exact ir.step _ (arm_su3 M i)

theorem armSm3_eq (shl : BitVec 32 → Nat → BitVec 32) (hs : ∀ x k, k < 64 → shl x k = x <<< (k % 32)) (V : List (BitVec 32))
    (M : List (BitVec 8)) : armSm3 shl V M = comp3 V M := by
  have hq : ∀ t < 16, sched3 (word 4 M) t = word 4 M t := fun t ht => by rw [sched3, if_pos ht]
  have h0 : RingQ ((List.range 4).map (armLoad M)) (quad (sched3 (word 4 M))) 0 := ringQ_init _ _ fun i hi => by
    rw [armLoad_eq]
    unfold quad
    rw [hq _ (by omega), hq _ (by omega), hq _ (by omega), hq _ (by omega)]
  have h := arm3_loop shl hs (V8.of V) _ _ h0 16 le_rfl
  unfold armSm3 comp3
  simp only [rev4_eq]
  change (List.foldl (armSm3Step shl) ⟨(List.range 4).map (armLoad M), ⟨at_ V 3, at_ V 2, at_ V 1, at_ V 0⟩, ⟨at_ V 7, at_ V 6, at_ V 5, at_ V 4⟩⟩
    (List.range 16)).abcd = abcd3 (vars3 (sched3 (word 4 M)) (V8.of V) 64) ∧
    (List.foldl (armSm3Step shl) ⟨(List.range 4).map (armLoad M), ⟨at_ V 3, at_ V 2, at_ V 1, at_ V 0⟩, ⟨at_ V 7, at_ V 6, at_ V 5, at_ V 4⟩⟩
    (List.range 16)).efgh = efgh3 (vars3 (sched3 (word 4 M)) (V8.of V) 64) ∧ _ at h
  obtain ⟨h1, h2, -⟩ := h
  generalize (List.range 16).foldl (armSm3Step shl) _ = s at h1 h2 ⊢
  generalize vars3 (sched3 (word 4 M)) (V8.of V) 64 = u at h1 h2 ⊢
  rw [h1, h2]
  simp only [abcd3, efgh3, at_, V8.with, BitVec.xor_comm]

end Fips180

/-! ## SM4 -/

namespace Sm4
open Spec Spec.Isa Fips180 Endian

/-- Lanes of the sequence from `n`. -/
def seqQ (T : Sbox.W → Sbox.W) (c x : Nat → Sbox.W) (n : Nat) : Q := ⟨sm4Seq T c x n, sm4Seq T c x (n + 1), sm4Seq T c x (n + 2), sm4Seq T c x (n + 3)⟩

theorem iter_eq (T : Sbox.W → Sbox.W) (c x : Nat → Sbox.W) (n : Nat) : sm4Iter T (seqQ T c x n) (c n) = seqQ T c x (n + 1) := by
  unfold sm4Iter seqQ
  refine Q.ext rfl rfl rfl ?_
  show T (_ ^^^ _ ^^^ _ ^^^ c n) ^^^ _ = sm4Seq T c x (n + 4)
  rw [seq_step, BitVec.xor_comm]
  congr 2
  show sm4Seq T c x (n + 3) ^^^ sm4Seq T c x (n + 2) ^^^ sm4Seq T c x (n + 1) ^^^ c n = _
  ac_rfl

theorem four_eq (T : Sbox.W → Sbox.W) (c x : Nat → Sbox.W) (n : Nat) (k : Q) (hk : k = ⟨c n, c (n + 1), c (n + 2), c (n + 3)⟩) :
    sm4Four T (seqQ T c x n) k = seqQ T c x (n + 4) := by
  rw [hk]
  unfold sm4Four
  rw [iter_eq, iter_eq, iter_eq, iter_eq]

theorem armLoad0 (b : List Byte) : armLoad b 0 = ⟨ld32 b 0, ld32 b 1, ld32 b 2, ld32 b 3⟩ := by
  rw [armLoad_eq]
  unfold quad
  simp only [← ld32_eq, Nat.mul_zero, Nat.zero_add]

theorem rev_stq (a b c d : Sbox.W) : rev32 (stq ⟨a, b, c, d⟩) = st32 a ++ st32 b ++ st32 c ++ st32 d := rfl

theorem feistel_loop (rk : List Sbox.W) (rev : Bool) (x : Nat → Sbox.W) (n : Nat) (hn : n ≤ 8) :
    (List.range n).foldl (fun X i => vsm4e X (if rev then rev4 (ldq rk (28 - i * 4)) else ldq rk (i * 4)))
      (seqQ sm4T (fun i => rk.getD (if rev then 31 - i else i) 0) x 0) =
      seqQ sm4T (fun i => rk.getD (if rev then 31 - i else i) 0) x (4 * n) := by
  induction n with
  | zero => rfl
  | succ n ih =>
    rw [List.range_succ, List.foldl_append, List.foldl_cons, List.foldl_nil, ih (by omega)]
    refine four_eq _ _ _ _ _ ?_
    cases rev with
    | false =>
      simp only [Bool.false_eq_true, if_false, ldq, Nat.mul_comm n 4]
    | true =>
      simp only [if_true, ldq, rev4_eq]
      rw [show 31 - 4 * n = 28 - n * 4 + 3 by omega, show 31 - (4 * n + 1) = 28 - n * 4 + 2 by omega,
        show 31 - (4 * n + 2) = 28 - n * 4 + 1 by omega, show 31 - (4 * n + 3) = 28 - n * 4 by omega]

theorem armFeistel_eq (inp : List Byte) (rk : List Sbox.W) (rev : Bool) : armFeistel inp rk rev = feistel inp rk rev := by
  have hf := feistel_spec inp rk rev (fun j => ld32 inp j) rfl rfl rfl rfl
  have hl := feistel_loop rk rev (fun j => ld32 inp j) 8 le_rfl
  rw [hf]
  unfold armFeistel
  simp only
  rw [armLoad0]
  have h0 : seqQ sm4T (fun i => rk.getD (if rev then 31 - i else i) 0) (fun j => ld32 inp j) 0 = ⟨ld32 inp 0, ld32 inp 1, ld32 inp 2, ld32 inp 3⟩ := by
    unfold seqQ
    rw [seq_lt _ _ _ _ (by decide), seq_lt _ _ _ _ (by decide), seq_lt _ _ _ _ (by decide), seq_lt _ _ _ _ (by decide)]
  rw [h0] at hl
  rw [hl]
  unfold seqQ
  rw [rev4_eq, rev_stq]

theorem key_loop (x : Nat → Sbox.W) (n : Nat) (hn : n ≤ 8) :
    (List.range n).foldl (fun (s : Q × List Sbox.W) i => (vsm4ekey s.1 (ldq CK (i * 4)), s.2 ++ [(vsm4ekey s.1 (ldq CK (i * 4))).l0,
      (vsm4ekey s.1 (ldq CK (i * 4))).l1, (vsm4ekey s.1 (ldq CK (i * 4))).l2, (vsm4ekey s.1 (ldq CK (i * 4))).l3]))
      (seqQ sm4T' (fun i => CK.getD i 0) x 0, []) =
      (seqQ sm4T' (fun i => CK.getD i 0) x (4 * n), (List.range (4 * n)).map fun i => sm4Seq sm4T' (fun i => CK.getD i 0) x (i + 4)) := by
  induction n with
  | zero => rfl
  | succ n ih =>
    rw [List.range_succ, List.foldl_append, List.foldl_cons, List.foldl_nil, ih (by omega)]
    have h : vsm4ekey (seqQ sm4T' (fun i => CK.getD i 0) x (4 * n)) (ldq CK (n * 4)) = seqQ sm4T' (fun i => CK.getD i 0) x (4 * n + 4) := by
      refine four_eq _ _ _ _ _ ?_
      simp only [ldq, Nat.mul_comm n 4]
    simp only [h]
    rw [show 4 * (n + 1) = 4 * n + 1 + 1 + 1 + 1 by omega]
    simp only [List.range_succ, List.map_append, List.map_cons, List.map_nil, List.append_assoc, List.cons_append, List.nil_append]
    rfl

theorem armKeySched_eq (key : List Byte) : armKeySched key = keySched key := by
  have h1 := key_loop (fun j => ld32 key j ^^^ FK.getD j 0) 8 le_rfl
  have h2 := (ks_window (fun j => ld32 key j ^^^ FK.getD j 0) 32).2
  have h0 : (armLoad key 0).xor (ldq FK 0) = seqQ sm4T' (fun i => CK.getD i 0) (fun j => ld32 key j ^^^ FK.getD j 0) 0 := by
    rw [armLoad0]
    unfold seqQ
    rw [seq_lt _ _ _ _ (by decide), seq_lt _ _ _ _ (by decide), seq_lt _ _ _ _ (by decide), seq_lt _ _ _ _ (by decide)]
    rfl
  unfold armKeySched keySched
  simp only
  rw [h0, h1, h2]

end Sm4

/-! ## Keccak -/

namespace Keccak
open Spec.Isa

theorem rot1 (x : W) : rot x 1 = x.rotateLeft 1 := by
  unfold rot
  rw [BitVec.rotateLeft_def]
  rfl

set_option maxRecDepth 4000 in
theorem theta64_eq (A : State) (h : A.length = 25) : theta64 A = theta A := by
  obtain ⟨a0, a1, a2, a3, a4, a5, a6, a7, a8, a9, a10, a11, a12, a13, a14, a15, a16, a17, a18, a19, a20, a21, a22, a23, a24, rfl⟩ := list25 A h
  have r : List.range 5 = [0, 1, 2, 3, 4] := rfl
  rw [theta_list]
  simp [theta64, colPair, vcomb, veor3, vrax1, D.xor, r, get, put, rot1]

set_option maxRecDepth 4000 in
theorem chi64_eq (A : State) (h : A.length = 25) : chi64 A = chi A := by
  obtain ⟨a0, a1, a2, a3, a4, a5, a6, a7, a8, a9, a10, a11, a12, a13, a14, a15, a16, a17, a18, a19, a20, a21, a22, a23, a24, rfl⟩ := list25 A h
  have r : List.range 5 = [0, 1, 2, 3, 4] := rfl
  have hc : ∀ y z : W, ~~~y &&& z = z &&& ~~~y := fun y z => by rw [BitVec.and_comm]
  rw [chi_list]
  simp [chi64, vcomb, vbcax, r, get, put, hc]

theorem length_roundStep (r : Nat) (s : State × BitVec 32) (ir : Nat) : (roundStep r s ir).1.length = s.1.length := by
  unfold roundStep
  generalize iotaLoop s.2 = q
  simp only
  split <;> simp [length_put, length_chi, length_pi, length_rho, length_theta]

theorem roundStepNi_eq (r : Nat) (s : State × BitVec 32) (ir : Nat) (h : s.1.length = 25) : roundStepNi r s ir = roundStep r s ir := by
  unfold roundStepNi roundStep
  rw [theta64_eq _ h, chi64_eq _ (by rw [length_pi, length_rho, length_theta, h])]

theorem foldNi_eq (r : Nat) (l : List Nat) : ∀ (s : State × BitVec 32), s.1.length = 25 → l.foldl (roundStepNi r) s = l.foldl (roundStep r) s := by
  induction l with
  | nil => intro s _; rw [List.foldl_nil, List.foldl_nil]
  | cons a l ih =>
    intro s h
    rw [List.foldl_cons, List.foldl_cons, roundStepNi_eq r s a h]
    exact ih _ (by rw [length_roundStep, h])

theorem permuteNi_eq (rounds : Nat) (inp : List Byte) : permuteNi rounds inp = permute rounds inp := by
  unfold permuteNi permute
  simp only
  rw [foldNi_eq]
  rw [List.length_map, List.length_range]

end Keccak
