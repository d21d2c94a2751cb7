import Verif.Lemmas.CShake

/-!
# Properties C11 - C14: SHA-3, SHAKE, cSHAKE, KMAC

`perm` is an arbitrary function on byte states, so every statement holds in particular for Keccak.
`Spec.spongeStream perm r blk lo hi m k` is byte `k` of the FIPS 202 sponge stream of `m`.
-/

namespace Props
open Sponge
open Spec (spongeStream prefixOf)

/-! ## C11 input splitting -/

/-- C11: SHA-3.  Whatever the sequence of `SHA3_Update` calls, `SHA3_Final` returns the digest of the
concatenation: the first `hlen = (200 - rate)/2` bytes of the sponge stream, zero-filled beyond. -/
theorem C11_sha3 (perm : List (BitVec 8) → List (BitVec 8)) (rate : Nat) (hr : 0 < rate)
    (ms : List (List (BitVec 8))) (t : Nat) :
    (sha3Final perm (ms.foldl (update perm) (sha3Init rate)) t).1 =
      prefixOf (fun k => if k < (200 - rate) / 2
        then spongeStream perm rate 200 0x06 0x80 ms.flatten k else 0) t := by
  rw [updates_flatten]
  unfold sha3Final
  have hf : (update perm (sha3Init rate) ms.flatten).finalized = false := by
    rw [update_fresh perm (sha3Init rate) _ (by exact hr) rfl]; rfl
  have hrate : (update perm (sha3Init rate) ms.flatten).rate = rate := by
    rw [update_fresh perm (sha3Init rate) _ (by exact hr) rfl]; rfl
  simp only [hf, hrate, Bool.false_eq_true, if_false]
  rw [final_fresh perm (sha3Init rate) _ (by exact hr) rfl rfl]
  simp only [save, restore]
  have := fun (x : Ctx) h len => read_spec perm len x (Spec.absorb perm rate (sha3Init rate).state
      (ms.flatten ++ Spec.spongePad rate (sha3Init rate).lopad (sha3Init rate).hipad
        (ms.flatten.length % rate))) 0 h
  rw [this _ (by exact hr) _ (by simp; rfl) (by simp)]
  generalize hH : (200 - rate) / 2 = hlen
  simp only [prefixOf, Nat.zero_add]
  apply List.ext_getElem
  · simp; split <;> omega
  · intro i h1 h2
    simp only [List.length_map, List.length_range] at h2
    rw [List.getElem_append]
    simp only [List.length_map, List.length_range, List.getElem_map, List.getElem_range]
    by_cases c : i < hlen
    · rw [dif_pos (by split <;> omega), if_pos c]; rfl
    · rw [dif_neg (by split <;> omega), if_neg c]; simp

/-- C11: SHAKE (and any other sponge context), reading the first `n` bytes after `SHAKE_Final`. -/
theorem C11_shake (perm : List (BitVec 8) → List (BitVec 8)) (rate : Nat) (hr : 0 < rate)
    (ms : List (List (BitVec 8))) (n : Nat) :
    (read perm (shakeFinal perm (ms.foldl (update perm) (shakeInit rate))) n).1 =
      prefixOf (spongeStream perm rate 200 0x1f 0x80 ms.flatten) n := by
  rw [updates_flatten, shake_read perm (shakeInit rate) _ n (by exact hr) rfl rfl]
  rfl

example : (0 < 136) ∧ (sha3Final (fun s => s.map (· + 1)) ([[1, 2], [3]].foldl
    (update (fun s => s.map (· + 1))) (sha3Init 136)) 2).1 = [2, 3] := by decide +kernel

/-! ## C12 output is a stream -/

/-- What a caller can do with a finalised XOF: read some bytes, or call `SHAKE_Final` again to rewind. -/
inductive XofOp
  | read (n : Nat)
  | rewind

/-- Running such calls on the library context; the outputs in order. -/
def xofRun (perm : List (BitVec 8) → List (BitVec 8)) : Ctx → List XofOp → List (List (BitVec 8))
  | _, [] => []
  | x, .read n :: ops => (read perm x n).1 :: xofRun perm (read perm x n).2 ops
  | x, .rewind :: ops => xofRun perm (shakeFinal perm x) ops

/-- The same on an abstract stream with a cursor. -/
def streamRun (stream : Nat → BitVec 8) : Nat → List XofOp → List (List (BitVec 8))
  | _, [] => []
  | pos, .read n :: ops => (List.range n).map (fun i => stream (pos + i)) :: streamRun stream (pos + n) ops
  | _, .rewind :: ops => streamRun stream 0 ops

/-- Any sequence of reads and rewinds on a sponge that started in a fresh context. -/
theorem sponge_stream (perm : List (BitVec 8) → List (BitVec 8)) (x0 : Ctx) (hr : 0 < x0.rate) (h0 : x0.filled = 0) (hf0 : x0.finalized = false)
    (ms : List (List (BitVec 8))) (ops : List XofOp) :
    xofRun perm (shakeFinal perm (ms.foldl (update perm) x0)) ops =
      streamRun (Spec.squeezeByte perm x0.rate (Spec.absorb perm x0.rate x0.state
        (ms.flatten ++ Spec.spongePad x0.rate x0.lopad x0.hipad (ms.flatten.length % x0.rate)))) 0 ops := by
  rw [updates_flatten]
  have hf : (update perm x0 ms.flatten).finalized = false := by
    rw [update_fresh perm x0 _ hr h0]; exact hf0
  have start : shakeFinal perm (update perm x0 ms.flatten) = save (final perm (update perm x0 ms.flatten)) := by
    unfold shakeFinal; rw [hf]; rfl
  rw [start, final_fresh perm x0 _ hr h0 hf0]
  generalize hrate : x0.rate = rate at hr
  have gen : ∀ (ops : List XofOp) (x : Ctx) (pos : Nat) (st : List (BitVec 8)), x.rate = rate →
      x.finalized = true → x.saved = st → x.state = perm^[pos / rate] st → x.filled = pos % rate →
      xofRun perm x ops = streamRun (Spec.squeezeByte perm rate st) pos ops := by
    intro ops
    induction ops with
    | nil => intros; rfl
    | cons op ops ih =>
      intro x pos st h1 h2 h3 h4 h5
      cases op with
      | read n =>
        simp only [xofRun, streamRun]
        subst h1
        rw [read_spec perm n x st pos hr h4 h5]
        simp only
        congr 1
        apply ih _ (pos + n) st <;> first | rfl | assumption
      | rewind =>
        simp only [xofRun, streamRun]
        apply ih _ 0 st
        · unfold shakeFinal; rw [h2]; exact h1
        · unfold shakeFinal; rw [h2]; exact h2
        · unfold shakeFinal; rw [h2]; exact h3
        · unfold shakeFinal; rw [h2]; simpa [restore] using h3
        · unfold shakeFinal; rw [h2]; simp [restore]
  exact gen ops _ 0 _ rfl rfl rfl (by simp [save]) (by simp [save])

/-- C12: any sequence of reads of any sizes and rewinds returns consecutive pieces of the one
sponge stream. -/
theorem C12_stream (perm : List (BitVec 8) → List (BitVec 8)) (rate : Nat) (hr : 0 < rate)
    (ms : List (List (BitVec 8))) (ops : List XofOp) :
    xofRun perm (shakeFinal perm (ms.foldl (update perm) (shakeInit rate))) ops =
      streamRun (spongeStream perm rate 200 0x1f 0x80 ms.flatten) 0 ops :=
  sponge_stream perm (shakeInit rate) hr rfl rfl ms ops

example : streamRun (fun k => BitVec.ofNat 8 k) 0 [.read 2, .read 1, .rewind, .read 3] =
    [[0, 1], [2], [0, 1, 2]] := by decide

/-! ## C13 prefix padding -/

/-- C13 (partial): cSHAKE with a non-empty function name or customisation string follows SP 800-185.
Missing: the case where the encoded prefix already is a whole number of blocks, for which it is false
(`C13_cshake_exact_fit`, `C13_cshake_exact_fit_wrong`). -/
theorem C13_cshake_partial (perm : List (BitVec 8) → List (BitVec 8)) (x : Ctx) (N S : List (BitVec 8))
    (ms : List (List (BitVec 8))) (n : Nat) (hr0 : 0 < x.rate) (hr : x.rate < 2 ^ 64)
    (hN : N.length < 2 ^ 61) (hS : S.length < 2 ^ 61) (hne : ¬ (N = [] ∧ S = []))
    (hfit : ¬ x.rate ∣ (Spec.leftEncode x.rate ++ (Spec.encodeString N ++ Spec.encodeString S)).length) :
    (read perm (shakeFinal perm (ms.foldl (update perm) (customize perm x N S))) n).1 =
      prefixOf (spongeStream perm x.rate 200 0x04 0x80 (Spec.cshakeMsg x.rate N S ms.flatten)) n := by
  obtain ⟨k, hk, hk2, hk3⟩ := zeroPad_pos hr0 hfit
  rw [customize_eq perm x N S hr0 hr hN hS hne k hk hk2, updates_flatten, update_append,
    shake_read perm (init x.rate 0x04 0x80 200) _ n (by exact hr0) rfl rfl, ← hk3]
  rfl

/-- C13: with empty `N` and `S` cSHAKE is SHAKE. -/
theorem C13_cshake_empty (perm : List (BitVec 8) → List (BitVec 8)) (x : Ctx) :
    customize perm x [] [] = shakeInit x.rate := by
  unfold customize; simp; rfl

/-- C13, what the code does instead at an exact fit: one whole extra zero block is absorbed. -/
theorem C13_cshake_exact_fit (perm : List (BitVec 8) → List (BitVec 8)) (x : Ctx) (N S : List (BitVec 8))
    (ms : List (List (BitVec 8))) (n : Nat) (hr0 : 0 < x.rate) (hr : x.rate < 2 ^ 64)
    (hN : N.length < 2 ^ 61) (hS : S.length < 2 ^ 61) (hne : ¬ (N = [] ∧ S = []))
    (hfit : x.rate ∣ (Spec.leftEncode x.rate ++ (Spec.encodeString N ++ Spec.encodeString S)).length) :
    (read perm (shakeFinal perm (ms.foldl (update perm) (customize perm x N S))) n).1 =
      prefixOf (spongeStream perm x.rate 200 0x04 0x80
        (Spec.bytepad (Spec.encodeString N ++ Spec.encodeString S) x.rate ++
          List.replicate x.rate 0 ++ ms.flatten)) n := by
  rw [customize_eq perm x N S hr0 hr hN hS hne x.rate hr0
      (by rw [show (csPrefix x.rate N S).length % x.rate = 0 from Nat.mod_eq_zero_of_dvd hfit]; rfl),
    updates_flatten, update_append,
    shake_read perm (init x.rate 0x04 0x80 200) _ n (by exact hr0) rfl rfl]
  have e : Spec.bytepad (Spec.encodeString N ++ Spec.encodeString S) x.rate = csPrefix x.rate N S := by
    unfold Spec.bytepad
    rw [List.append_assoc, zeroPad_dvd hfit]; simp [csPrefix]
  rw [e]
  rfl

/-- C13, negation: cSHAKE128 (rate 168) with an empty `N` and a 161-byte `S` differs from SP 800-185
(for some permutation). -/
theorem C13_cshake_exact_fit_wrong :
    ∃ (perm : List (BitVec 8) → List (BitVec 8)) (S : List (BitVec 8)), S.length = 161 ∧
      (read perm (shakeFinal perm (customize perm (shakeInit 168) [] S)) 1).1 ≠
        prefixOf (spongeStream perm 168 200 0x04 0x80 (Spec.cshakeMsg 168 [] S [])) 1 := by
  refine ⟨fun s => s.map (· + 1), List.replicate 161 0, List.length_replicate, ?_⟩
  have h1 : (read (fun s => s.map (· + 1)) (shakeFinal (fun s => s.map (· + 1))
      (customize (fun s => s.map (· + 1)) (shakeInit 168) [] (List.replicate 161 0))) 1).1 = [8] := by
    decide +kernel
  rw [h1]
  decide +kernel

/-- The condition under which a MAC key or a customisation string does not trigger the exact-fit case. -/
def NoFit (r : Nat) (x : List (BitVec 8)) : Prop := ¬ r ∣ (Spec.leftEncode r ++ x).length

/-- C13 (partial, same exclusion for both paddings): KMAC with key `K`, customisation `S`, message
`ms` and `t` requested bytes, first call to `KMAC_Final`. -/
theorem C13_kmac_partial (perm : List (BitVec 8) → List (BitVec 8)) (rate : Nat) (K S : List (BitVec 8))
    (ms : List (List (BitVec 8))) (t : Nat) (hr0 : 0 < rate) (hr : rate < 200)
    (hK : K.length < 2 ^ 61) (hS : S.length < 2 ^ 61) (ht : t < 2 ^ 61)
    (hfit1 : NoFit rate (Spec.encodeString [0x4B, 0x4D, 0x41, 0x43] ++ Spec.encodeString S))
    (hfit2 : NoFit rate (Spec.encodeString K)) :
    ∃ x, kmacInit perm K S rate = some x ∧
      (kmacFinal perm (ms.foldl (update perm) x) t).1 =
        prefixOf (spongeStream perm rate 200 0x04 0x80 (Spec.kmacMsg rate K S ms.flatten (8 * t))) t := by
  obtain ⟨k1, p1, q1, e1⟩ := zeroPad_pos hr0 hfit1
  obtain ⟨k2, p2, q2, e2⟩ := zeroPad_pos hr0 hfit2
  let s0 : Ctx := init rate 0x04 0x80 200
  have hs0 : s0 = init rate 0x04 0x80 200 := rfl
  let P1 := csPrefix rate kmacName S ++ List.replicate k1 (0:Byte)
  let P2 := Spec.leftEncode rate ++ Spec.encodeString K
  have hd1 : rate ∣ P1.length := by
    have := dvd_padded hr0 (csPrefix rate kmacName S) rfl
    rw [show csPrefix rate kmacName S = Spec.leftEncode rate ++
      (Spec.encodeString [0x4B, 0x4D, 0x41, 0x43] ++ Spec.encodeString S) from rfl, e1] at this
    exact this
  have hx : kmacInit perm K S rate = some (update perm s0 (P1 ++ P2 ++ List.replicate k2 0)) := by
    unfold kmacInit
    rw [if_neg (by omega)]
    simp only
    rw [customize_eq perm (init rate 0x0f 0x80 200) kmacName S hr0 (show rate < 2 ^ 64 by omega) (by decide) hS
      (by simp [kmacName]) k1 p1 q1]
    rw [leftEncode_eq, encodeString_eq perm _ K hK, update_append, update_append]
    have er : (BitVec.ofNat 64 rate).toNat = rate := by
      rw [BitVec.toNat_ofNat]; exact Nat.mod_eq_of_lt (by omega)
    rw [er]
    have hq : k2 + (P1 ++ P2).length % rate = rate := by
      obtain ⟨c, hc⟩ := hd1
      rw [List.length_append, hc, Nat.mul_add_mod]; exact q2
    rw [← updateNull_eq perm s0 (P1 ++ P2) k2 hr0 rfl p2 hq]
    simp only [P1, P2, List.append_assoc]
    rfl
  refine ⟨_, hx, ?_⟩
  rw [updates_flatten, update_append]
  unfold kmacFinal
  have hf : (update perm s0 (P1 ++ P2 ++ List.replicate k2 0 ++ ms.flatten)).finalized = false := by
    rw [update_fresh perm s0 _ (by exact hr0) rfl]; rfl
  simp only [hf, Bool.false_eq_true, if_false]
  rw [rightEncode_eq, mul8 _ ht]
  have hsave : ∀ (m w : List Byte), update perm (save (update perm s0 m)) w =
      { update perm s0 (m ++ w) with saved := (update perm s0 m).state } := by
    intro m w
    rw [← update_append]
    generalize update perm s0 m = y
    have : ∀ (w : List Byte) (y : Ctx) (z : List Byte), update perm { y with saved := z } w =
        { update perm y w with saved := z } := by
      intro w
      induction w with
      | nil => intros; rfl
      | cons b w ih =>
        intro y z
        show update perm (absorbByte perm _ b) w = _
        have : absorbByte perm { y with saved := z } b = { absorbByte perm y b with saved := z } := by
          unfold absorbByte; simp only; split <;> rfl
        rw [this, ih]; rfl
    exact this w y y.state
  rw [hsave]
  have hfin : ∀ (y : Ctx) (z : List Byte), final perm { y with saved := z } = { final perm y with saved := z } := by
    intro y z; unfold final; simp only; split <;> rfl
  rw [hfin, final_fresh perm s0 _ (by exact hr0) rfl rfl]
  rw [read_zero perm _ _ (by exact hr0) rfl]
  have em : Spec.kmacMsg rate K S ms.flatten (8 * t) =
      P1 ++ P2 ++ List.replicate k2 0 ++ ms.flatten ++ Spec.rightEncode (8 * t) := by
    unfold Spec.kmacMsg Spec.cshakeMsg Spec.bytepad
    rw [List.append_assoc (Spec.leftEncode rate), e1, e2]
    simp only [P1, P2, csPrefix, kmacName, List.append_assoc]
  unfold prefixOf spongeStream
  rw [em]
  rfl

example : ¬ (168 ∣ (Spec.leftEncode 168 ++ (Spec.encodeString [] ++ Spec.encodeString [1, 2, 3])).length) := by
  decide +kernel
example : NoFit 168 (Spec.encodeString [0x4B, 0x4D, 0x41, 0x43] ++ Spec.encodeString []) ∧
    NoFit 168 (Spec.encodeString (List.replicate 32 7)) := by unfold NoFit; decide +kernel
/-- The exact-fit hypothesis of `C13_cshake_exact_fit` is met by a 161-byte customisation string. -/
example : 168 ∣ (Spec.leftEncode 168 ++ (Spec.encodeString [] ++
    Spec.encodeString (List.replicate 161 7))).length := by decide +kernel

/-! ## C14 finalisation is repeatable -/

/-- Calls on a SHA-3 context after the first `SHA3_Final`. -/
inductive HashOp
  | update (data : List (BitVec 8))
  | final (t : Nat)

/-- Outputs of the `final` calls. -/
def sha3Run (perm : List (BitVec 8) → List (BitVec 8)) : Ctx → List HashOp → List (List (BitVec 8))
  | _, [] => []
  | x, .update d :: ops => sha3Run perm (update perm x d) ops
  | x, .final t :: ops => (sha3Final perm x t).1 :: sha3Run perm (sha3Final perm x t).2 ops

/-- The digests a caller should see: the same stream, cut to each requested length. -/
def digestRun (digest : Nat → BitVec 8) : List HashOp → List (List (BitVec 8))
  | [] => []
  | .update _ :: ops => digestRun digest ops
  | .final t :: ops => prefixOf digest t :: digestRun digest ops

/-- C14 for SHA-3: after the first finalisation every further `SHA3_Final`, at any length and with any
stray updates in between, returns the same digest, truncated or zero-filled. -/
theorem C14_sha3 (perm : List (BitVec 8) → List (BitVec 8)) (rate : Nat) (hr : 0 < rate)
    (ms : List (List (BitVec 8))) (t : Nat) (ops : List HashOp) :
    sha3Run perm (ms.foldl (update perm) (sha3Init rate)) (.final t :: ops) =
      digestRun (fun k => if k < (200 - rate) / 2
        then spongeStream perm rate 200 0x06 0x80 ms.flatten k else 0) (.final t :: ops) := by
  -- invariant: finalised, and the saved block is the finalised sponge state
  let st := Spec.absorb perm rate (sha3Init rate).state
      (ms.flatten ++ Spec.spongePad rate 0x06 0x80 (ms.flatten.length % rate))
  let D : Nat → BitVec 8 := fun k => if k < (200 - rate) / 2
        then spongeStream perm rate 200 0x06 0x80 ms.flatten k else 0
  have hread : ∀ (x : Ctx), x.rate = rate → x.finalized = true → x.saved = st → ∀ t,
      (sha3Final perm x t).1 = prefixOf D t ∧ (sha3Final perm x t).2.rate = rate ∧
      (sha3Final perm x t).2.finalized = true ∧ (sha3Final perm x t).2.saved = st := by
    intro x h1 h2 h3 t
    subst h1
    unfold sha3Final
    simp only [h2, if_true]
    rw [read_spec perm _ (restore x) st 0 hr (by simpa [restore] using h3) (by simp [restore])]
    refine ⟨?_, rfl, h2, h3⟩
    generalize hH : (200 - x.rate) / 2 = hlen
    simp only [prefixOf, Nat.zero_add, D, hH]
    apply List.ext_getElem
    · simp; split <;> omega
    · intro i h1 h2
      simp only [List.length_map, List.length_range] at h2
      rw [List.getElem_append]
      simp only [List.length_map, List.length_range, List.getElem_map, List.getElem_range]
      by_cases c : i < hlen
      · rw [dif_pos (by split <;> omega), if_pos c]; rfl
      · rw [dif_neg (by split <;> omega), if_neg c]; simp
  have hupd : ∀ (d : List Byte) (x : Ctx), (update perm x d).rate = x.rate ∧
      (update perm x d).finalized = x.finalized ∧ (update perm x d).saved = x.saved := by
    intro d
    induction d with
    | nil => intro x; exact ⟨rfl, rfl, rfl⟩
    | cons b d ih =>
      intro x
      have h := ih (absorbByte perm x b)
      have h2 : (absorbByte perm x b).rate = x.rate ∧ (absorbByte perm x b).finalized = x.finalized ∧
          (absorbByte perm x b).saved = x.saved := by
        unfold absorbByte; simp only; split <;> exact ⟨rfl, rfl, rfl⟩
      exact ⟨h.1.trans h2.1, h.2.1.trans h2.2.1, h.2.2.trans h2.2.2⟩
  have hrun : ∀ (ops : List HashOp) (x : Ctx), x.rate = rate → x.finalized = true → x.saved = st →
      sha3Run perm x ops = digestRun D ops := by
    intro ops
    induction ops with
    | nil => intros; rfl
    | cons op ops ih =>
      intro x h1 h2 h3
      cases op with
      | update d =>
        obtain ⟨u1, u2, u3⟩ := hupd d x
        exact ih _ (u1.trans h1) (u2.trans h2) (u3.trans h3)
      | final t =>
        obtain ⟨r1, r2, r3, r4⟩ := hread x h1 h2 h3 t
        simp only [sha3Run, digestRun]
        rw [r1, ih _ r2 r3 r4]
  simp only [sha3Run, digestRun]
  rw [C11_sha3 perm rate hr ms t]
  congr 1
  rw [updates_flatten]
  have hf : (update perm (sha3Init rate) ms.flatten).finalized = false := (hupd _ _).2.1
  apply hrun
  · unfold sha3Final
    simp only [hf, Bool.false_eq_true, if_false]
    rw [final_fresh perm (sha3Init rate) _ (by exact hr) rfl rfl]
    rw [read_zero perm _ _ (by exact hr) rfl]
    rfl
  · unfold sha3Final
    simp only [hf, Bool.false_eq_true, if_false]
    rw [final_fresh perm (sha3Init rate) _ (by exact hr) rfl rfl]
    rw [read_zero perm _ _ (by exact hr) rfl]
    rfl
  · unfold sha3Final
    simp only [hf, Bool.false_eq_true, if_false]
    rw [final_fresh perm (sha3Init rate) _ (by exact hr) rfl rfl]
    rw [read_zero perm _ _ (by exact hr) rfl]
    rfl

/-- C14, negation for KMAC: a second `KMAC_Final` on a finalised context does not recompute anything; it
returns bytes of the saved *unfinalised* internal state (offset by the length of the length encoding),
disclosing secret state instead of the tag. -/
theorem C14_kmac_second_final_leaks_state (perm : List (BitVec 8) → List (BitVec 8)) (x : Ctx) (t : Nat)
    (hf : x.finalized = true) (ht : t < 2 ^ 61)
    (hroom : (Spec.rightEncode (8 * t)).length + t ≤ x.rate) (h0 : 0 < t)
    (hst : x.rate ≤ x.saved.length) :
    (kmacFinal perm x t).1 = (x.saved.drop (Spec.rightEncode (8 * t)).length).take t := by
  unfold kmacFinal
  simp only [hf, if_true]
  rw [rightEncode_eq, mul8 _ ht]
  generalize Spec.rightEncode (8 * t) = w at *
  rw [update_fresh perm (restore x) w (by show 0 < x.rate; omega) rfl]
  have hw : w.length < (restore x).rate := by show w.length < x.rate; omega
  have e1 : Spec.absorb perm (restore x).rate (restore x).state w = x.saved := by
    unfold Spec.absorb; rw [Spec.blocks_short hw]; rfl
  rw [e1, Spec.tailBlock_short hw, Nat.mod_eq_of_lt hw]
  unfold final
  simp only [restore, hf, if_true]
  have key : ∀ (n : Nat) (y : Ctx), y.filled + n ≤ y.rate → y.rate ≤ y.state.length →
      (read perm y n).1 = (y.state.drop y.filled).take n := by
    intro n
    induction n with
    | zero => intros; simp [Sponge.read]
    | succ n ih =>
      intro y h1 h2
      simp only [Sponge.read, readByte]
      have hd : y.state.drop y.filled = y.state.getD y.filled 0 :: y.state.drop (y.filled + 1) := by
        rw [List.drop_eq_getElem_cons (by omega), List.getD_eq_getElem?_getD,
          List.getElem?_eq_getElem (by omega)]; rfl
      rw [hd, List.take_succ_cons]
      by_cases c : y.filled + 1 = y.rate
      · have : n = 0 := by omega
        subst this; simp [Sponge.read]
      · rw [if_neg c, ih _ (by simp only; omega) (by simp only; omega)]
  rw [key t _ (by exact hroom) (by simp [Spec.length_xorOnto]; exact hst)]
  simp only
  congr 1
  apply List.ext_getElem
  · simp [Spec.length_xorOnto]
  · intro i h1 h2
    simp only [List.getElem_drop]
    rw [getElem_xorOnto]
    rw [List.getD_eq_getElem?_getD, List.getElem?_eq_none (by omega)]
    simp

/-- The hypotheses are those of any real KMAC128 context on its second 32-byte tag. -/
example : (Spec.rightEncode (8 * 32)).length + 32 ≤ 168 ∧ 168 ≤ (init 168 4 0x80 200).saved.length := by
  decide +kernel

/-- C14: `KMAC_Final` twice: the second tag differs from the first (concrete case). -/
theorem C14_kmac_not_repeatable :
    ∃ (perm : List (BitVec 8) → List (BitVec 8)) (x : Ctx), kmacInit perm [1] [] 168 = some x ∧
      (kmacFinal perm (kmacFinal perm x 4).2 4).1 ≠ (kmacFinal perm x 4).1 := by
  refine ⟨fun s => s.map (· + 1), (kmacInit (fun s => s.map (· + 1)) [1] [] 168).get (by decide +kernel),
    by simp, ?_⟩
  decide +kernel

end Props
