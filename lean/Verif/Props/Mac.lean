import Verif.Lemmas.Cmac
import Verif.Lemmas.Drbg
import Verif.Props.MD
import Verif.Props.Sponge

/-!
# Properties C19 (HMAC), C20 (CMAC), C30 (HMAC_DRBG), and C14 for these

`HashOps`/`PrfOps` are the function pointers of the C structures.  The generic theorems hold for every
incremental hash that obeys `HashLaw`; `md_law` and `sha3_law` show that the models of `sha.c`/`sm3.c` and
`sha3.c` do, so that the `_sha` and `_sha3` theorems below have no such hypothesis.
-/

namespace Props
open Mac
open Spec (fitTo hmac cmac)

/-! ## C19 HMAC -/

/-- C19, over any lawful hash: a key of at most one block is accepted and, for every splitting of the message, the tag of any
length is the RFC 2104 value cut or zero-filled to that length; `ts` are further `Final` calls made before
the one observed (C14). -/
theorem C19_hmac {σ : Type} {O : HashOps σ} {H : List Byte → List Byte} {N : Nat} {ok : σ → Prop}
    (law : HashLaw O H N ok) (hB : O.B ≤ 256) (hL : O.L ≤ 64) (hN : O.B + O.L < N)
    (mem : σ) (hok : ok mem) (key : List Byte) (hk : key.length ≤ O.B) (ms : List (List Byte))
    (hlen : O.B + ms.flatten.length < N) (ts : List Nat) (t : Nat) :
    ∃ h, hmacStart O mem key = some h ∧
      (hmacFinal O (ts.foldl (fun s u => (hmacFinal O s u).2) (ms.foldl (hmacUpdate O) h)) t).1 =
        fitTo (hmac H O.B key ms.flatten) t := by
  have : ∃ h, hmacStart O mem key = some h := by
    unfold hmacStart hmacSetKey
    rw [if_pos hk]
    exact ⟨_, rfl⟩
  obtain ⟨h, hh⟩ := this
  exact ⟨h, hh, hmac_final_state law hB hL hN (hmacInit mem) rfl hok key h hh ms hlen ts t⟩

/-- C19: a key longer than one block is refused (RFC 2104 would hash it). -/
theorem C19_long_key_refused {σ : Type} (O : HashOps σ) (mem : σ) (key : List Byte) (hk : O.B < key.length) :
    hmacStart O mem key = none := by
  unfold hmacStart hmacSetKey
  rw [if_neg (by omega)]

/-- The hashes of `sha.c` and `sm3.c` as `HashOps`. -/
def mdOps {σ : Type} (A : MD.Alg σ) : HashOps (MD.Ctx σ) :=
  { B := 16 * A.w, L := A.hlen, hInit := fun s => MD.init A s.msg, hUpdate := MD.update A, hFinal := MD.finalOut A }

theorem zeroLoop_len (n : Nat) : ∀ (f : Nat) (l : List Byte), (MD.zeroLoop n f l).length = l.length := by
  induction n with
  | zero => intro f l; rfl
  | succ n ih => intro f l; unfold MD.zeroLoop; rw [ih]; simp

theorem writeAt_len (bs : List Byte) : ∀ (o : Nat) (l : List Byte), (MD.writeAt l o bs).length = l.length := by
  induction bs with
  | nil => intro o l; rfl
  | cons b bs ih => intro o l; unfold MD.writeAt; rw [ih]; simp

theorem md_update_len {σ : Type} (A : MD.Alg σ) (s : MD.Ctx σ) (d : List Byte) : (MD.update A s d).msg.length = s.msg.length := by
  unfold MD.update
  simp only
  induction d generalizing s with
  | nil => rfl
  | cons b d ih =>
    rw [List.foldl_cons, ih]
    unfold MD.pushByte
    simp only
    split <;> simp

theorem md_final_len {σ : Type} (A : MD.Alg σ) (s : MD.Ctx σ) (t : Nat) : (MD.finalOut A s t).2.msg.length = s.msg.length := by
  unfold MD.finalOut MD.final
  simp only
  split
  · rfl
  · simp only [writeAt_len]
    split
    · simp only [zeroLoop_len, List.length_set]
    · simp only [zeroLoop_len, List.length_set]

theorem md_law {σ : Type} (A : MD.Alg σ) (hw : A.w = 4 ∨ A.w = 8)
    (ho : ∀ h, A.hlen ≤ (A.out h).length ∧ (A.out h).length ≤ 16 * A.w) :
    HashLaw (mdOps A) (mdDigest A) (2 ^ 61) (fun s => s.msg.length = 16 * A.w) where
  len := fun m => by unfold mdDigest; rw [List.length_take]; exact Nat.min_eq_left (ho _).1
  okI := fun _ h => h
  okU := fun s d h => by show (MD.update A s d).msg.length = _; rw [md_update_len]; exact h
  okF := fun s t h => by show (MD.finalOut A s t).2.msg.length = _; rw [md_final_len]; exact h
  digest := fun s h ms hlen ts t => C14_md A hw s.msg h ms hlen ho ts t

/-- C19 (and C14) for HMAC over SHA-1, SHA-2 and SM3: `mdDigest` is the padded Merkle-Damgard hash of C15. -/
theorem C19_hmac_sha {σ : Type} (A : MD.Alg σ) (hw : A.w = 4 ∨ A.w = 8)
    (ho : ∀ h, A.hlen ≤ (A.out h).length ∧ (A.out h).length ≤ 16 * A.w) (hL : A.hlen ≤ 64)
    (mem : MD.Ctx σ) (hmem : mem.msg.length = 16 * A.w) (key : List Byte) (hk : key.length ≤ 16 * A.w)
    (ms : List (List Byte)) (hlen : ms.flatten.length < 2 ^ 60) (ts : List Nat) (t : Nat) :
    ∃ h, hmacStart (mdOps A) mem key = some h ∧
      (hmacFinal (mdOps A) (ts.foldl (fun s u => (hmacFinal (mdOps A) s u).2) (ms.foldl (hmacUpdate (mdOps A)) h)) t).1 =
        fitTo (hmac (mdDigest A) (16 * A.w) key ms.flatten) t := by
  have hw8 : 16 * A.w ≤ 128 := by omega
  have e1 : (mdOps A).B = 16 * A.w := rfl
  have e2 : (mdOps A).L = A.hlen := rfl
  exact C19_hmac (md_law A hw ho) (by omega) (by omega) (by omega) mem hmem key hk ms (by omega) ts t

/-- The hashes of `sha3.c` as `HashOps`; `rate` is `200 - 2 * hlen`. -/
def sha3Ops (perm : List Byte → List Byte) (rate : Nat) : HashOps Sponge.Ctx :=
  { B := rate, L := (200 - rate) / 2, hInit := fun _ => Sponge.sha3Init rate, hUpdate := Sponge.update perm,
    hFinal := Sponge.sha3Final perm }

/-- The SHA-3 digest: the first `(200 - rate) / 2` bytes of the sponge output. -/
def sha3Digest (perm : List Byte → List Byte) (rate : Nat) (m : List Byte) : List Byte :=
  Spec.prefixOf (Spec.spongeStream perm rate 200 0x06 0x80 m) ((200 - rate) / 2)

theorem sha3_run_last (perm : List Byte → List Byte) (D : Nat → Byte) (ts : List Nat) (t : Nat) : ∀ x : Sponge.Ctx,
    sha3Run perm x (ts.map .final ++ [.final t]) = digestRun D (ts.map .final ++ [.final t]) →
    (Sponge.sha3Final perm (ts.foldl (fun s u => (Sponge.sha3Final perm s u).2) x) t).1 = Spec.prefixOf D t := by
  induction ts with
  | nil =>
    intro x h
    simp [sha3Run, digestRun] at h
    exact h
  | cons u ts ih =>
    intro x h
    simp only [List.map_cons, List.cons_append, sha3Run, digestRun, List.cons.injEq] at h
    exact ih _ h.2

theorem sha3_law (perm : List Byte → List Byte) (rate : Nat) (hr : 0 < rate) (N : Nat) :
    HashLaw (sha3Ops perm rate) (sha3Digest perm rate) N (fun _ => True) where
  len := fun m => by simp [sha3Digest, Spec.prefixOf, sha3Ops]
  okI := fun _ h => h
  okU := fun _ _ h => h
  okF := fun _ _ h => h
  digest := fun s _ ms _ ts t => by
    show (Sponge.sha3Final perm (ts.foldl _ (ms.foldl (Sponge.update perm) (Sponge.sha3Init rate))) t).1 = _
    set D : Nat → Byte := fun k => if k < (200 - rate) / 2
      then Spec.spongeStream perm rate 200 0x06 0x80 ms.flatten k else 0 with hD
    have key := sha3_run_last perm D ts t (ms.foldl (Sponge.update perm) (Sponge.sha3Init rate)) (by
      cases ts with
      | nil => exact C14_sha3 perm rate hr ms t []
      | cons u ts => exact C14_sha3 perm rate hr ms u (ts.map .final ++ [.final t]))
    refine Eq.trans key ?_
    unfold Spec.prefixOf fitTo
    apply List.map_congr_left
    intro i _
    rw [hD]
    simp only [sha3Digest, Spec.prefixOf]
    by_cases c : i < (200 - rate) / 2
    · rw [if_pos c, List.getD_eq_getElem?_getD, List.getElem?_eq_getElem (by simpa using c)]; simp
    · rw [if_neg c, List.getD_eq_getElem?_getD, List.getElem?_eq_none (by simp; omega)]; rfl

/-- C19 (and C14) for HMAC over SHA-3. -/
theorem C19_hmac_sha3 (perm : List Byte → List Byte) (rate : Nat) (hr : 72 ≤ rate) (hr2 : rate ≤ 200)
    (mem : Sponge.Ctx) (key : List Byte) (hk : key.length ≤ rate)
    (ms : List (List Byte)) (ts : List Nat) (t : Nat) :
    ∃ h, hmacStart (sha3Ops perm rate) mem key = some h ∧
      (hmacFinal (sha3Ops perm rate) (ts.foldl (fun s u => (hmacFinal (sha3Ops perm rate) s u).2)
        (ms.foldl (hmacUpdate (sha3Ops perm rate)) h)) t).1 =
        fitTo (hmac (sha3Digest perm rate) rate key ms.flatten) t := by
  have e1 : (sha3Ops perm rate).B = rate := rfl
  have e2 : (sha3Ops perm rate).L = (200 - rate) / 2 := rfl
  exact C19_hmac (sha3_law perm rate (by omega) (rate + (200 - rate) / 2 + ms.flatten.length + 1)) (by omega) (by omega) (by omega)
    mem trivial key hk ms (by omega) ts t

/-- C19, what does not hold: `HMAC_SetKey` on a context that was already finalised leaves it marked
finalised, and the next tag is only the inner hash `H(K ^ ipad || msg)`. -/
theorem C19_rekey_after_final {σ : Type} {O : HashOps σ} {H : List Byte → List Byte} {N : Nat} {ok : σ → Prop}
    (law : HashLaw O H N ok) (hB : O.B ≤ 256) (x : Hmac σ) (hx : ok x.aux) (t0 : Nat)
    (key : List Byte) (hk : key.length ≤ O.B) (ms : List (List Byte)) (hlen : O.B + ms.flatten.length < N) (t : Nat) :
    ∃ h, hmacSetKey O (hmacFinal O x t0).2 key = some h ∧
      (hmacFinal O (ms.foldl (hmacUpdate O) h) t).1 =
        fitTo (H ((key ++ List.replicate (O.B - key.length) 0).map (· ^^^ 0x36) ++ ms.flatten)) t := by
  have : ∃ h, hmacSetKey O (hmacFinal O x t0).2 key = some h := by
    unfold hmacSetKey
    rw [if_pos hk]
    exact ⟨_, rfl⟩
  obtain ⟨h, hh⟩ := this
  have hfin : (hmacFinal O x t0).2.finalized = true := by
    unfold hmacFinal
    by_cases c : x.finalized <;> simp [c]
  exact ⟨h, hh, hmac_rekey law hB _ hfin (hmacFinal_ok law x hx t0) key h hh ms hlen t⟩

/-- A toy hash (xor of all bytes, on 64-byte blocks) for the examples. -/
def toyAlg : MD.Alg (List Byte) :=
  { w := 4, comp := fun h b => [(h ++ b).foldl (fun x y => 3 * x + y) 0], out := fun h => [h.getD 0 0], H0 := [7], hlen := 1 }

theorem toy_ok : ∀ h, toyAlg.hlen ≤ (toyAlg.out h).length ∧ (toyAlg.out h).length ≤ 16 * toyAlg.w := fun _ => by simp [toyAlg]

example : (∃ h, hmacStart (mdOps toyAlg) (MD.init toyAlg (List.replicate 64 5)) [1, 2, 3] = some h ∧
    (hmacFinal (mdOps toyAlg) ([[9], [], [8, 8]].foldl (hmacUpdate (mdOps toyAlg)) h) 1).1 =
      hmac (mdDigest toyAlg) 64 [1, 2, 3] [9, 8, 8]) := by
  obtain ⟨h, h1, h2⟩ := C19_hmac_sha toyAlg (Or.inl rfl) toy_ok (by decide) (MD.init toyAlg (List.replicate 64 5)) (by simp [MD.init, toyAlg])
    [1, 2, 3] (by decide) [[9], [], [8, 8]] (by decide) [] 1
  exact ⟨h, h1, h2.trans (by decide +kernel)⟩

/-- The re-keyed tag really differs from HMAC. -/
theorem C19_rekey_breaks_hmac : ∃ h0 h, hmacStart (mdOps toyAlg) (MD.init toyAlg (List.replicate 64 5)) [1] = some h0 ∧
    hmacSetKey (mdOps toyAlg) (hmacFinal (mdOps toyAlg) h0 1).2 [1] = some h ∧
    (hmacFinal (mdOps toyAlg) (hmacUpdate (mdOps toyAlg) h [2]) 1).1 ≠ hmac (mdDigest toyAlg) 64 [1] [2] := by
  refine ⟨(hmacStart (mdOps toyAlg) (MD.init toyAlg (List.replicate 64 5)) [1]).get (by decide +kernel),
    (hmacSetKey (mdOps toyAlg) (hmacFinal (mdOps toyAlg) ((hmacStart (mdOps toyAlg) (MD.init toyAlg (List.replicate 64 5)) [1]).get
      (by decide +kernel)) 1).2 [1]).get (by decide +kernel), by simp, by simp, by decide +kernel⟩

/-! ## C20 CMAC -/

/-- C20: with any 16-byte block cipher, `CMAC_*_Init` accepts exactly keys of the cipher's size, and the tag is the SP 800-38B
value of the concatenated data, cut or zero-filled to the requested length. -/
theorem C20_cmac (enc : List Byte → List Byte) (hE : ∀ x : List Byte, x.length = 16 → (enc x).length = 16)
    (keyBytes : Nat) (hkb : keyBytes < 64) (ms : List (List Byte)) (t : Nat) :
    ∃ c, cmacStart enc keyBytes keyBytes = some c ∧
      (cmacFinal enc (ms.foldl (cmacUpdate enc) c) t).1 = fitTo (cmac enc ms.flatten) t := by
  have h63 : ((BitVec.ofNat 8 keyBytes &&& 0x3f#8) &&& 0x3f#8).toNat = keyBytes := by
    have : ∀ k : Fin 64, ((BitVec.ofNat 8 k.val &&& 0x3f#8) &&& 0x3f#8).toNat = k.val := by decide
    exact this ⟨keyBytes, hkb⟩
  have : ∃ c, cmacStart enc keyBytes keyBytes = some c := by
    unfold cmacStart cmacSetKey cmacInit
    simp only
    rw [h63, if_neg (by simp)]
    exact ⟨_, rfl⟩
  obtain ⟨c, hc⟩ := this
  exact ⟨c, hc, cmac_final_value enc hE _ c _ hc ms t⟩

/-- C20: a key of another length is refused. -/
theorem C20_wrong_key_length (enc : List Byte → List Byte) (keyBytes keylen : Nat) (hkb : keyBytes < 64) (h : keylen ≠ keyBytes) :
    cmacStart enc keyBytes keylen = none := by
  have h63 : ((BitVec.ofNat 8 keyBytes &&& 0x3f#8) &&& 0x3f#8).toNat = keyBytes := by
    have : ∀ k : Fin 64, ((BitVec.ofNat 8 k.val &&& 0x3f#8) &&& 0x3f#8).toNat = k.val := by decide
    exact this ⟨keyBytes, hkb⟩
  unfold cmacStart cmacSetKey cmacInit
  simp only
  rw [h63, if_pos h]

/-- C20: `CMAC_SetKey` restarts a used context (whatever was in it, finalised or not). -/
theorem C20_rekey (enc : List Byte → List Byte) (hE : ∀ x : List Byte, x.length = 16 → (enc x).length = 16)
    (c0 c : Cmac) (keylen : Nat) (hc : cmacSetKey enc c0 keylen = some c) (ms : List (List Byte)) (t : Nat) :
    (cmacFinal enc (ms.foldl (cmacUpdate enc) c) t).1 = fitTo (cmac enc ms.flatten) t :=
  cmac_final_value enc hE c0 c keylen hc ms t

example : ∃ enc : List Byte → List Byte, (∀ x : List Byte, x.length = 16 → (enc x).length = 16) ∧
    (cmac enc [1, 2, 3]).take 2 = [6, 7] ∧ (cmac enc []).take 2 = [133, 5] :=
  ⟨fun x => x.map (· + 1), fun x h => by simpa using h, by decide +kernel, by decide +kernel⟩

/-- C14 does not hold for CMAC: the "finalised" mark `0400` does not fit the 8-bit `flags`, so a second
`CMAC_Final` processes the tag again.  After a message of whole blocks it returns `E(tag ^ K1)`. -/
theorem C14_cmac_second_final (enc : List Byte → List Byte) (hE : ∀ x : List Byte, x.length = 16 → (enc x).length = 16)
    (keyBytes : Nat) (c : Cmac) (hc : cmacStart enc keyBytes keyBytes = some c) (ms : List (List Byte))
    (hm : 0 < ms.flatten.length) (hm2 : 16 ∣ ms.flatten.length) (t0 t : Nat) :
    (cmacFinal enc (cmacFinal enc (ms.foldl (cmacUpdate enc) c) t0).2 t).1 =
      fitTo (enc (Spec.xorBytes (cmac enc ms.flatten)
        (Spec.bytes128 (Spec.dbl (Spec.block128 (enc (List.replicate 16 0))))))) t := by
  obtain ⟨h1, h2⟩ := cmacFin_T enc hE _ c keyBytes hc ms
  have hz : (enc (List.replicate 16 0)).length = 16 := hE _ (by simp)
  obtain ⟨hT, hK1, hf⟩ : c.T = List.replicate 16 0 ∧ c.K1 = cmacDouble (enc (List.replicate 16 0)) ∧ c.filled = 0 := by
    unfold cmacStart cmacSetKey at hc
    split at hc
    · exact absurd hc (by simp)
    · simp only [Option.some.injEq] at hc
      subst hc
      simp only [and_self]
  rw [cmacDouble_spec _ hz] at hK1
  have hrel : CRel c (List.replicate 16 0, []) := ⟨by simp, by simp, by rw [hf]; rfl, by rw [hT]; rfl⟩
  have hr := cmacUpdates enc hE ms _ _ hrel
  rw [Spec.foldl_lazyPush _ _ (by norm_num)] at hr
  have hkeys := cmacUpdate_keys enc ms c
  have hlast := Spec.length_lastBlock (r := 16) (by norm_num) ms.flatten (by
    intro h0; rw [h0] at hm; simp at hm)
  have hfl : (ms.foldl (cmacUpdate enc) c).filled = 16 := by
    rw [hr.2.2.1]; show (Spec.lastBlock 16 ms.flatten).length = 16; omega
  have hk1 : (cmacFin enc (ms.foldl (cmacUpdate enc) c)).K1 = Spec.bytes128 (Spec.dbl (Spec.block128 (enc (List.replicate 16 0)))) := by
    unfold cmacFin
    rw [if_pos (by omega)]
    simp only
    rw [hkeys.1, hK1]
  have hfl2 : (cmacFin enc (ms.foldl (cmacUpdate enc) c)).filled = 16 := by
    unfold cmacFin
    rw [if_pos (by omega)]
    exact hfl
  rw [cmacFinal_snd]
  generalize cmacFin enc (ms.foldl (cmacUpdate enc) c) = d at *
  have e : (cmacFin enc d).T = enc (Spec.xorBytes d.T d.K1) := by
    unfold cmacFin
    rw [if_pos (by omega)]
  rw [cmacFinal_fst _ _ _ (by
    rw [e]; exact hE _ (length_xorBytes _ _ _ (by rw [h1]; exact h2) (by rw [hk1]; exact Spec.length_bytes128 _))), e, h1, hk1]

/-- The second tag differs from the first. -/
theorem C14_cmac_not_repeatable : ∃ (enc : List Byte → List Byte) (c : Cmac),
    (∀ x : List Byte, x.length = 16 → (enc x).length = 16) ∧ cmacStart enc 16 16 = some c ∧
    (cmacFinal enc (cmacFinal enc (cmacUpdate enc c [1, 2, 3]) 16).2 16).1 ≠ (cmacFinal enc (cmacUpdate enc c [1, 2, 3]) 16).1 :=
  ⟨fun x => x.map (· + 1), (cmacStart (fun x => x.map (· + 1)) 16 16).get (by decide +kernel), fun x h => by simpa using h, by simp, by decide +kernel⟩

/-! ## C30 HMAC_DRBG -/

/-- Calls on an HMAC_DRBG after `Seed` (the first call). -/
inductive DrbgOp
  | seed (s : List Byte)
  | reseed (s : List Byte)
  | generate (n : Nat)

/-- The outputs of the `generate` calls of the code. -/
def drbgRun {σ : Type} (P : PrfOps σ) : Drbg σ → List DrbgOp → Option (List (List Byte))
  | _, [] => some []
  | x, .seed s :: ops => do drbgRun P (← drbgSeed P x s) ops
  | x, .reseed s :: ops => do drbgRun P (← drbgReseed P x s) ops
  | x, .generate n :: ops => do
    let (o, x) ← drbgGenerate P x n
    let os ← drbgRun P x ops
    some (o :: os)

/-- The outputs according to SP 800-90A. -/
def drbgSpecRun (prf : List Byte → List Byte → List Byte) (L : Nat) : List Byte × List Byte → List DrbgOp → List (List Byte)
  | _, [] => []
  | _, .seed s :: ops => drbgSpecRun prf L (Spec.drbgInstantiate prf L s) ops
  | st, .reseed s :: ops => drbgSpecRun prf L (Spec.drbgUpdate prf st s) ops
  | st, .generate n :: ops =>
    (Spec.drbgGenerate prf L st n).1 :: drbgSpecRun prf L (Spec.drbgGenerate prf L st n).2 ops

/-- The seed inputs of a call sequence are not absurdly long. -/
def seedsBelow (b : Nat) : List DrbgOp → Prop
  | [] => True
  | .seed s :: ops => s.length < b ∧ seedsBelow b ops
  | .reseed s :: ops => s.length < b ∧ seedsBelow b ops
  | .generate _ :: ops => seedsBelow b ops

/-- C30 over any lawful PRF. -/
theorem C30_drbg {σ : Type} {P : PrfOps σ} {prf : List Byte → List Byte → List Byte} {N : Nat} {ok : σ → Prop}
    (law : PrfLaw P prf N ok) (hL : 0 < P.outlen) (hN : P.outlen + 1 < N) (x : Drbg σ) (hx : ok x.H) (seed : List Byte)
    (ops : List DrbgOp) (hs : seedsBelow (N - P.outlen - 1) (.seed seed :: ops)) :
    drbgRun P x (.seed seed :: ops) = some (drbgSpecRun prf P.outlen ([], []) (.seed seed :: ops)) := by
  have hseed : ∀ (y : Drbg σ) (s : List Byte), ok y.H → s.length < N - P.outlen - 1 →
      ∃ y', drbgSeed P y s = some y' ∧ DRel P ok y' (Spec.drbgInstantiate prf P.outlen s) := by
    intro y s hy hs
    exact drbgUpdate_spec law { y with K := List.replicate P.outlen 0, V := List.replicate P.outlen 1 }
      (List.replicate P.outlen 0, List.replicate P.outlen 1) ⟨rfl, rfl, by simp, by simp, hy⟩ s (by omega)
  have gen : ∀ (ops : List DrbgOp) (y : Drbg σ) (st : List Byte × List Byte), DRel P ok y st → seedsBelow (N - P.outlen - 1) ops →
      drbgRun P y ops = some (drbgSpecRun prf P.outlen st ops) := by
    intro ops
    induction ops with
    | nil => intro y st _ _; rfl
    | cons op ops ih =>
      intro y st h hb
      cases op with
      | seed s =>
        obtain ⟨y', g1, g2⟩ := hseed y s h.2.2.2.2 hb.1
        show (do drbgRun P (← drbgSeed P y s) ops) = _
        rw [g1]
        exact ih y' _ g2 hb.2
      | reseed s =>
        obtain ⟨y', g1, g2⟩ := drbgUpdate_spec law y st h s (by have := hb.1; omega)
        show (do drbgRun P (← drbgReseed P y s) ops) = _
        unfold drbgReseed
        rw [g1]
        exact ih y' _ g2 hb.2
      | generate n =>
        obtain ⟨y', g1, g2⟩ := drbgGenerate_spec law hL hN y st h n
        unfold drbgRun drbgSpecRun
        rw [g1]
        simp only [Option.bind_eq_bind, Option.bind_some]
        rw [ih y' _ g2 hb]
        rfl
  obtain ⟨y', g1, g2⟩ := hseed x seed hx hs.1
  show (do drbgRun P (← drbgSeed P x seed) ops) = _
  rw [g1]
  exact gen ops y' _ g2 hs.2

/-- C30 for HMAC_DRBG over SHA-1/SHA-2, with no hypothesis on the PRF. -/
theorem C30_drbg_hmac_sha {σ : Type} (A : MD.Alg σ) (hw : A.w = 4 ∨ A.w = 8)
    (ho : ∀ h, A.hlen ≤ (A.out h).length ∧ (A.out h).length ≤ 16 * A.w) (h0 : 0 < A.hlen) (hL : A.hlen ≤ 64)
    (x : Drbg (Hmac (MD.Ctx σ))) (hx : x.H.aux.msg.length = 16 * A.w) (seed : List Byte) (ops : List DrbgOp)
    (hs : seedsBelow (2 ^ 60) (.seed seed :: ops)) :
    drbgRun (hmacPrf (mdOps A)) x (.seed seed :: ops) =
      some (drbgSpecRun (hmac (mdDigest A) (16 * A.w)) A.hlen ([], []) (.seed seed :: ops)) := by
  have e1 : (mdOps A).B = 16 * A.w := rfl
  have e2 : (mdOps A).L = A.hlen := rfl
  have e3 : (hmacPrf (mdOps A)).outlen = A.hlen := rfl
  have hlb := (ho A.H0)
  have mono : ∀ (a b : Nat) (ops : List DrbgOp), a ≤ b → seedsBelow a ops → seedsBelow b ops := by
    intro a b ops hab
    induction ops with
    | nil => intro _; trivial
    | cons op ops ih =>
      cases op with
      | seed s => exact fun h => ⟨lt_of_lt_of_le h.1 hab, ih h.2⟩
      | reseed s => exact fun h => ⟨lt_of_lt_of_le h.1 hab, ih h.2⟩
      | generate n => exact fun h => ih h
  exact C30_drbg (hmac_prfLaw (md_law A hw ho) (by omega) (by omega) (by omega) (by omega)) (by omega) (by omega) x hx seed ops
    (mono _ _ _ (by omega) hs)

example : seedsBelow (2 ^ 60) [.seed [1], .generate 3, .reseed [2], .generate 2] ∧
    drbgSpecRun (hmac (mdDigest toyAlg) 64) 1 ([], []) [.seed [1], .generate 3, .reseed [2], .generate 2] =
      [[57, 33, 201], [173, 101]] :=
  ⟨by simp [seedsBelow], by decide +kernel⟩

end Props
