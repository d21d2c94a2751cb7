import Verif.Model.Dispatch
import Verif.Props.Query
import Verif.Props.Blake2
import Verif.Props.ConcreteSig
import Verif.Props.ConcreteEcc
import Verif.Props.ConcreteModes
import Verif.Props.National

/-!
# Property C89: what the functions that the algorithm objects name compute

A user of the library (and every construction in it) obtains functions from an algorithm object and calls them.  Here the objects are those of the
headers, the calls go through the pointers, and the results are those of the standards.
-/
namespace Props
open Dispatch Fips180 Spec
open Query (OUT_BYTES HMAC_INIT)

/-! ## Hash functions -/

/-- Hashing by way of the object: `INIT_FUNC`, any number of `UPDATE_FUNC`, any number of `FINAL_FUNC`, and one more: `none` if a call is undefined. -/
def useHash (h : IObj) (mem : St) (ms : List (List Byte)) (ts : List Nat) (t : Nat) : Option (List Byte) := do
  let s ← callInit (← h.fn .initFunc) mem
  let u ← h.fn .updateFunc
  let s ← ms.foldlM (fun s m => callUpdate u s m) s
  let f ← h.fn .finalFunc
  let s ← ts.foldlM (fun s t => (callFinal f s t).map Prod.snd) s
  (callFinal f s t).map Prod.fst

/-- Working memory for the contexts of `sha1_t`, `sha224_t`, `sha256_t` and `sm3_t`, whatever it holds; of `sha384_t` and the like; of `sha3_t` and
`shake_t`; of `blake2b_t`, `blake2s_t`. -/
def mem32 (s : St) : Prop := ∃ c, c.msg.length = 64 ∧ s = .s32 c
def mem64 (s : St) : Prop := ∃ c, c.msg.length = 128 ∧ s = .s64 c
def memSp (s : St) : Prop := ∃ c, True ∧ s = .sp c
def memB2b (s : St) : Prop := ∃ c, True ∧ s = .b2b c
def memB2s (s : St) : Prop := ∃ c, True ∧ s = .b2s c

/-- What is proved of a hash object: calls on its contexts are defined, and the functions are lawful for `H`. -/
structure HashRuns (h : IObj) (H : List Byte → List Byte) (ok : St → Prop) : Prop where
  law : Mac.HashLaw (hmacOps h) H (2 ^ 61) ok
  init : ∃ f, h.fn .initFunc = some f ∧ ∀ s, ok s → ∃ s', callInit f s = some s'
  upd : ∃ f, h.fn .updateFunc = some f ∧ ∀ s, ok s → ∀ d, ∃ s', callUpdate f s d = some s'
  fin : ∃ f, h.fn .finalFunc = some f ∧ ∀ s, ok s → ∀ t, ∃ r, callFinal f s t = some r
  noXof : h.fn .xofFinalFunc = none
  size : 0 < (hmacOps h).L ∧ (hmacOps h).L ≤ 64 ∧ (hmacOps h).L ≤ (hmacOps h).B ∧ (hmacOps h).B ≤ 256

theorem law_lift {σ τ : Type} {O : Mac.HashOps σ} {H : List Byte → List Byte} {N : Nat} {ok : σ → Prop} (L : Mac.HashLaw O H N ok) (P : Mac.HashOps τ)
    (ι : σ → τ) (hL : P.L = O.L) (hI : ∀ c, P.hInit (ι c) = ι (O.hInit c)) (hU : ∀ c d, P.hUpdate (ι c) d = ι (O.hUpdate c d))
    (hF : ∀ c t, P.hFinal (ι c) t = ((O.hFinal c t).1, ι (O.hFinal c t).2)) : Mac.HashLaw P H N (fun s => ∃ c, ok c ∧ s = ι c) where
  len := fun m => by rw [hL]; exact L.len m
  okI := by rintro s ⟨c, h, rfl⟩; exact ⟨_, L.okI c h, hI c⟩
  okU := by rintro s d ⟨c, h, rfl⟩; exact ⟨_, L.okU c d h, hU c d⟩
  okF := by rintro s t ⟨c, h, rfl⟩; exact ⟨_, L.okF c t h, by rw [hF]⟩
  digest := by
    rintro s ⟨c, h, rfl⟩ ms hl ts t
    rw [← L.digest c h ms hl ts t]
    have e1 : ∀ (ms : List (List Byte)) (c : σ), ms.foldl P.hUpdate (ι c) = ι (ms.foldl O.hUpdate c) := by
      intro ms; induction ms with
      | nil => intro c; rfl
      | cons m ms ih => intro c; rw [List.foldl_cons, List.foldl_cons, hU, ih]
    have e2 : ∀ (ts : List Nat) (c : σ), ts.foldl (fun s u => (P.hFinal s u).2) (ι c) = ι (ts.foldl (fun s u => (O.hFinal s u).2) c) := by
      intro ts; induction ts with
      | nil => intro c; rfl
      | cons m ms ih => intro c; rw [List.foldl_cons, List.foldl_cons, hF, ih]
    rw [hI, e1, e2, hF]

theorem runs_use {h : IObj} {H : List Byte → List Byte} {ok : St → Prop} (R : HashRuns h H ok) (mem : St) (hm : ok mem) (ms : List (List Byte))
    (hl : ms.flatten.length < 2 ^ 61) (ts : List Nat) (t : Nat) : useHash h mem ms ts t = some (fitTo (H ms.flatten) t) := by
  obtain ⟨f, hf, cf⟩ := R.init
  obtain ⟨u, hu, cu⟩ := R.upd
  obtain ⟨g, hg, cg⟩ := R.fin
  have eI : ∀ s, ok s → callInit f s = some ((hmacOps h).hInit s) := by
    intro s hs
    obtain ⟨s', e⟩ := cf s hs
    show _ = some (((h.fn .initFunc).bind fun f => callInit f s).getD s)
    rw [hf, Option.bind_some, e]; rfl
  have eU : ∀ s d, ok s → callUpdate u s d = some ((hmacOps h).hUpdate s d) := by
    intro s d hs
    obtain ⟨s', e⟩ := cu s hs d
    show _ = some (((h.fn .updateFunc).bind fun f => callUpdate f s d).getD s)
    rw [hu, Option.bind_some, e]; rfl
  have eF : ∀ s t, ok s → callFinal g s t = some ((hmacOps h).hFinal s t) := by
    intro s t hs
    obtain ⟨s', e⟩ := cg s hs t
    show _ = some (((h.fn .finalFunc).bind fun f => callFinal f s t).getD ([], s))
    rw [hg, Option.bind_some, e]; rfl
  have fU : ∀ (ms : List (List Byte)) s, ok s → ms.foldlM (fun s m => callUpdate u s m) s = some (ms.foldl (hmacOps h).hUpdate s) ∧
      ok (ms.foldl (hmacOps h).hUpdate s) := by
    intro ms; induction ms with
    | nil => intro s hs; exact ⟨rfl, hs⟩
    | cons m ms ih =>
      intro s hs
      rw [List.foldlM_cons, eU s m hs, List.foldl_cons]
      exact ih _ (R.law.okU s m hs)
  have fF : ∀ (ts : List Nat) s, ok s → ts.foldlM (fun s t => (callFinal g s t).map Prod.snd) s = some (ts.foldl (fun s t => ((hmacOps h).hFinal s t).2) s) ∧
      ok (ts.foldl (fun s t => ((hmacOps h).hFinal s t).2) s) := by
    intro ts; induction ts with
    | nil => intro s hs; exact ⟨rfl, hs⟩
    | cons t ts ih =>
      intro s hs
      rw [List.foldlM_cons, eF s t hs, List.foldl_cons]
      exact ih _ (R.law.okF s t hs)
  have h1 := fU ms _ (R.law.okI mem hm)
  have h2 := fF ts _ h1.2
  unfold useHash
  simp only [hf, hu, hg, Option.bind_eq_bind, Option.bind_some, eI mem hm, h1.1, h2.1, eF _ t h2.2, Option.map_some]
  rw [R.law.digest mem hm ms hl ts t]

theorem runs_sha1 : HashRuns iSHA1 Spec.Sha.sha1 mem32 where
  law := law_lift (dig_sha1 ▸ md_law algSha1 (.inl rfl) (fun h => by simp [algSha1, length_out32])) (hmacOps iSHA1) St.s32 rfl (fun _ => rfl) (fun _ _ => rfl) (fun _ _ => rfl)
  init := ⟨_, rfl, by rintro _ ⟨c, -, rfl⟩; exact ⟨_, rfl⟩⟩
  upd := ⟨_, rfl, by rintro _ ⟨c, -, rfl⟩ d; exact ⟨_, rfl⟩⟩
  fin := ⟨_, rfl, by rintro _ ⟨c, -, rfl⟩ t; exact ⟨_, rfl⟩⟩
  noXof := rfl
  size := by decide
theorem runs_sha224 : HashRuns iSHA224 Spec.Sha.sha224 mem32 where
  law := law_lift (dig_sha224 ▸ md_law algSha224 (.inl rfl) (fun h => by simp [algSha224, length_out32])) (hmacOps iSHA224) St.s32 rfl (fun _ => rfl) (fun _ _ => rfl) (fun _ _ => rfl)
  init := ⟨_, rfl, by rintro _ ⟨c, -, rfl⟩; exact ⟨_, rfl⟩⟩
  upd := ⟨_, rfl, by rintro _ ⟨c, -, rfl⟩ d; exact ⟨_, rfl⟩⟩
  fin := ⟨_, rfl, by rintro _ ⟨c, -, rfl⟩ t; exact ⟨_, rfl⟩⟩
  noXof := rfl
  size := by decide
theorem runs_sha256 : HashRuns iSHA256 Spec.Sha.sha256 mem32 where
  law := law_lift (dig_sha256 ▸ md_law algSha256 (.inl rfl) (fun h => by simp [algSha256, length_out32])) (hmacOps iSHA256) St.s32 rfl (fun _ => rfl) (fun _ _ => rfl) (fun _ _ => rfl)
  init := ⟨_, rfl, by rintro _ ⟨c, -, rfl⟩; exact ⟨_, rfl⟩⟩
  upd := ⟨_, rfl, by rintro _ ⟨c, -, rfl⟩ d; exact ⟨_, rfl⟩⟩
  fin := ⟨_, rfl, by rintro _ ⟨c, -, rfl⟩ t; exact ⟨_, rfl⟩⟩
  noXof := rfl
  size := by decide
theorem runs_sm3 : HashRuns iSM3 Spec.Sha.sm3 mem32 where
  law := law_lift (dig_sm3 ▸ md_law algSm3 (.inl rfl) (fun h => by simp [algSm3, length_out32])) (hmacOps iSM3) St.s32 rfl (fun _ => rfl) (fun _ _ => rfl) (fun _ _ => rfl)
  init := ⟨_, rfl, by rintro _ ⟨c, -, rfl⟩; exact ⟨_, rfl⟩⟩
  upd := ⟨_, rfl, by rintro _ ⟨c, -, rfl⟩ d; exact ⟨_, rfl⟩⟩
  fin := ⟨_, rfl, by rintro _ ⟨c, -, rfl⟩ t; exact ⟨_, rfl⟩⟩
  noXof := rfl
  size := by decide
theorem runs_sha384 : HashRuns iSHA384 Spec.Sha.sha384 mem64 where
  law := law_lift (dig_sha384 ▸ md_law algSha384 (.inr rfl) (fun h => by simp [algSha384, length_out64])) (hmacOps iSHA384) St.s64 rfl (fun _ => rfl) (fun _ _ => rfl) (fun _ _ => rfl)
  init := ⟨_, rfl, by rintro _ ⟨c, -, rfl⟩; exact ⟨_, rfl⟩⟩
  upd := ⟨_, rfl, by rintro _ ⟨c, -, rfl⟩ d; exact ⟨_, rfl⟩⟩
  fin := ⟨_, rfl, by rintro _ ⟨c, -, rfl⟩ t; exact ⟨_, rfl⟩⟩
  noXof := rfl
  size := by decide
theorem runs_sha512 : HashRuns iSHA512 Spec.Sha.sha512 mem64 where
  law := law_lift (dig_sha512 ▸ md_law algSha512 (.inr rfl) (fun h => by simp [algSha512, length_out64])) (hmacOps iSHA512) St.s64 rfl (fun _ => rfl) (fun _ _ => rfl) (fun _ _ => rfl)
  init := ⟨_, rfl, by rintro _ ⟨c, -, rfl⟩; exact ⟨_, rfl⟩⟩
  upd := ⟨_, rfl, by rintro _ ⟨c, -, rfl⟩ d; exact ⟨_, rfl⟩⟩
  fin := ⟨_, rfl, by rintro _ ⟨c, -, rfl⟩ t; exact ⟨_, rfl⟩⟩
  noXof := rfl
  size := by decide
theorem runs_sha512t224 : HashRuns iSHA512t224 Spec.Sha.sha512_224 mem64 where
  law := law_lift (dig_sha512_224 ▸ md_law algSha512t224 (.inr rfl) (fun h => by simp [algSha512t224, length_out64])) (hmacOps iSHA512t224) St.s64 rfl (fun _ => rfl) (fun _ _ => rfl) (fun _ _ => rfl)
  init := ⟨_, rfl, by rintro _ ⟨c, -, rfl⟩; exact ⟨_, rfl⟩⟩
  upd := ⟨_, rfl, by rintro _ ⟨c, -, rfl⟩ d; exact ⟨_, rfl⟩⟩
  fin := ⟨_, rfl, by rintro _ ⟨c, -, rfl⟩ t; exact ⟨_, rfl⟩⟩
  noXof := rfl
  size := by decide
theorem runs_sha512t256 : HashRuns iSHA512t256 Spec.Sha.sha512_256 mem64 where
  law := law_lift (dig_sha512_256 ▸ md_law algSha512t256 (.inr rfl) (fun h => by simp [algSha512t256, length_out64])) (hmacOps iSHA512t256) St.s64 rfl (fun _ => rfl) (fun _ _ => rfl) (fun _ _ => rfl)
  init := ⟨_, rfl, by rintro _ ⟨c, -, rfl⟩; exact ⟨_, rfl⟩⟩
  upd := ⟨_, rfl, by rintro _ ⟨c, -, rfl⟩ d; exact ⟨_, rfl⟩⟩
  fin := ⟨_, rfl, by rintro _ ⟨c, -, rfl⟩ t; exact ⟨_, rfl⟩⟩
  noXof := rfl
  size := by decide
theorem runs_sha3_224 : HashRuns (iSHA3 224) (sha3Digest Keccak.f1600 144) memSp where
  law := law_lift (sha3_law Keccak.f1600 144 (by decide) (2 ^ 61)) (hmacOps (iSHA3 224)) St.sp rfl (fun _ => rfl) (fun _ _ => rfl) (fun _ _ => rfl)
  init := ⟨_, rfl, by rintro _ ⟨c, -, rfl⟩; exact ⟨_, rfl⟩⟩
  upd := ⟨_, rfl, by rintro _ ⟨c, -, rfl⟩ d; exact ⟨_, rfl⟩⟩
  fin := ⟨_, rfl, by rintro _ ⟨c, -, rfl⟩ t; exact ⟨_, rfl⟩⟩
  noXof := rfl
  size := by decide
theorem runs_sha3_256 : HashRuns (iSHA3 256) (sha3Digest Keccak.f1600 136) memSp where
  law := law_lift (sha3_law Keccak.f1600 136 (by decide) (2 ^ 61)) (hmacOps (iSHA3 256)) St.sp rfl (fun _ => rfl) (fun _ _ => rfl) (fun _ _ => rfl)
  init := ⟨_, rfl, by rintro _ ⟨c, -, rfl⟩; exact ⟨_, rfl⟩⟩
  upd := ⟨_, rfl, by rintro _ ⟨c, -, rfl⟩ d; exact ⟨_, rfl⟩⟩
  fin := ⟨_, rfl, by rintro _ ⟨c, -, rfl⟩ t; exact ⟨_, rfl⟩⟩
  noXof := rfl
  size := by decide
theorem runs_sha3_384 : HashRuns (iSHA3 384) (sha3Digest Keccak.f1600 104) memSp where
  law := law_lift (sha3_law Keccak.f1600 104 (by decide) (2 ^ 61)) (hmacOps (iSHA3 384)) St.sp rfl (fun _ => rfl) (fun _ _ => rfl) (fun _ _ => rfl)
  init := ⟨_, rfl, by rintro _ ⟨c, -, rfl⟩; exact ⟨_, rfl⟩⟩
  upd := ⟨_, rfl, by rintro _ ⟨c, -, rfl⟩ d; exact ⟨_, rfl⟩⟩
  fin := ⟨_, rfl, by rintro _ ⟨c, -, rfl⟩ t; exact ⟨_, rfl⟩⟩
  noXof := rfl
  size := by decide
theorem runs_sha3_512 : HashRuns (iSHA3 512) (sha3Digest Keccak.f1600 72) memSp where
  law := law_lift (sha3_law Keccak.f1600 72 (by decide) (2 ^ 61)) (hmacOps (iSHA3 512)) St.sp rfl (fun _ => rfl) (fun _ _ => rfl) (fun _ _ => rfl)
  init := ⟨_, rfl, by rintro _ ⟨c, -, rfl⟩; exact ⟨_, rfl⟩⟩
  upd := ⟨_, rfl, by rintro _ ⟨c, -, rfl⟩ d; exact ⟨_, rfl⟩⟩
  fin := ⟨_, rfl, by rintro _ ⟨c, -, rfl⟩ t; exact ⟨_, rfl⟩⟩
  noXof := rfl
  size := by decide

/-- BLAKE2 of `n` octets with no key, as operations on its own context. -/
def b2Ops {W : Nat} (p : Blake2.Prm W) (B n : Nat) : Mac.HashOps (Blake2.Ctx W) where
  B := B
  L := n
  hInit := fun s => (Blake2.init p n []).getD s
  hUpdate := Blake2.update p
  hFinal := Blake2.final p

theorem b2b_law (n : Nat) (h1 : 1 ≤ n) (h2 : n ≤ 64) : Mac.HashLaw (b2Ops Blake2.prmB 128 n) (Spec.Blake2.hash Spec.Blake2.blake2b n []) (2 ^ 61) (fun _ => True) where
  len := fun m => by simp [Spec.Blake2.hash, b2Ops]
  okI := fun _ _ => trivial
  okU := fun _ _ _ => trivial
  okF := fun _ _ _ => trivial
  digest := fun s _ ms hl ts t => by
    obtain ⟨x, hx⟩ := Option.isSome_iff_exists.mp ((C16_init_accepts n []).1.mpr ⟨h1, h2, by simp⟩)
    show (Blake2.final _ (ts.foldl _ (ms.foldl _ ((Blake2.init Blake2.prmB n []).getD s))) t).1 = _
    rw [hx, ← C16_blake2b n [] x hx ms (by omega) t]
    exact C14_blake2 _ _ ts t

theorem b2s_law (n : Nat) (h1 : 1 ≤ n) (h2 : n ≤ 32) : Mac.HashLaw (b2Ops Blake2.prmS 64 n) (Spec.Blake2.hash Spec.Blake2.blake2s n []) (2 ^ 61) (fun _ => True) where
  len := fun m => by simp [Spec.Blake2.hash, b2Ops]
  okI := fun _ _ => trivial
  okU := fun _ _ _ => trivial
  okF := fun _ _ _ => trivial
  digest := fun s _ ms hl ts t => by
    obtain ⟨x, hx⟩ := Option.isSome_iff_exists.mp ((C16_init_accepts n []).2.mpr ⟨h1, h2, by simp⟩)
    show (Blake2.final _ (ts.foldl _ (ms.foldl _ ((Blake2.init Blake2.prmS n []).getD s))) t).1 = _
    rw [hx, ← C16_blake2s n [] x hx ms (by omega) t]
    exact C14_blake2 _ _ ts t

theorem outBytes_div (b : Nat) (h : 40 ≤ b) : (if ((b : Int) / 8) > 4 then ((b : Int) / 8) else 0).toNat = b / 8 := by
  rw [if_pos (by omega)]; omega

theorem runs_blake2b (b : Nat) (h1 : 40 ≤ b) (h2 : b ≤ 512) : HashRuns (iBLAKE2b b) (Spec.Blake2.hash Spec.Blake2.blake2b (b / 8) []) memB2b := by
  have hL : (hmacOps (iBLAKE2b b)).L = b / 8 := outBytes_div b h1
  obtain ⟨x, hx⟩ := Option.isSome_iff_exists.mp ((C16_init_accepts (b / 8) []).1.mpr ⟨by omega, by omega, by simp⟩)
  refine ⟨law_lift (b2b_law (b / 8) (by omega) (by omega)) (hmacOps (iBLAKE2b b)) St.b2b hL (fun c => ?_) (fun _ _ => rfl) (fun _ _ => rfl),
    ⟨_, rfl, ?_⟩, ⟨_, rfl, ?_⟩, ⟨_, rfl, ?_⟩, rfl, ?_⟩
  · show ((Blake2.init Blake2.prmB (b / 8) []).map St.b2b).getD _ = St.b2b ((Blake2.init Blake2.prmB (b / 8) []).getD c)
    rw [hx]; rfl
  · rintro _ ⟨c, -, rfl⟩
    show ∃ s', (Blake2.init Blake2.prmB (b / 8) []).map St.b2b = some s'
    rw [hx]; exact ⟨_, rfl⟩
  · rintro _ ⟨c, -, rfl⟩ d; exact ⟨_, rfl⟩
  · rintro _ ⟨c, -, rfl⟩ t; exact ⟨_, rfl⟩
  · have hB : (hmacOps (iBLAKE2b b)).B = 128 := rfl
    rw [hL, hB]; omega

theorem runs_blake2s (b : Nat) (h1 : 40 ≤ b) (h2 : b ≤ 256) : HashRuns (iBLAKE2s b) (Spec.Blake2.hash Spec.Blake2.blake2s (b / 8) []) memB2s := by
  have hL : (hmacOps (iBLAKE2s b)).L = b / 8 := outBytes_div b h1
  obtain ⟨x, hx⟩ := Option.isSome_iff_exists.mp ((C16_init_accepts (b / 8) []).2.mpr ⟨by omega, by omega, by simp⟩)
  refine ⟨law_lift (b2s_law (b / 8) (by omega) (by omega)) (hmacOps (iBLAKE2s b)) St.b2s hL (fun c => ?_) (fun _ _ => rfl) (fun _ _ => rfl),
    ⟨_, rfl, ?_⟩, ⟨_, rfl, ?_⟩, ⟨_, rfl, ?_⟩, rfl, ?_⟩
  · show ((Blake2.init Blake2.prmS (b / 8) []).map St.b2s).getD _ = St.b2s ((Blake2.init Blake2.prmS (b / 8) []).getD c)
    rw [hx]; rfl
  · rintro _ ⟨c, -, rfl⟩
    show ∃ s', (Blake2.init Blake2.prmS (b / 8) []).map St.b2s = some s'
    rw [hx]; exact ⟨_, rfl⟩
  · rintro _ ⟨c, -, rfl⟩ d; exact ⟨_, rfl⟩
  · rintro _ ⟨c, -, rfl⟩ t; exact ⟨_, rfl⟩
  · have hB : (hmacOps (iBLAKE2s b)).B = 64 := rfl
    rw [hL, hB]; omega

/-- C89, what a hash object gives: in working memory with any contents, however the message is split, however often it was finalised before,
`t` octets are the hash value cut or filled with zeros. -/
def UsesHash (h : IObj) (H : List Byte → List Byte) (ok : St → Prop) : Prop :=
  ∀ mem, ok mem → ∀ ms : List (List Byte), ms.flatten.length < 2 ^ 61 → ∀ (ts : List Nat) (t : Nat), useHash h mem ms ts t = some (fitTo (H ms.flatten) t)

theorem uses_of {h : IObj} {H : List Byte → List Byte} {ok : St → Prop} (R : HashRuns h H ok) : UsesHash h H ok := fun mem hm ms hl ts t => runs_use R mem hm ms hl ts t

/-- C89: the objects of FIPS 180-4 and GB/T 32905 hash functions. -/
theorem C89_sha : UsesHash iSHA1 Spec.Sha.sha1 mem32 ∧ UsesHash iSHA224 Spec.Sha.sha224 mem32 ∧ UsesHash iSHA256 Spec.Sha.sha256 mem32 ∧
    UsesHash iSHA384 Spec.Sha.sha384 mem64 ∧ UsesHash iSHA512 Spec.Sha.sha512 mem64 ∧ UsesHash iSHA512t224 Spec.Sha.sha512_224 mem64 ∧
    UsesHash iSHA512t256 Spec.Sha.sha512_256 mem64 ∧ UsesHash iSM3 Spec.Sha.sm3 mem32 :=
  ⟨uses_of runs_sha1, uses_of runs_sha224, uses_of runs_sha256, uses_of runs_sha384, uses_of runs_sha512, uses_of runs_sha512t224, uses_of runs_sha512t256,
    uses_of runs_sm3⟩

theorem sha3_runs (d : Nat) (hd : d = 224 ∨ d = 256 ∨ d = 384 ∨ d = 512) (H : List Byte → List Byte) (hH : IsSha3 d H) : HashRuns (iSHA3 d) H memSp := by
  have key : ∀ r, IsSha3 d (sha3Digest _root_.Keccak.f1600 r) → H = sha3Digest _root_.Keccak.f1600 r := fun r h => funext fun m => bits_inj ((hH m).trans (h m).symm)
  rcases hd with rfl | rfl | rfl | rfl
  · rw [key 144 (sha3Digest_is 144 (by decide) (by decide) (by decide))]; exact runs_sha3_224
  · rw [key 136 (sha3Digest_is 136 (by decide) (by decide) (by decide))]; exact runs_sha3_256
  · rw [key 104 (sha3Digest_is 104 (by decide) (by decide) (by decide))]; exact runs_sha3_384
  · rw [key 72 (sha3Digest_is 72 (by decide) (by decide) (by decide))]; exact runs_sha3_512

/-- C89: the objects of FIPS 202 hash functions. -/
theorem C89_sha3 (d : Nat) (hd : d = 224 ∨ d = 256 ∨ d = 384 ∨ d = 512) (H : List Byte → List Byte) (hH : IsSha3 d H) : UsesHash (iSHA3 d) H memSp :=
  uses_of (sha3_runs d hd H hH)

/-- C89: the objects of RFC 7693 hash functions, without key, of 5 octets or more (`iBLAKE2b160` to `iBLAKE2b512`, `iBLAKE2s128` to `iBLAKE2s256`). -/
theorem C89_blake2 (b : Nat) (h : 40 ≤ b) :
    (b ≤ 512 → UsesHash (iBLAKE2b b) (Spec.Blake2.hash Spec.Blake2.blake2b (b / 8) []) memB2b) ∧
    (b ≤ 256 → UsesHash (iBLAKE2s b) (Spec.Blake2.hash Spec.Blake2.blake2s (b / 8) []) memB2s) :=
  ⟨fun h2 => uses_of (runs_blake2b b h h2), fun h2 => uses_of (runs_blake2s b h h2)⟩

/-- A keyed hash by way of the object: `KINIT_FUNC` (the inner `none`: it returned the null pointer), `UPDATE_FUNC`, `FINAL_FUNC`. -/
def useKeyed (h : IObj) (mem : St) (key : List Byte) (ms : List (List Byte)) (ts : List Nat) (t : Nat) : Option (Option (List Byte)) := do
  match ← callKInit (← h.fn .kInitFunc) mem key with
  | none => some none
  | some s =>
    let u ← h.fn .updateFunc
    let s ← ms.foldlM (fun s m => callUpdate u s m) s
    let f ← h.fn .finalFunc
    let s ← ts.foldlM (fun s t => (callFinal f s t).map Prod.snd) s
    some ((callFinal f s t).map Prod.fst)

theorem b2b_folds (ms : List (List Byte)) : ∀ c, ms.foldlM (fun s m => callUpdate .blake2b_update s m) (St.b2b c) = some (.b2b (ms.foldl (Blake2.update Blake2.prmB) c)) := by
  induction ms with
  | nil => intro c; rfl
  | cons m ms ih => intro c; rw [List.foldlM_cons]; exact ih _
theorem b2b_finals (ts : List Nat) : ∀ c, ts.foldlM (fun s t => (callFinal .blake2b_final s t).map Prod.snd) (St.b2b c) =
    some (.b2b (ts.foldl (fun s t => (Blake2.final Blake2.prmB s t).2) c)) := by
  induction ts with
  | nil => intro c; rfl
  | cons m ms ih => intro c; rw [List.foldlM_cons]; exact ih _
theorem b2s_folds (ms : List (List Byte)) : ∀ c, ms.foldlM (fun s m => callUpdate .blake2s_update s m) (St.b2s c) = some (.b2s (ms.foldl (Blake2.update Blake2.prmS) c)) := by
  induction ms with
  | nil => intro c; rfl
  | cons m ms ih => intro c; rw [List.foldlM_cons]; exact ih _
theorem b2s_finals (ts : List Nat) : ∀ c, ts.foldlM (fun s t => (callFinal .blake2s_final s t).map Prod.snd) (St.b2s c) =
    some (.b2s (ts.foldl (fun s t => (Blake2.final Blake2.prmS s t).2) c)) := by
  induction ts with
  | nil => intro c; rfl
  | cons m ms ih => intro c; rw [List.foldlM_cons]; exact ih _

/-- C89: keyed BLAKE2: the null pointer for a key that is too long, otherwise RFC 7693. -/
theorem C89_blake2_keyed (b : Nat) (h : 8 ≤ b) (key : List Byte) (ms : List (List Byte)) (hl : ms.flatten.length < 2 ^ 61) (ts : List Nat) (t : Nat) (mem : St) :
    (b ≤ 512 → memB2b mem → useKeyed (ikBLAKE2b b) mem key ms ts t =
      some (if key.length ≤ 64 then some (fitTo (Spec.Blake2.hash Spec.Blake2.blake2b (b / 8) key ms.flatten) t) else none)) ∧
    (b ≤ 256 → memB2s mem → useKeyed (ikBLAKE2s b) mem key ms ts t =
      some (if key.length ≤ 32 then some (fitTo (Spec.Blake2.hash Spec.Blake2.blake2s (b / 8) key ms.flatten) t) else none)) := by
  refine ⟨?_, ?_⟩
  · rintro hb ⟨c, -, rfl⟩
    have e : ∀ o, Blake2.init Blake2.prmB (b / 8) key = o → useKeyed (ikBLAKE2b b) (.b2b c) key ms ts t =
        match o.map St.b2b with
        | none => some none
        | some s => (do
          let s ← ms.foldlM (fun s m => callUpdate .blake2b_update s m) s
          let s ← ts.foldlM (fun s t => (callFinal .blake2b_final s t).map Prod.snd) s
          some ((callFinal .blake2b_final s t).map Prod.fst)) := by
      rintro o rfl; rfl
    by_cases hk : key.length ≤ 64
    · obtain ⟨x, hx⟩ := Option.isSome_iff_exists.mp ((C16_init_accepts (b / 8) key).1.mpr ⟨by omega, by omega, hk⟩)
      rw [e _ hx, if_pos hk]
      simp only [Option.map_some, b2b_folds, b2b_finals, Option.bind_eq_bind, Option.bind_some]
      rw [← C16_blake2b (b / 8) key x hx ms (by omega) t, ← C14_blake2 _ _ ts t]
      rfl
    · have hn : Blake2.init Blake2.prmB (b / 8) key = none := by
        cases hx : Blake2.init Blake2.prmB (b / 8) key with
        | none => rfl
        | some x => exact absurd ((C16_init_accepts (b / 8) key).1.mp (by rw [hx]; rfl)).2.2 hk
      rw [e _ hn, if_neg hk]; rfl
  · rintro hb ⟨c, -, rfl⟩
    have e : ∀ o, Blake2.init Blake2.prmS (b / 8) key = o → useKeyed (ikBLAKE2s b) (.b2s c) key ms ts t =
        match o.map St.b2s with
        | none => some none
        | some s => (do
          let s ← ms.foldlM (fun s m => callUpdate .blake2s_update s m) s
          let s ← ts.foldlM (fun s t => (callFinal .blake2s_final s t).map Prod.snd) s
          some ((callFinal .blake2s_final s t).map Prod.fst)) := by
      rintro o rfl; rfl
    by_cases hk : key.length ≤ 32
    · obtain ⟨x, hx⟩ := Option.isSome_iff_exists.mp ((C16_init_accepts (b / 8) key).2.mpr ⟨by omega, by omega, hk⟩)
      rw [e _ hx, if_pos hk]
      simp only [Option.map_some, b2s_folds, b2s_finals, Option.bind_eq_bind, Option.bind_some]
      rw [← C16_blake2s (b / 8) key x hx ms (by omega) t, ← C14_blake2 _ _ ts t]
      rfl
    · have hn : Blake2.init Blake2.prmS (b / 8) key = none := by
        cases hx : Blake2.init Blake2.prmS (b / 8) key with
        | none => rfl
        | some x => exact absurd ((C16_init_accepts (b / 8) key).2.mp (by rw [hx]; rfl)).2.2 hk
      rw [e _ hn, if_neg hk]; rfl

/-- An extendable-output function by way of the object: `INIT_FUNC`, `WRITE_FUNC`, `XFINAL_FUNC`, and a `READ_FUNC` for every number in `ns`. -/
def useXof (h : IObj) (mem : St) (ms : List (List Byte)) (ns : List Nat) : Option (List Byte) := do
  let s ← callInit (← h.fn .initFunc) mem
  let u ← h.fn .updateFunc
  let s ← ms.foldlM (fun s m => callUpdate u s m) s
  let s ← callXFinal (← h.fn .xofFinalFunc) s
  let r ← h.fn .readFunc
  (·.1) <$> ns.foldlM (fun (o, s) n => (callFinal r s n).map fun q => (o ++ q.1, q.2)) (([] : List Byte), s)

theorem sp_folds (ms : List (List Byte)) : ∀ c, ms.foldlM (fun s m => callUpdate .SHAKE_Write s m) (St.sp c) = some (.sp (ms.foldl (Sponge.update _root_.Keccak.f1600) c)) := by
  induction ms with
  | nil => intro c; rfl
  | cons m ms ih => intro c; rw [List.foldlM_cons]; exact ih _
theorem sp_reads (ns : List Nat) : ∀ c o, (·.1) <$> ns.foldlM (fun (o, s) n => (callFinal .SHAKE_Read s n).map fun q => (o ++ q.1, q.2)) ((o : List Byte), St.sp c) =
    some (o ++ (xofRun _root_.Keccak.f1600 c (ns.map .read)).flatten) := by
  induction ns with
  | nil => intro c o; simp [xofRun]
  | cons n ns ih =>
    intro c o
    rw [List.foldlM_cons]
    refine (ih _ _).trans ?_
    simp [xofRun]
theorem stream_reads (D : Nat → Byte) (ns : List Nat) : ∀ k, (streamRun D k (ns.map .read)).flatten = (List.range ns.sum).map fun i => D (k + i) := by
  induction ns with
  | nil => intro k; rfl
  | cons n ns ih =>
    intro k
    simp only [List.map_cons, streamRun, List.flatten_cons, ih, List.sum_cons, List.range_add, List.map_append, List.map_map]
    congr 1
    refine List.map_congr_left fun i _ => ?_
    show D _ = D _
    rw [Nat.add_assoc]

/-- C89: the objects of FIPS 202 extendable-output functions, however the message and the output are split. -/
theorem C89_shake (S : List Byte → Nat → List Byte) (mem : St) (hm : memSp mem) (ms : List (List Byte)) (ns : List Nat) :
    ((∀ m t, Keccak.bits (S m t) = Keccak.shake128 (Keccak.bits m) (8 * t)) → useXof (iSHAKE 128) mem ms ns = some (S ms.flatten ns.sum)) ∧
    ((∀ m t, Keccak.bits (S m t) = Keccak.shake256 (Keccak.bits m) (8 * t)) → useXof (iSHAKE 256) mem ms ns = some (S ms.flatten ns.sum)) := by
  obtain ⟨c, -, rfl⟩ := hm
  have e : ∀ b, useXof (iSHAKE b) (.sp c) ms ns = some (xofRun _root_.Keccak.f1600 (Sponge.shakeFinal _root_.Keccak.f1600
      (ms.foldl (Sponge.update _root_.Keccak.f1600) (Sponge.shakeInit ((1600 - b * 2) / 8)))) (ns.map .read)).flatten := by
    intro b
    show ((ms.foldlM (fun s m => callUpdate .SHAKE_Write s m) (St.sp (Sponge.shakeInit ((1600 - b * 2) / 8)))).bind fun s => (callXFinal .SHAKE_Final s).bind fun s =>
      (·.1) <$> ns.foldlM (fun (o, s) n => (callFinal .SHAKE_Read s n).map fun q => (o ++ q.1, q.2)) (([] : List Byte), s)) = _
    rw [sp_folds, Option.bind_some]
    exact (sp_reads ns _ []).trans rfl
  refine ⟨fun hS => ?_, fun hS => ?_⟩
  · rw [e, C12_stream _ _ (by decide), stream_reads]
    congr 1
    apply bits_inj
    rw [hS, ← C69_shake128, C11_shake _ 168 (by decide)]
    simp [prefixOf]
  · rw [e, C12_stream _ _ (by decide), stream_reads]
    congr 1
    apply bits_inj
    rw [hS, ← C69_shake256, C11_shake _ 136 (by decide)]
    simp [prefixOf]

/-! ## HMAC and HMAC_DRBG -/

/-- The hash objects of the suite with the functions of the standards, their block lengths, and working memory for them. -/
inductive SuiteHash : IObj → (List Byte → List Byte) → Nat → (St → Prop) → Prop
  | sha1 : SuiteHash iSHA1 Spec.Sha.sha1 64 mem32
  | sha224 : SuiteHash iSHA224 Spec.Sha.sha224 64 mem32
  | sha256 : SuiteHash iSHA256 Spec.Sha.sha256 64 mem32
  | sha384 : SuiteHash iSHA384 Spec.Sha.sha384 128 mem64
  | sha512 : SuiteHash iSHA512 Spec.Sha.sha512 128 mem64
  | sha512t224 : SuiteHash iSHA512t224 Spec.Sha.sha512_224 128 mem64
  | sha512t256 : SuiteHash iSHA512t256 Spec.Sha.sha512_256 128 mem64
  | sm3 : SuiteHash iSM3 Spec.Sha.sm3 64 mem32
  | sha3 (d : Nat) (H) (hd : d = 224 ∨ d = 256 ∨ d = 384 ∨ d = 512) (hH : IsSha3 d H) : SuiteHash (iSHA3 d) H ((1600 - 2 * d) / 8) memSp
  | blake2b (b : Nat) (hb : 40 ≤ b ∧ b ≤ 512) : SuiteHash (iBLAKE2b b) (Spec.Blake2.hash Spec.Blake2.blake2b (b / 8) []) 128 memB2b
  | blake2s (b : Nat) (hb : 40 ≤ b ∧ b ≤ 256) : SuiteHash (iBLAKE2s b) (Spec.Blake2.hash Spec.Blake2.blake2s (b / 8) []) 64 memB2s

theorem suite_runs {h : IObj} {H : List Byte → List Byte} {B : Nat} {ok : St → Prop} (s : SuiteHash h H B ok) : HashRuns h H ok ∧ (hmacOps h).B = B := by
  cases s with
  | sha1 => exact ⟨runs_sha1, rfl⟩
  | sha224 => exact ⟨runs_sha224, rfl⟩
  | sha256 => exact ⟨runs_sha256, rfl⟩
  | sha384 => exact ⟨runs_sha384, rfl⟩
  | sha512 => exact ⟨runs_sha512, rfl⟩
  | sha512t224 => exact ⟨runs_sha512t224, rfl⟩
  | sha512t256 => exact ⟨runs_sha512t256, rfl⟩
  | sm3 => exact ⟨runs_sm3, rfl⟩
  | sha3 d H hd hH => exact ⟨sha3_runs d hd H hH, by rcases hd with rfl | rfl | rfl | rfl <;> rfl⟩
  | blake2b b hb => exact ⟨runs_blake2b b hb.1 hb.2, rfl⟩
  | blake2s b hb => exact ⟨runs_blake2s b hb.1 hb.2, rfl⟩

/-- HMAC by way of the object: `KINIT_FUNC` with the parametrisation `P` has (the inner `none`: it returned the null pointer), `UPDATE_FUNC`, `FINAL_FUNC`;
`mem` is what the hash context holds. -/
def useHmac (P : IParam) (mem : St) (key : List Byte) (ms : List (List Byte)) (ts : List Nat) (t : Nat) : Option (Option (List Byte)) := do
  let h ← kInitHash (← (cTi P).fn .kInitFunc) P.param
  if (cTi P).fn .updateFunc = some .HMAC_Update ∧ (cTi P).fn .finalFunc = some .HMAC_Final then
    some ((Mac.hmacStart (hmacOps h) mem key).map fun x =>
      (Mac.hmacFinal (hmacOps h) (ts.foldl (fun s u => (Mac.hmacFinal (hmacOps h) s u).2) (ms.foldl (Mac.hmacUpdate (hmacOps h)) x)) t).1)
  else none

/-- `P` is HMAC over `h`: by parametrisation, or the object with that name. -/
def HmacOver (P : IParam) (h : IObj) : Prop := P = .tHMAC (.info h) ∨ ∃ i o, hmacHash i = some h ∧ iHMAC i = some o ∧ P = .info o

/-- The hashes of the named HMAC objects: `iHMAC_SHA1`, `iHMAC_SHA224`, `iHMAC_SHA256`, `iHMAC_SHA384`, `iHMAC_SHA512`, `iHMAC_SHA3_224` to `iHMAC_SHA3_512`. -/
theorem C89_hmac_names : (List.range 9).map hmacHash = [iSHA1, iSHA224, iSHA256, iSHA384, iSHA512, iSHA3 224, iSHA3 256, iSHA3 384, iSHA3 512].map some ∧
    ∀ i < 9, ∃ o, iHMAC i = some o :=
  ⟨rfl, fun i hi => by
    have : ∀ i < 9, (iHMAC i).isSome = true := by decide
    exact Option.isSome_iff_exists.mp (this i hi)⟩

theorem over_kinit {P : IParam} {h : IObj} (hP : HmacOver P h) : (∃ f, (cTi P).fn .kInitFunc = some f ∧ kInitHash f P.param = some h) ∧
    (cTi P).fn .updateFunc = some .HMAC_Update ∧ (cTi P).fn .finalFunc = some .HMAC_Final ∧ (cTi P).num = Query.cHMAC h.num := by
  rcases hP with rfl | ⟨i, o, hi, ho, rfl⟩
  · exact ⟨⟨_, rfl, rfl⟩, rfl, rfl, rfl⟩
  · unfold iHMAC at ho
    rw [hi, Option.map_some, Option.some.injEq] at ho
    subst ho
    exact ⟨⟨_, rfl, hi⟩, rfl, rfl, rfl⟩

/-- C89: HMAC over every hash object of the suite, by name or parametrised: RFC 2104, and the null pointer for a key longer than a block. -/
theorem C89_hmac {h : IObj} {H : List Byte → List Byte} {B : Nat} {ok : St → Prop} (sh : SuiteHash h H B ok) (P : IParam) (hP : HmacOver P h)
    (mem : St) (hm : ok mem) (key : List Byte) (ms : List (List Byte)) (hl : ms.flatten.length < 2 ^ 60) (ts : List Nat) (t : Nat) :
    useHmac P mem key ms ts t = some (if key.length ≤ B then some (fitTo (hmac H B key ms.flatten) t) else none) := by
  obtain ⟨R, hB⟩ := suite_runs sh
  obtain ⟨⟨f, e1, e2⟩, e3, e4, -⟩ := over_kinit hP
  obtain ⟨s0, s1, s2, s3⟩ := R.size
  unfold useHmac
  simp only [e1, e2, e3, e4, Option.bind_eq_bind, Option.bind_some, and_self, if_true]
  congr 1
  by_cases hk : key.length ≤ B
  · obtain ⟨x, hx, hr⟩ := C19_hmac R.law s3 s1 (by omega) mem hm key (by rw [hB]; exact hk) ms (by omega) ts t
    rw [hx, Option.map_some, hr, if_pos hk, hB]
  · rw [C19_long_key_refused _ _ _ (by rw [hB]; omega), if_neg hk]; rfl

theorem seeds_mono (a b : Nat) (ops : List DrbgOp) (hab : a ≤ b) : seedsBelow a ops → seedsBelow b ops := by
  induction ops with
  | nil => intro _; trivial
  | cons op ops ih =>
    cases op with
    | seed s => exact fun h => ⟨lt_of_lt_of_le h.1 hab, ih h.2⟩
    | reseed s => exact fun h => ⟨lt_of_lt_of_le h.1 hab, ih h.2⟩
    | generate n => exact fun h => ih h

/-- C89: HMAC_DRBG over HMAC over every hash object of the suite: SP 800-90A. -/
theorem C89_drbg {h : IObj} {H : List Byte → List Byte} {B : Nat} {ok : St → Prop} (sh : SuiteHash h H B ok) (P : IParam) (hP : HmacOver P h)
    (x : Mac.Drbg (Mac.Hmac St)) (hx : ok x.H.aux) (seed : List Byte) (ops : List DrbgOp) (hs : seedsBelow (2 ^ 60) (.seed seed :: ops)) :
    ∃ p, drbgPrf P = some p ∧ (∀ m, (H m).length = p.outlen) ∧
      drbgRun p x (.seed seed :: ops) = some (drbgSpecRun (hmac H B) p.outlen ([], []) (.seed seed :: ops)) := by
  obtain ⟨R, hB⟩ := suite_runs sh
  obtain ⟨⟨f, e1, e2⟩, e3, e4, e5⟩ := over_kinit hP
  obtain ⟨s0, s1, s2, s3⟩ := R.size
  have eo : (Query.HMAC_DRBG_INIT (cTi P).num).prf_outlen = (hmacOps h).L := by
    rw [e5]
    show (OUT_BYTES (Query.cHMAC h.num)).toNat = (OUT_BYTES h.num).toNat
    have h4 : h.num .outBytes > 4 := by
      cases sh with
      | sha3 d H hd hH => rcases hd with rfl | rfl | rfl | rfl <;> decide
      | blake2b b hb => show (b : Int) / 8 > 4; omega
      | blake2s b hb => show (b : Int) / 8 > 4; omega
      | _ => decide
    show (if h.num .outBytes > 4 then h.num .outBytes else 0).toNat = (if h.num .outBytes > 4 then h.num .outBytes else _).toNat
    rw [if_pos h4, if_pos h4]
  have ep : drbgPrf P = some (Mac.hmacPrf (hmacOps h)) := by
    unfold drbgPrf
    simp only [e1, e2, e3, e4, Option.bind_eq_bind, Option.bind_some, and_self, if_true, eo]
    rfl
  refine ⟨_, ep, R.law.len, ?_⟩
  have eL : (Mac.hmacPrf (hmacOps h)).outlen = (hmacOps h).L := rfl
  have := C30_drbg (Mac.hmac_prfLaw R.law s3 s1 s2 (by omega)) (by omega) (by omega) x hx seed ops (seeds_mono _ _ _ (by omega) hs)
  rw [hB] at this
  exact this

/-! ## Block ciphers and their modes -/

/-- RFC 3713 on octets. -/
def camelliaBlock (key x : List Byte) : List Byte := beN 16 (Spec.Camellia.encrypt key x).toNat

/-- The block cipher objects of the suite, the lengths of the keys, and the ciphers of the standards: FIPS 197, GB/T 32907, RFC 4269, RFC 5794, RFC 3713. -/
inductive SuiteCipher : IObj → Nat → (List Byte → List Byte → List Byte) → Prop
  | aes128 : SuiteCipher (iAES 128) 16 (aes 4 10)
  | aes192 : SuiteCipher (iAES 192) 24 (aes 6 12)
  | aes256 : SuiteCipher (iAES 256) 32 (aes 8 14)
  | sm4 : SuiteCipher iSM4 16 sm4Encrypt
  | seed : SuiteCipher iSEED 16 Spec.Seed.encrypt
  | aria128 : SuiteCipher (iARIA 128) 16 Spec.Aria.encrypt
  | aria192 : SuiteCipher (iARIA 192) 24 Spec.Aria.encrypt
  | aria256 : SuiteCipher (iARIA 256) 32 Spec.Aria.encrypt
  | camellia128 : SuiteCipher (iCamellia 128) 16 camelliaBlock
  | camellia192 : SuiteCipher (iCamellia 192) 24 camelliaBlock
  | camellia256 : SuiteCipher (iCamellia 256) 32 camelliaBlock

theorem num_octets (out : List Byte) (h : out.length = 16) (v : BitVec 128) (e : Spec.Camellia.num 128 out = v) : out = beN 16 v.toNat := by
  subst e
  have hl : beNat out < 2 ^ 128 := by
    have := beNat_lt out
    rw [h] at this
    exact lt_of_lt_of_eq this (by norm_num)
  unfold Spec.Camellia.num
  rw [BitVec.toNat_ofNat, Nat.mod_eq_of_lt hl, ← h, beN_beNat]

/-- C89: the functions of every block cipher object, on a key of the announced length and a block of the announced length: the schedule, then
enciphering, is the standard's cipher; the schedule, then deciphering, undoes it. -/
theorem C89_cipher {bc : IObj} {n : Nat} {E : List Byte → List Byte → List Byte} (hc : SuiteCipher bc n E) :
    bc.num .keyBytes = n ∧ bc.num .blockBytes = 16 ∧ ∀ key x : List Byte, key.length = n → x.length = 16 →
      encOf bc key x = some (E key x) ∧ decOf bc key (E key x) = some x ∧ (E key x).length = 16 := by
  have aesCase : ∀ Nk Nr, AesSize Nk Nr → ∀ key x : List Byte, key.length = 4 * Nk → x.length = 16 →
      Aes.cipher x (Aes.keyExpansion key Nk Nr) Nr = aes Nk Nr key x ∧ Aes.invCipher (aes Nk Nr key x) (Aes.keyExpansion key Nk Nr) Nr = x ∧
      (aes Nk Nr key x).length = 16 := fun Nk Nr hN key x hk hx =>
    ⟨C43_aes_fips197 key x hx Nk Nr hN hk, C43_aes_decrypt key x hx Nk Nr hN hk, by rw [← C43_aes_fips197 key x hx Nk Nr hN hk]; exact aesE_len Nk Nr key x⟩
  cases hc with
  | aes128 =>
    refine ⟨rfl, rfl, fun key x hk hx => ?_⟩
    obtain ⟨h1, h2, h3⟩ := aesCase 4 10 (.inl rfl) key x hk hx
    exact ⟨congrArg some h1, congrArg some h2, h3⟩
  | aes192 =>
    refine ⟨rfl, rfl, fun key x hk hx => ?_⟩
    obtain ⟨h1, h2, h3⟩ := aesCase 6 12 (.inr (.inl rfl)) key x hk hx
    exact ⟨congrArg some h1, congrArg some h2, h3⟩
  | aes256 =>
    refine ⟨rfl, rfl, fun key x hk hx => ?_⟩
    obtain ⟨h1, h2, h3⟩ := aesCase 8 14 (.inr (.inr rfl)) key x hk hx
    exact ⟨congrArg some h1, congrArg some h2, h3⟩
  | sm4 =>
    refine ⟨rfl, rfl, fun key x hk hx => ?_⟩
    have h1 := C44_sm4_encrypt key x hk hx
    refine ⟨congrArg some h1, congrArg some ?_, ?_⟩
    · rw [← h1]; exact C27_sm4 x _ hx
    · rw [← h1]; exact Int.ofNat.inj (C88_sm4.encLen x _)
  | seed =>
    refine ⟨rfl, rfl, fun key x hk hx => ?_⟩
    have h1 := (C71_seed key x hk hx).1
    refine ⟨congrArg some h1, congrArg some ?_, ?_⟩
    · rw [← h1]; exact C27_seed x _ hx
    · rw [← h1]; exact Int.ofNat.inj (C88_seed.encLen x _)
  | aria128 =>
    refine ⟨rfl, rfl, fun key x hk hx => ?_⟩
    have h1 := (C72_encrypt key x hx).1 hk
    refine ⟨congrArg some h1, congrArg some ?_, ?_⟩
    · rw [← h1]; exact C27_aria x _ hx 12 (by decide)
    · rw [← h1]; exact Int.ofNat.inj (C88_aria.1.encLen x _)
  | aria192 =>
    refine ⟨rfl, rfl, fun key x hk hx => ?_⟩
    have h1 := (C72_encrypt key x hx).2.1 hk
    refine ⟨congrArg some h1, congrArg some ?_, ?_⟩
    · rw [← h1]; exact C27_aria x _ hx 14 (by decide)
    · rw [← h1]; exact Int.ofNat.inj (C88_aria.2.1.encLen x _)
  | aria256 =>
    refine ⟨rfl, rfl, fun key x hk hx => ?_⟩
    have h1 := (C72_encrypt key x hx).2.2 hk
    refine ⟨congrArg some h1, congrArg some ?_, ?_⟩
    · rw [← h1]; exact C27_aria x _ hx 16 (by decide)
    · rw [← h1]; exact Int.ofNat.inj (C88_aria.2.2.encLen x _)
  | camellia128 =>
    refine ⟨rfl, rfl, fun key x hk hx => ?_⟩
    obtain ⟨g1, g2, -, -⟩ := C70_128 key x hk hx
    have h1 : _ = camelliaBlock key x := num_octets _ g1 _ g2
    exact ⟨congrArg some h1, congrArg some (by rw [← h1]; exact (C27_camellia x _ hx).1), by rw [← h1]; exact g1⟩
  | camellia192 =>
    refine ⟨rfl, rfl, fun key x hk hx => ?_⟩
    obtain ⟨g1, g2, -, -⟩ := C70_192 key x hk hx
    have h1 : _ = camelliaBlock key x := num_octets _ g1 _ g2
    exact ⟨congrArg some h1, congrArg some (by rw [← h1]; exact (C27_camellia x _ hx).2), by rw [← h1]; exact g1⟩
  | camellia256 =>
    refine ⟨rfl, rfl, fun key x hk hx => ?_⟩
    obtain ⟨g1, g2, -, -⟩ := C70_256 key x hk hx
    have h1 : _ = camelliaBlock key x := num_octets _ g1 _ g2
    exact ⟨congrArg some h1, congrArg some (by rw [← h1]; exact (C27_camellia x _ hx).2), by rw [← h1]; exact g1⟩

/-- What `enc` is to CMAC, GCM and CCM over `bc` after the key has been set. -/
def blockFn (bc : IObj) (key : List Byte) : List Byte → List Byte := fun x => (encOf bc key x).getD []

section
variable {bc : IObj} {n : Nat} {E : List Byte → List Byte → List Byte} (hc : SuiteCipher bc n E) {key : List Byte} (hk : key.length = n)
include hc hk

theorem blockFn_spec : (∀ x : List Byte, x.length = 16 → blockFn bc key x = E key x) ∧ ∀ x : List Byte, x.length = 16 → (blockFn bc key x).length = 16 := by
  obtain ⟨-, -, h⟩ := C89_cipher hc
  have e : ∀ x : List Byte, x.length = 16 → blockFn bc key x = E key x := fun x hx => by unfold blockFn; rw [(h key x hk hx).1]; rfl
  exact ⟨e, fun x hx => by rw [e x hx]; exact (h key x hk hx).2.2⟩

/-- C89: CMAC over every block cipher object: SP 800-38B over the standard's cipher. -/
theorem C89_cmac (ms : List (List Byte)) (t : Nat) :
    ∃ c, Mac.cmacStart (blockFn bc key) (bc.num .keyBytes).toNat key.length = some c ∧
      (Mac.cmacFinal (blockFn bc key) (ms.foldl (Mac.cmacUpdate (blockFn bc key)) c) t).1 = fitTo (cmac (E key) ms.flatten) t := by
  obtain ⟨e, l⟩ := blockFn_spec hc hk
  rw [(C89_cipher hc).1, hk, ← ModeCongr.cmac_congr e l]
  exact C20_cmac _ l n (by cases hc <;> decide) ms t

/-- C89: GCM over every block cipher object: SP 800-38D over the standard's cipher. -/
theorem C89_gcm (mul : List Byte → List Byte → List Byte) (hm : ∀ a b, a.length = 16 → b.length = 16 → IsGfProduct a b (mul a b))
    (iv A T : List Byte) (len inp out tlen : Nat) (m : Mem)
    (hiv : iv.length = 12) (hA : A.length < 2 ^ 61) (hlen : len ≤ 2 ^ 36 - 32) (hs : Streamable inp out len) :
    ∃ g, Gcm.init (bc.num .keyBytes).toNat key.length (blockFn bc key) = some g ∧
      Gcm.encrypt g iv A len inp out tlen m =
        some (storeAt m out (gcmCipher (E key) iv (bytesAt m inp len)), fitTo (gcmTag mul (E key) iv A (gcmCipher (E key) iv (bytesAt m inp len))) tlen) ∧
      Gcm.decrypt g iv A len inp out T m =
        if T = fitTo (gcmTag mul (E key) iv A (bytesAt m inp len)) T.length then (true, storeAt m out (gcmCipher (E key) iv (bytesAt m inp len))) else (false, m) := by
  obtain ⟨e, l⟩ := blockFn_spec hc hk
  rw [(C89_cipher hc).1, hk]
  simp only [← ModeCongr.gcmCipher_congr e iv hiv, ← ModeCongr.gcmTag_congr mul e iv hiv]
  obtain ⟨g, h1, h2⟩ := C23_gcm_encrypt mul hm _ l n iv A len inp out tlen m hiv hA hlen hs
  obtain ⟨g', h1', h3⟩ := C23_gcm_decrypt mul hm _ l n iv A T len inp out m hiv hA hlen hs
  have := h1.symm.trans h1'
  rw [Option.some.injEq] at this
  subst this
  exact ⟨g, h1, h2, h3⟩

/-- C82: CCM over every block cipher object, up to 31 bytes (from 32 on the code does not terminate, `C26_never_terminates`). -/
theorem C82_ccm_objects_partial (iv A T : List Byte) (len inp out t : Nat) (m : Mem) (fuel : Nat)
    (hiv : 7 ≤ iv.length ∧ iv.length ≤ 13) (ht : 4 ≤ t ∧ t ≤ 16 ∧ t % 2 = 0) (hT : 4 ≤ T.length ∧ T.length ≤ 16 ∧ T.length % 2 = 0)
    (hl : len ≤ 31) (hf : len ≤ fuel) (hs : Streamable inp out len) :
    Query.ccmInit (bc.num .keyBytes).toNat key.length = true ∧
    Ccm.encrypt (blockFn bc key) iv A len inp out t m fuel =
      .done (storeAt m out (ccmCipher (E key) iv (bytesAt m inp len)), ccmTag (E key) iv A (bytesAt m inp len) t) ∧
    Ccm.decrypt (blockFn bc key) iv A len inp out T m fuel = .done (
      if T = ccmTag (E key) iv A (ccmCipher (E key) iv (bytesAt m inp len)) T.length
      then (true, storeAt m out (ccmCipher (E key) iv (bytesAt m inp len))) else (false, m)) := by
  obtain ⟨e, l⟩ := blockFn_spec hc hk
  simp only [← ModeCongr.ccmCipher_congr e iv hiv.2, ← ModeCongr.ccmTag_congr e l iv hiv.2]
  refine ⟨?_, C26_ccm_encrypt_partial _ l iv A len inp out t m fuel hiv ht hl hf hs, C26_ccm_decrypt_partial _ l iv A T len inp out m fuel hiv hT hl hf hs⟩
  rw [(C89_cipher hc).1, hk]; unfold Query.ccmInit; simp
end

/-! ## Public-key schemes -/

/-- C89: the hash that the public-key schemes use over a hash object: the octets, their number, and how the schemes find out that it is no XOF. -/
theorem C89_pk_hash {h : IObj} {H : List Byte → List Byte} {B : Nat} {ok : St → Prop} (sh : SuiteHash h H B ok) (mem : St) (hm : ok mem)
    (m : List Byte) (hl : m.length < 2 ^ 61) :
    (pkHash h mem).xof = false ∧ (H m).length = (pkHash h mem).hlen ∧ (∀ t, (pkHash h mem).digest m t = fitTo (H m) t) ∧
    (pkHash h mem).digest m (pkHash h mem).hlen = H m ∧ ∀ t, (hashed h mem m t).map Prod.fst = some (fitTo (H m) t) := by
  obtain ⟨R, -⟩ := suite_runs sh
  have e : ∀ t, (hashed h mem m t).map Prod.fst = some (fitTo (H m) t) := fun t => by
    rw [show (hashed h mem m t).map Prod.fst = useHash h mem [m] [] t from ?_, runs_use R mem hm [m] (by simpa using hl) [] t]
    · simp
    · obtain ⟨f, hf, -⟩ := R.init
      obtain ⟨u, hu, -⟩ := R.upd
      obtain ⟨g, hg, -⟩ := R.fin
      unfold hashed useHash
      simp only [hf, hu, hg, R.noXof, Option.bind_eq_bind, Option.bind_some, List.foldlM_cons, List.foldlM_nil, Option.pure_def]
      cases callInit f mem with
      | none => rfl
      | some s =>
        simp only [Option.bind_some]
        cases callUpdate u s m with
        | none => rfl
        | some s => rfl
  have d : ∀ t, (pkHash h mem).digest m t = fitTo (H m) t := fun t => by
    unfold Pkcs1.Hash.digest fitTo
    refine List.map_congr_left fun i _ => ?_
    show ((hashed h mem m (i + 1)).map fun r => r.1.getD i 0).getD 0 = _
    have := e (i + 1)
    cases hh : hashed h mem m (i + 1) with
    | none => rw [hh] at this; simp at this
    | some r =>
      rw [hh, Option.map_some, Option.some.injEq] at this
      rw [Option.map_some, this, Option.getD_some, fitTo_getD]
  have l : (H m).length = (pkHash h mem).hlen := R.law.len m
  refine ⟨by show (h.fn .xofFinalFunc).isSome = false; rw [R.noXof]; rfl, l, d, ?_, e⟩
  rw [d, ← l, Mac.fitTo_self]

/-- C89: the same for the XOF objects: their output of any length, and the recommended length is twice the security strength. -/
theorem C89_pk_shake (S : List Byte → Nat → List Byte) (mem : St) (hm : memSp mem) (m : List Byte) (t : Nat) :
    ((∀ m t, Keccak.bits (S m t) = Keccak.shake128 (Keccak.bits m) (8 * t)) →
      (pkHash (iSHAKE 128) mem).digest m t = S m t ∧ (hashed (iSHAKE 128) mem m t).map Prod.fst = some (S m t)) ∧
    ((∀ m t, Keccak.bits (S m t) = Keccak.shake256 (Keccak.bits m) (8 * t)) →
      (pkHash (iSHAKE 256) mem).digest m t = S m t ∧ (hashed (iSHAKE 256) mem m t).map Prod.fst = some (S m t)) ∧
    ((pkHash (iSHAKE 128) mem).xof = true ∧ (pkHash (iSHAKE 256) mem).xof = true ∧
      (pkHash (iSHAKE 128) mem).hlen = 32 ∧ (pkHash (iSHAKE 256) mem).hlen = 64) := by
  obtain ⟨c, -, rfl⟩ := hm
  have e : ∀ b, 0 < (1600 - b * 2) / 8 → (pkHash (iSHAKE b) (.sp c)).digest m t = (Sponge.read _root_.Keccak.f1600 (Sponge.shakeFinal _root_.Keccak.f1600
      (Sponge.update _root_.Keccak.f1600 (Sponge.shakeInit ((1600 - b * 2) / 8)) m)) t).1 := fun b hb => by
    rw [← read_prefix _ hb m 0 t]; rfl
  refine ⟨fun hS => ?_, fun hS => ?_, rfl, rfl, rfl, rfl⟩
  · have : (Sponge.read _root_.Keccak.f1600 (Sponge.shakeFinal _root_.Keccak.f1600 (Sponge.update _root_.Keccak.f1600 (Sponge.shakeInit 168) m)) t).1 = S m t := by
      apply bits_inj
      have := C69_shake128 [m] t
      simp only [List.foldl_cons, List.foldl_nil, List.flatten_cons, List.flatten_nil, List.append_nil] at this
      rw [this, hS]
    exact ⟨(e 128 (by decide)).trans this, congrArg some this⟩
  · have : (Sponge.read _root_.Keccak.f1600 (Sponge.shakeFinal _root_.Keccak.f1600 (Sponge.update _root_.Keccak.f1600 (Sponge.shakeInit 136) m)) t).1 = S m t := by
      apply bits_inj
      have := C69_shake256 [m] t
      simp only [List.foldl_cons, List.foldl_nil, List.flatten_cons, List.flatten_nil, List.append_nil] at this
      rw [this, hS]
    exact ⟨(e 256 (by decide)).trans this, congrArg some this⟩

/-- C89: the hash of each parameter set of the signature schemes is the one for which C87 is stated, and the curves are those of C87. -/
theorem C89_presets :
    (∀ mem, pkHash ECDSA_P256.hash (.s32 mem) = opsHash (mdOps algSha256) mem) ∧ (∀ mem, pkHash ECDSA_P384.hash (.s64 mem) = opsHash (mdOps algSha384) mem) ∧
    (∀ mem, pkHash SM2SIG_P256.hash (.s32 mem) = opsHash (mdOps algSm3) mem) ∧ (∀ mem, pkHash EdDSA_Ed25519.hash (.s64 mem) = hash512 mem) ∧
    (∀ mem, pkHash EdDSA_Ed448.hash (.sp mem) = hashShake256) ∧
    [ECDSA_P256, ECDSA_P384, SM2SIG_P256, EdDSA_Ed25519, EdDSA_Ed448].map (fun i => (i.algo, i.curve, i.secbits)) =
      [(.tECDSA, .secp256r1, 128), (.tECDSA, .secp384r1, 192), (.tSM2SIG, .curveSM2, 128), (.tEdDSA, .Ed25519, 128), (.tEdDSA, .Ed448, 224)] :=
  ⟨fun _ => rfl, fun _ => rfl, fun _ => rfl, fun _ => rfl, fun _ => rfl, rfl⟩

/-! ## Concrete cases -/

/-- A context for SHA-256 with rubbish in it. -/
def memEx : St := .s32 { msg := List.replicate 64 0x5a, H := [1, 2], filled := 7, len := 9, finalized := true }

example : mem32 memEx := ⟨_, by simp, rfl⟩
/-- "abc" in two pieces, finalised once before. -/
example : useHash iSHA256 memEx [[0x61], [0x62, 0x63]] [5] 4 = some [0xba, 0x78, 0x16, 0xbf] := by decide +kernel
/-- A SHA-512 function on a SHA-256 context is undefined. -/
example : useHash iSHA512 memEx [[0x61]] [] 4 = none := by decide +kernel
example : SuiteHash iSHA256 Spec.Sha.sha256 64 mem32 ∧ HmacOver (.tHMAC (.info iSHA256)) iSHA256 ∧ ∃ o, iHMAC 2 = some o ∧ HmacOver (.info o) iSHA256 :=
  ⟨.sha256, .inl rfl, _, rfl, .inr ⟨2, _, rfl, rfl, rfl⟩⟩
/-- A key of 65 octets is refused, by way of the template and of the named object. -/
example : useHmac (.tHMAC (.info iSHA256)) memEx (List.replicate 65 1) [[1]] [] 4 = some none ∧
    (iHMAC 2).bind (fun o => useHmac (.info o) memEx (List.replicate 65 1) [[1]] [] 4) = some none := ⟨rfl, rfl⟩
/-- Enciphering through an object gives a block; a key schedule without a function is undefined. -/
example : (encOf iSM4 (List.replicate 16 1) (List.replicate 16 2)).isSome = true ∧ encOf iSHA1 [1] [2] = none := ⟨rfl, rfl⟩
example : SuiteCipher (iCamellia 192) 24 camelliaBlock := .camellia192
example : seedsBelow (2 ^ 60) [.seed [1], .generate 3] := by simp [seedsBelow]

end Props
