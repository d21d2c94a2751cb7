import Verif.Props.Mac
import Verif.Props.Gcm
import Verif.Props.Ccm
import Verif.Props.CtrDrbg
import Verif.Props.BlockCipher
import Verif.Lemmas.ModeCongr

/-!
# Property C82: the modes over AES

C20, C23, C26 and C29 are over any block cipher; the library instantiates them with AES only (`cmac-aes.c`, `gcm-aes.c`, `ccm-aes.c`,
`ctr-drbg-aes.c`).  Here the modelled `rijndael.c` is inside, and the right-hand side is the mode of the standard over FIPS 197.
`(Nk, Nr)` is (4, 10), (6, 12), (8, 14) for AES128, AES192, AES256.
-/
namespace Props
open Spec

/-- `AESxxx_KeyExpansion` followed by `AESxxx_Cipher`, `rijndael.c:256-280`. -/
def aesE (Nk Nr : Nat) (key : List (BitVec 8)) : List (BitVec 8) → List (BitVec 8) := fun x => Aes.cipher x (Aes.keyExpansion key Nk Nr) Nr

/-- The three parameter sets. -/
def AesSize (Nk Nr : Nat) : Prop := (Nk, Nr) = (4, 10) ∨ (Nk, Nr) = (6, 12) ∨ (Nk, Nr) = (8, 14)

theorem aesE_spec {Nk Nr : Nat} (hN : AesSize Nk Nr) {key : List (BitVec 8)} (hk : key.length = 4 * Nk) :
    ∀ x, x.length = 16 → aesE Nk Nr key x = aes Nk Nr key x := fun x hx => C43_aes_fips197 key x hx Nk Nr hN hk

theorem aesE_len (Nk Nr : Nat) (key x : List (BitVec 8)) : (aesE Nk Nr key x).length = 16 := by
  unfold aesE Aes.cipher
  simp only
  unfold Aes.addRoundKey
  simp

section
variable {Nk Nr : Nat} (hN : AesSize Nk Nr) {key : List (BitVec 8)} (hk : key.length = 4 * Nk)
include hN hk

/-- C82: `CMAC_AESxxx`: the SP 800-38B tag (cut or zero-filled to `t`) of the concatenated pieces under FIPS 197. -/
theorem C82_cmac_aes (ms : List (List (BitVec 8))) (t : Nat) :
    ∃ c, Mac.cmacStart (aesE Nk Nr key) (4 * Nk) key.length = some c ∧
      (Mac.cmacFinal (aesE Nk Nr key) (ms.foldl (Mac.cmacUpdate (aesE Nk Nr key)) c) t).1 = fitTo (cmac (aes Nk Nr key) ms.flatten) t := by
  rw [hk, ← ModeCongr.cmac_congr (aesE_spec hN hk) (fun x _ => aesE_len Nk Nr key x)]
  exact C20_cmac _ (fun x _ => aesE_len Nk Nr key x) (4 * Nk) (by rcases hN with h | h | h <;> (obtain ⟨rfl, rfl⟩ := Prod.mk.inj h; decide)) ms t

/-- C82: GCM with AES, encryption. -/
theorem C82_gcm_aes_encrypt (mul : List (BitVec 8) → List (BitVec 8) → List (BitVec 8))
    (hm : ∀ a b, a.length = 16 → b.length = 16 → IsGfProduct a b (mul a b))
    (iv A : List (BitVec 8)) (len inp out tlen : Nat) (m : Mem)
    (hiv : iv.length = 12) (hA : A.length < 2 ^ 61) (hlen : len ≤ 2 ^ 36 - 32) (hs : Streamable inp out len) :
    ∃ g, Gcm.init (4 * Nk) key.length (aesE Nk Nr key) = some g ∧
      Gcm.encrypt g iv A len inp out tlen m =
        some (storeAt m out (gcmCipher (aes Nk Nr key) iv (bytesAt m inp len)),
          fitTo (gcmTag mul (aes Nk Nr key) iv A (gcmCipher (aes Nk Nr key) iv (bytesAt m inp len))) tlen) := by
  rw [hk, ← ModeCongr.gcmCipher_congr (aesE_spec hN hk) iv hiv, ← ModeCongr.gcmTag_congr mul (aesE_spec hN hk) iv hiv]
  exact C23_gcm_encrypt mul hm _ (fun x _ => aesE_len Nk Nr key x) (4 * Nk) iv A len inp out tlen m hiv hA hlen hs

/-- C82: GCM with AES, decryption: plaintext is released exactly if the tag is right. -/
theorem C82_gcm_aes_decrypt (mul : List (BitVec 8) → List (BitVec 8) → List (BitVec 8))
    (hm : ∀ a b, a.length = 16 → b.length = 16 → IsGfProduct a b (mul a b))
    (iv A T : List (BitVec 8)) (len inp out : Nat) (m : Mem)
    (hiv : iv.length = 12) (hA : A.length < 2 ^ 61) (hlen : len ≤ 2 ^ 36 - 32) (hs : Streamable inp out len) :
    ∃ g, Gcm.init (4 * Nk) key.length (aesE Nk Nr key) = some g ∧
      Gcm.decrypt g iv A len inp out T m =
        if T = fitTo (gcmTag mul (aes Nk Nr key) iv A (bytesAt m inp len)) T.length
        then (true, storeAt m out (gcmCipher (aes Nk Nr key) iv (bytesAt m inp len)))
        else (false, m) := by
  rw [hk, ← ModeCongr.gcmCipher_congr (aesE_spec hN hk) iv hiv, ← ModeCongr.gcmTag_congr mul (aesE_spec hN hk) iv hiv]
  exact C23_gcm_decrypt mul hm _ (fun x _ => aesE_len Nk Nr key x) (4 * Nk) iv A T len inp out m hiv hA hlen hs

/-- C82: CCM with AES, up to 31 bytes (from 32 on the code does not terminate, `C26_never_terminates`). -/
theorem C82_ccm_aes_partial (iv A T : List (BitVec 8)) (len inp out t : Nat) (m : Mem) (fuel : Nat)
    (hiv : 7 ≤ iv.length ∧ iv.length ≤ 13) (ht : 4 ≤ t ∧ t ≤ 16 ∧ t % 2 = 0) (hT : 4 ≤ T.length ∧ T.length ≤ 16 ∧ T.length % 2 = 0)
    (hl : len ≤ 31) (hf : len ≤ fuel) (hs : Streamable inp out len) :
    Ccm.encrypt (aesE Nk Nr key) iv A len inp out t m fuel =
      .done (storeAt m out (ccmCipher (aes Nk Nr key) iv (bytesAt m inp len)), ccmTag (aes Nk Nr key) iv A (bytesAt m inp len) t) ∧
    Ccm.decrypt (aesE Nk Nr key) iv A len inp out T m fuel = .done (
      if T = ccmTag (aes Nk Nr key) iv A (ccmCipher (aes Nk Nr key) iv (bytesAt m inp len)) T.length
      then (true, storeAt m out (ccmCipher (aes Nk Nr key) iv (bytesAt m inp len))) else (false, m)) := by
  have hL : ∀ x, x.length = 16 → (aesE Nk Nr key x).length = 16 := fun x _ => aesE_len Nk Nr key x
  simp only [← ModeCongr.ccmCipher_congr (aesE_spec hN hk) iv hiv.2, ← ModeCongr.ccmTag_congr (aesE_spec hN hk) hL iv hiv.2]
  exact ⟨C26_ccm_encrypt_partial _ hL iv A len inp out t m fuel hiv ht hl hf hs, C26_ccm_decrypt_partial _ hL iv A T len inp out m fuel hiv hT hl hf hs⟩
end

/-! ### CTR_DRBG -/
section
variable {Nk Nr : Nat} (hN : AesSize Nk Nr)

/-- The cipher and key schedule passed by `Define_CTR_DRBG_Blockcipher(AESxxx, aesxxx_t)`. -/
def drbgEnc (Nr : Nat) (ks x : List (BitVec 8)) : List (BitVec 8) := Aes.cipher x ks Nr
def drbgKs (Nk Nr : Nat) (key : List (BitVec 8)) : List (BitVec 8) := Aes.keyExpansion key Nk Nr

theorem drbgEnc_len (Nr : Nat) (ks x : List (BitVec 8)) (_ : x.length = 16) : (drbgEnc Nr ks x).length = 16 := by
  unfold drbgEnc Aes.cipher
  simp only
  unfold Aes.addRoundKey
  simp

/-- A history of calls on a CTR_DRBG context. -/
inductive CtrOp where
  /-- `CTR_DRBG_Reseed` -/
  | reseed (s : List (BitVec 8))
  /-- `CTR_DRBG_Reseed_WithDF`; what its two buffers on the stack held before -/
  | reseedDf (s u w : List (BitVec 8))
  /-- `CTR_DRBG_Generate` into a buffer holding `out` -/
  | generate (out : List (BitVec 8))

/-- The code's run: the buffers filled by the successive `generate` calls. -/
def ctrRun (Nk Nr : Nat) : CtrDrbg.Ctx (List (BitVec 8)) → List CtrOp → List (List (BitVec 8))
  | _, [] => []
  | x, .reseed s :: r => ctrRun Nk Nr (CtrDrbg.reseed (drbgEnc Nr) (drbgKs Nk Nr) 16 (4 * Nk) x s) r
  | x, .reseedDf s u w :: r => ctrRun Nk Nr (CtrDrbg.reseedDf (drbgEnc Nr) (drbgKs Nk Nr) 16 (4 * Nk) x s u w) r
  | x, .generate out :: r =>
    let y := CtrDrbg.generate (drbgEnc Nr) (drbgKs Nk Nr) 16 (4 * Nk) x out
    y.1 :: ctrRun Nk Nr y.2 r

/-- SP 800-90A with AES, except that a request leaves the counter where it was before the request (the defect of `C29_generate_wrong`; with
`Spec.CtrDrbg.generate` in the last line this would be SP 800-90A). -/
def ctrSpec (Nk Nr : Nat) : List (BitVec 8) × List (BitVec 8) → List CtrOp → List (List (BitVec 8))
  | _, [] => []
  | s, .reseed d :: r => ctrSpec Nk Nr (Spec.CtrDrbg.update (aes Nk Nr) 16 (4 * Nk) d s) r
  | s, .reseedDf d _ _ :: r => ctrSpec Nk Nr (Spec.CtrDrbg.reseedDf (aes Nk Nr) 16 (4 * Nk) s d) r
  | s, .generate out :: r =>
    Spec.CtrDrbg.output (aes Nk Nr) 16 s out.length :: ctrSpec Nk Nr (Spec.CtrDrbg.update (aes Nk Nr) 16 (4 * Nk) [] s) r

/-- The stack buffers of the derivation function are `keyBytes + blockBytes` long. -/
def CtrOp.ok (Nk : Nat) : CtrOp → Prop
  | .reseedDf _ u w => 4 * Nk + 16 ≤ u.length ∧ w.length = 4 * Nk + 16
  | _ => True

include hN
theorem drbg_agree : ∀ K x : List (BitVec 8), K.length = 4 * Nk → x.length = 16 → drbgEnc Nr (drbgKs Nk Nr K) x = aes Nk Nr K x :=
  fun K x hK hx => C43_aes_fips197 K x hx Nk Nr hN hK

theorem ctrRun_spec : ∀ (ops : List CtrOp) (x : CtrDrbg.Ctx (List (BitVec 8))) (s : List (BitVec 8) × List (BitVec 8)),
    CtrDrbg.Rel (drbgKs Nk Nr) 16 (4 * Nk) x s → (∀ o ∈ ops, o.ok Nk) → ctrRun Nk Nr x ops = ctrSpec Nk Nr s ops
  | [], _, _, _, _ => rfl
  | o :: r, x, s, h, ho => by
    have ih := ctrRun_spec r
    have hr : ∀ o ∈ r, o.ok Nk := fun o h => ho o (by simp [h])
    have hA := drbg_agree hN
    have hL : ∀ K x : List (BitVec 8), K.length = 4 * Nk → x.length = 16 → (drbgEnc Nr (drbgKs Nk Nr K) x).length = 16 :=
      fun K x _ hx => drbgEnc_len Nr _ x hx
    have h4 : 4 ≤ 16 := by decide
    cases o with
    | reseed d =>
      show ctrRun Nk Nr _ r = ctrSpec Nk Nr _ r
      refine ih _ _ ?_ hr
      rw [← ModeCongr.update_congr h4 hA d s h.2.1 h.2.2.1]
      exact C29_reseed (drbgEnc Nr) (drbgKs Nk Nr) 16 (4 * Nk) h4 (drbgEnc_len Nr) x s h d
    | reseedDf d u w =>
      show ctrRun Nk Nr _ r = ctrSpec Nk Nr _ r
      have hd := ho (.reseedDf d u w) (by simp)
      refine ih _ _ ?_ hr
      unfold Spec.CtrDrbg.reseedDf
      rw [← ModeCongr.df_congr h4 hA hL, ← ModeCongr.update_congr h4 hA _ s h.2.1 h.2.2.1]
      exact C29_reseed_df (drbgEnc Nr) (drbgKs Nk Nr) 16 (4 * Nk) h4 (drbgEnc_len Nr) x s h d u w hd.1 hd.2
    | generate out =>
      show _ :: _ = _ :: _
      rw [C29_generate_output_partial (drbgEnc Nr) (drbgKs Nk Nr) 16 (4 * Nk) h4 (drbgEnc_len Nr) x s h out,
        ModeCongr.output_congr h4 hA s h.2.1 h.2.2.1 out.length]
      refine congrArg _ (ih _ _ ?_ hr)
      rw [← ModeCongr.update_congr h4 hA [] s h.2.1 h.2.2.1]
      exact C29_generate_state (drbgEnc Nr) (drbgKs Nk Nr) 16 (4 * Nk) h4 (drbgEnc_len Nr) x s h out

/-- C82: CTR_DRBG with AES: the outputs of every history after seeding without the derivation function. -/
theorem C82_ctr_drbg_aes_partial (x : CtrDrbg.Ctx (List (BitVec 8))) (d : List (BitVec 8)) (ops : List CtrOp) (ho : ∀ o ∈ ops, o.ok Nk) :
    ctrRun Nk Nr (CtrDrbg.seed (drbgEnc Nr) (drbgKs Nk Nr) 16 (4 * Nk) x d) ops =
      ctrSpec Nk Nr (Spec.CtrDrbg.instantiate (aes Nk Nr) 16 (4 * Nk) d) ops := by
  refine ctrRun_spec hN ops _ _ ?_ ho
  rw [← ModeCongr.instantiate_congr (by decide) (drbg_agree hN)]
  exact C29_instantiate (drbgEnc Nr) (drbgKs Nk Nr) 16 (4 * Nk) (by decide) (drbgEnc_len Nr) x d

/-- C82: the same after seeding with the derivation function. -/
theorem C82_ctr_drbg_aes_df_partial (x : CtrDrbg.Ctx (List (BitVec 8))) (d u w : List (BitVec 8)) (hu : 4 * Nk + 16 ≤ u.length)
    (hw : w.length = 4 * Nk + 16) (ops : List CtrOp) (ho : ∀ o ∈ ops, o.ok Nk) :
    ctrRun Nk Nr (CtrDrbg.seedDf (drbgEnc Nr) (drbgKs Nk Nr) 16 (4 * Nk) x d u w) ops =
      ctrSpec Nk Nr (Spec.CtrDrbg.instantiateDf (aes Nk Nr) 16 (4 * Nk) d) ops := by
  refine ctrRun_spec hN ops _ _ ?_ ho
  unfold Spec.CtrDrbg.instantiateDf
  rw [← ModeCongr.df_congr (by decide) (drbg_agree hN) (fun K x _ hx => drbgEnc_len Nr _ x hx),
    ← ModeCongr.instantiate_congr (by decide) (drbg_agree hN)]
  exact C29_instantiate_df (drbgEnc Nr) (drbgKs Nk Nr) 16 (4 * Nk) (by decide) (drbgEnc_len Nr) x d u w hu hw
end

example : AesSize 6 12 ∧ (List.replicate 24 1#8).length = 4 * 6 := ⟨.inr (.inl rfl), rfl⟩
example : ∀ o ∈ [CtrOp.reseed [1], .generate [1, 2, 3], .reseedDf [5] (List.replicate 40 0) (List.replicate 32 0)], o.ok 4 := by
  intro o h
  simp only [List.mem_cons, List.not_mem_nil, or_false] at h
  rcases h with rfl | rfl | rfl
  · trivial
  · trivial
  · exact ⟨by decide, by decide⟩

end Props
