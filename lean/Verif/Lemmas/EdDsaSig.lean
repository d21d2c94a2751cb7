import Verif.Lemmas.EdDsaKey

/-! Signing and verification of EdDSA. -/

namespace EdDsa
open Vlong Ec Spec

section
variable {C : EdCurve} {c p : Nat} [hp : Fact p.Prime] {a d : ZMod p}

theorem foldl_or_all (n : Nat) (f : Nat → Byte) :
    (List.range n).foldl (fun b i => b ||| f i) (0 : Byte) = 0 ↔ ∀ i < n, f i = 0 := by
  induction n with
  | zero => simp
  | succ n ih =>
    rw [List.range_succ, List.foldl_append, List.foldl_cons, List.foldl_nil]
    have hor : ∀ u v : Byte, u ||| v = 0 ↔ u = 0 ∧ v = 0 := by
      intro u v
      constructor
      · intro h
        have e := congrArg BitVec.toNat h
        rw [BitVec.toNat_or] at e
        have := Nat.or_eq_zero_iff.mp e
        exact ⟨BitVec.eq_of_toNat_eq this.1, BitVec.eq_of_toNat_eq this.2⟩
      · rintro ⟨rfl, rfl⟩; rfl
    rw [hor, ih]
    constructor
    · rintro ⟨h1, h2⟩ i hi
      rcases Nat.lt_succ_iff_lt_or_eq.mp hi with h | h
      · exact h1 i h
      · rw [h]; exact h2
    · intro h
      exact ⟨fun i hi => h i (by omega), h n (by omega)⟩

theorem diff_iff {n : Nat} {l m : List Byte} (hl : l.length = n) (hm : m.length = n) :
    (List.range n).foldl (fun b i => b ||| (l.getD i 0 ^^^ m.getD i 0)) (0 : Byte) = 0 ↔ l = m := by
  rw [foldl_or_all n (fun i => l.getD i 0 ^^^ m.getD i 0)]
  constructor
  · intro h
    apply List.ext_getElem (by omega)
    intro i h1 h2
    have := h i (by omega)
    rw [List.getD_eq_getElem _ _ h1, List.getD_eq_getElem _ _ h2] at this
    exact BitVec.xor_eq_zero_iff.mp this
  · rintro rfl i _
    exact BitVec.xor_self

variable (hC : SigOk C c p a d) [hE : EdComplete a d] {B : EdPoint a d} (hB : BaseOk C c B)
include hC hB

theorem plen_or : plen C = 32 ∨ plen C = 57 := by
  rcases plen_cases hC with h | h
  · exact Or.inl h.2
  · exact Or.inr h.2.2

/-- `RFC8032_Sign`. -/
theorem rfcSign_spec (H : Pkcs1.Hash) (x : Ctx) (hs : x.s ≠ []) (flags : Byte) (em : List Byte) :
    encodeSignature C (rfcSign C c H x flags em) (plen C * 2) =
      some (edSign (plen C) (val C.L) B (fun m => H.digest m (plen C * 2)) (edDom (plen C) flags x.ctxstr) x.prefix_
        (pointEnc C x.A) (val x.s) em) := by
  have hL := hC.L2
  have hd := dom_eq x.ctxstr flags (plen_or hC hB)
  have hpl := plen_le hC
  obtain ⟨r1, r2⟩ := scalarOf_val hC (H.digest (edDom (plen C) flags x.ctxstr ++ x.prefix_ ++ em) (plen C * 2))
    (by rw [Pkcs1.length_digest]; exact hpl)
  unfold encodeSignature rfcSign edSign
  rw [if_neg (by omega)]
  simp only
  rw [hd]
  generalize scalarOf C c (H.digest (edDom (plen C) flags x.ctxstr ++ x.prefix_ ++ em) (plen C * 2)) = r at *
  have hrL : val r < val C.L := by rw [r2]; exact Nat.mod_lt _ (by omega)
  rw [encB hC hB r (by
    by_cases h : val r = 0
    · exact Or.inr h
    · left; rw [Nat.mod_eq_of_lt hrL]; exact h), ← r2]
  obtain ⟨k1, k2⟩ := scalarOf_val hC (H.digest (edDom (plen C) flags x.ctxstr ++ edEncode (plen C) (val r • B) ++ pointEnc C x.A ++
    em) (plen C * 2)) (by rw [Pkcs1.length_digest]; exact hpl)
  rw [← k2]
  generalize scalarOf C c (H.digest (edDom (plen C) flags x.ctxstr ++ edEncode (plen C) (val r • B) ++ pointEnc C x.A ++
    em) (plen C * 2)) = k at *
  obtain ⟨s1, s2⟩ := sigS_val hC hrL (by rw [k2]; exact Nat.mod_lt _ (by omega)) hs
  rw [← s2]
  generalize (remvInplace (addv c r (mulM ⟨fun l => (remvInplace l C.L).getD l, C.L⟩ c k x.s 1)) C.L).getD
      (addv c r (mulM ⟨fun l => (remvInplace l C.L).getD l, C.L⟩ c k x.s 1)) = S at *
  congr 2
  apply leNat_inj
  · rw [(Props.C06_enclsb _ _).1]; simp [leN]
  · rw [(Props.C06_enclsb _ _).2, leNat_leN]

/-- `RFC8032_Verify`. -/
theorem rfcVerify_spec (H : Pkcs1.Hash) (x : Ctx) (flags : Byte) (em : List Byte) {A R : EdPoint a d} (hA : EPtK 2 c x.A A)
    (hR : EPtK 2 c x.R R) :
    ((rfcVerify C c H x flags em).2 = true → val x.r • B = R + (leNat (H.digest (edDom (plen C) flags x.ctxstr ++
      pointEnc C x.R ++ pointEnc C x.A ++ em) (plen C * 2)) % val C.L) • A) ∧
    (val x.r % val C.L ≠ 0 → val x.r • B = R + (leNat (H.digest (edDom (plen C) flags x.ctxstr ++
      pointEnc C x.R ++ pointEnc C x.A ++ em) (plen C * 2)) % val C.L) • A → (rfcVerify C c H x flags em).2 = true) := by
  have hd := dom_eq x.ctxstr flags (plen_or hC hB)
  have hpl := plen_le hC
  obtain ⟨k1, k2⟩ := scalarOf_val hC (H.digest (edDom (plen C) flags x.ctxstr ++ pointEnc C x.R ++ pointEnc C x.A ++ em) (plen C * 2))
    (by rw [Pkcs1.length_digest]; exact hpl)
  unfold rfcVerify
  simp only
  rw [hd, ← k2]
  generalize scalarOf C c (H.digest (edDom (plen C) flags x.ctxstr ++ pointEnc C x.R ++ pointEnc C x.A ++ em) (plen C * 2)) = k at *
  have n1 := canon_spec hC (by norm_num) (edScaleAccumulate_ptK hC.ok k (by norm_num) (by norm_num) hR hA)
  have n2 := scaleB hC hB x.r
  have hdiff := diff_iff (pointEnc_val C (canon C c (edScaleAccumulate C c x.R x.A k))).1
    (pointEnc_val C (canon C c (edScaleAccumulate C c (xytzInf c) C.B x.r))).1
  constructor
  · intro h
    by_cases hz : (List.range (plen C)).foldl (fun b i => b |||
        ((pointEnc C (canon C c (edScaleAccumulate C c x.R x.A k))).getD i 0 ^^^
          (pointEnc C (canon C c (edScaleAccumulate C c (xytzInf c) C.B x.r))).getD i 0)) (0 : Byte) = 0
    · exact (pointEnc_inj hC n1 n2 (hdiff.mp hz)).symm
    · rw [if_pos hz] at h
      exact absurd h (by simp)
  · intro h0 heq
    obtain ⟨hx, hy⟩ := coords_ne hC hB h0
    have e2 := pointEnc_norm hC n2 hx hy
    rw [heq] at hx hy e2
    have e1 := pointEnc_norm hC n1 hx hy
    rw [if_neg (by rw [ne_eq, not_not, hdiff, e1, e2])]

end
end EdDsa
