import Verif.Lemmas.Poly1305

/-!
# C21: Poly1305 (`src/1-symm/poly1305.c`)

The code never performs the final conditional subtraction of `2^130 - 5`, so the claim "the tag is the RFC 8439
tag" holds only when the true accumulator is at least 35, and fails for some inputs.
-/
namespace Props
open Poly1305 Spec

/-- C21 (partial).  For every 32-byte key and every sequence of 16-byte blocks, the sixteen bytes the code produces
encode the RFC 8439 tag whenever the true final accumulator is at least 35 (`p + 35 = 2^130 + 30` bounds what the
code leaves unreduced).  Missing: accumulators below 35, where `C21_tag_two_values` is all that holds. -/
theorem C21_poly1305_partial (k : List (BitVec 8)) (hk : k.length = 32) (bs : List (List (BitVec 8))) (hb : ∀ b ∈ bs, b.length = 16)
    (hP : 35 ≤ poly1305Acc (leNat (k.take 16) &&& clampMask) 0 bs) :
    (tag (final (bs.foldl block (init k)))).length = 16 ∧
    leNat (tag (final (bs.foldl block (init k)))) = Spec.poly1305 k bs := by
  obtain ⟨acc, h1, h2, h3⟩ := poly_spec k hk bs hb
  refine ⟨(tag_leNat _).2, ?_⟩
  rw [h3]
  unfold Spec.poly1305
  have hl := acc_lt (leNat (k.take 16) &&& clampMask) bs 0 (by decide)
  obtain ⟨P, hPe⟩ : ∃ P, P = poly1305Acc (leNat (k.take 16) &&& clampMask) 0 bs := ⟨_, rfl⟩
  rw [← hPe] at h1 hP hl ⊢
  have : acc = P := by
    unfold p1305 at h1 hl
    omega
  rw [this]

/-- C21.  In every case the tag is the one for the true accumulator or for the true accumulator plus `p`. -/
theorem C21_tag_two_values (k : List (BitVec 8)) (hk : k.length = 32) (bs : List (List (BitVec 8))) (hb : ∀ b ∈ bs, b.length = 16) :
    leNat (tag (final (bs.foldl block (init k)))) = Spec.poly1305 k bs ∨
    leNat (tag (final (bs.foldl block (init k)))) = (Spec.poly1305 k bs + p1305) % 2 ^ 128 := by
  obtain ⟨acc, h1, h2, h3⟩ := poly_spec k hk bs hb
  rw [h3]
  unfold Spec.poly1305
  have hl := acc_lt (leNat (k.take 16) &&& clampMask) bs 0 (by decide)
  obtain ⟨P, hPe⟩ : ∃ P, P = poly1305Acc (leNat (k.take 16) &&& clampMask) 0 bs := ⟨_, rfl⟩
  rw [← hPe] at h1 hl ⊢
  generalize leNat ((k.drop 16).take 16) = s
  have : acc = P ∨ acc = P + p1305 := by
    unfold p1305 at h1 hl ⊢
    omega
  rcases this with h | h
  · left; rw [h]
  · right; rw [h]; unfold p1305; omega

/-- C21.  The claim without the lower bound is false: with `r = 2`, `s = 0` and one block of sixteen FF bytes the
code returns a wrong tag (RFC 8439 gives 3, appendix A.3 test vector 7). -/
theorem C21_unreduced_tag :
    ∃ (k : List (BitVec 8)) (bs : List (List (BitVec 8))), k.length = 32 ∧ (∀ b ∈ bs, b.length = 16) ∧
      leNat (tag (final (bs.foldl block (init k)))) ≠ Spec.poly1305 k bs := by
  refine ⟨2#8 :: List.replicate 31 0#8, [List.replicate 16 0xff#8], by decide, by decide, ?_⟩
  decide +kernel

/-- Non-vacuity for C21: the key and message start of RFC 8439 2.5.2 meet the hypothesis. -/
example : ∃ (k : List (BitVec 8)) (bs : List (List (BitVec 8))), k.length = 32 ∧ bs.length = 2 ∧ (∀ b ∈ bs, b.length = 16) ∧
    35 ≤ poly1305Acc (leNat (k.take 16) &&& clampMask) 0 bs := by
  refine ⟨[0x85, 0xd6, 0xbe, 0x78, 0x57, 0x55, 0x6d, 0x33, 0x7f, 0x44, 0x52, 0xfe, 0x42, 0xd5, 0x06, 0xa8] ++ List.replicate 16 7#8,
    [List.replicate 16 0x43#8, List.replicate 16 0x72#8], by decide, by decide, by decide, by decide +kernel⟩

end Props
