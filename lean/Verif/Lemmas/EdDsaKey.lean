import Verif.Lemmas.EdDsaInst

/-! Pruning of the hash and the domain octets. -/

namespace EdDsa
open Vlong Ec Spec

section
variable {C : EdCurve} {c p : Nat} [hp : Fact p.Prime] {a d : ZMod p} (hC : SigOk C c p a d)
include hC

theorem plen_cases : (cond25519 C = true ∧ plen C = 32) ∨ (cond25519 C = false ∧ cond448 C = true ∧ plen C = 57) := by
  unfold plen
  rcases hC.kind with ⟨h1, h2, -⟩ | ⟨h1, h2, h3, -⟩
  · left; exact ⟨h1, by rw [h2]⟩
  · right; exact ⟨h1, h2, by rw [h3]⟩

omit hC hp in
theorem take_modify_lt {α : Type*} (l : List α) (n i : Nat) (f : α → α) : (l.modify i f).take n = (l.take n).modify i f := by
  apply List.ext_getElem?
  intro j
  simp only [List.getElem?_take, List.getElem?_modify]
  split <;> simp

omit hC hp in
theorem drop_modify_lt {α : Type*} (l : List α) (n i : Nat) (f : α → α) (h : i < n) : (l.modify i f).drop n = l.drop n := by
  apply List.ext_getElem?
  intro j
  simp only [List.getElem?_drop, List.getElem?_modify]
  have : ¬ i = n + j := by omega
  simp [this]

omit hC hp in
theorem modify_modify {α : Type*} (l : List α) (i : Nat) (f g : α → α) : (l.modify i f).modify i g = l.modify i (g ∘ f) := by
  apply List.ext_getElem?
  intro j
  simp only [List.getElem?_modify]
  split
  · simp; rfl
  · simp

/-- The scalar and the prefix taken from the hash. -/
theorem clamp_spec (buf : List Byte) (hl : buf.length = plen C * 2) :
    leNat ((clamp C buf).take (plen C)) = edScalar (plen C) buf ∧
    ((clamp C buf).drop (plen C)).take (plen C) = buf.drop (plen C) := by
  rcases plen_cases hC with ⟨h1, h2⟩ | ⟨h1, h2, h3⟩
  · unfold clamp
    rw [if_pos h1, h2]
    rw [h2] at hl
    constructor
    · unfold edScalar
      rw [if_pos rfl, take_modify_lt, take_modify_lt]
      have := (Xecdh.clamp25519_val (buf.take 32) (by rw [List.length_take]; omega)).2
      rw [← this]
      unfold Xecdh.clamp25519
      rw [modify_modify]
      congr 2
      funext b
      simp only [Function.comp]
      exact BitVec.or_comm _ _
    · rw [drop_modify_lt _ _ _ _ (by norm_num), drop_modify_lt _ _ _ _ (by norm_num), List.take_of_length_le (by
        rw [List.length_drop]; omega)]
  · unfold clamp
    rw [if_neg (by rw [h1]; decide), if_pos h2, h3]
    rw [h3] at hl
    constructor
    · unfold edScalar
      rw [if_neg (by norm_num)]
      have := (Xecdh.clamp448_val (buf.take 56) (by rw [List.length_take]; omega)).2
      rw [← this]
      unfold Xecdh.clamp448
      have e : (((buf.modify 0 (· &&& 0xfc)).modify 55 (· ||| 0x80)).set 56 0).take 57 =
          ((buf.take 56).modify 0 (· &&& 252)).modify 55 (· ||| 128) ++ [0] := by
        rw [← take_modify_lt, ← take_modify_lt]
        have hlen : ((buf.modify 0 (· &&& 252)).modify 55 (· ||| 128)).length = 114 := by
          rw [List.length_modify, List.length_modify, hl]
        rw [show (57 : Nat) = 56 + 1 by norm_num, List.take_add_one, List.take_set_of_le (by norm_num)]
        congr 1
        rw [List.getElem?_set_self (by rw [hlen]; norm_num)]; rfl
      rw [e, leNat_append]
      simp [leNat]
    · rw [List.drop_set_of_lt (by norm_num), drop_modify_lt _ _ _ _ (by norm_num), drop_modify_lt _ _ _ _ (by norm_num),
        List.take_of_length_le (by rw [List.length_drop]; omega)]

omit hp hC in
theorem dom_eq (ctx : List Byte) (f : Byte) (h : plen C = 32 ∨ plen C = 57) : domain C ctx f = edDom (plen C) f ctx := by
  have a1 : domStr25519 = ascii "SigEd25519 no Ed25519 collisions" := by decide +kernel
  have a2 : domStr448 = ascii "SigEd448" := by decide +kernel
  unfold domain edDom
  rcases h with h | h
  · rw [if_pos h, if_pos h, ← a1]
    by_cases g : f = 0 ∧ ctx = []
    · rw [if_pos g, if_neg]
      rw [g.1, g.2, h]; simp
    · rw [if_neg g, if_pos]
      · simp
      · by_cases hf : f = 0
        · right; left
          exact List.length_pos_iff.mpr (fun e => g ⟨hf, e⟩)
        · right; right; exact hf
  · rw [if_pos (Or.inl (by omega)), if_neg (by omega), if_neg (by omega), ← a2]
    simp

omit hp hC in
theorem scalar_bounds25519 (h : List Byte) : edScalar 32 h % 8 = 0 ∧ 0 < edScalar 32 h ∧ edScalar 32 h < 2 ^ 255 := by
  unfold edScalar decodeScalar25519
  rw [if_pos rfl]
  have := Nat.mod_lt (leNat (h.take 32) / 8) (show 0 < 2 ^ 251 by positivity)
  have e : (2:Nat) ^ 254 = 8 * 2 ^ 251 := by decide +kernel
  have e2 : (2:Nat) ^ 255 = 16 * 2 ^ 251 := by decide +kernel
  rw [e, e2]
  generalize (2:Nat) ^ 251 = M at *
  omega

theorem scalar_lt (h : List Byte) : edScalar (plen C) h < 2 ^ (8 * plen C) := by
  rcases plen_cases hC with ⟨-, h2⟩ | ⟨-, -, h2⟩
  · rw [h2]; exact (scalar_bounds25519 h).2.2.trans (by norm_num)
  · rw [h2]
    unfold edScalar decodeScalar448
    rw [if_neg (by norm_num)]
    have := Nat.mod_lt (leNat (h.take 56) / 4) (show 0 < 2 ^ 445 by positivity)
    have e : (2:Nat) ^ 447 = 4 * 2 ^ 445 := by decide +kernel
    have e2 : (2:Nat) ^ (8 * 57) = 2048 * 2 ^ 445 := by decide +kernel
    rw [e, e2]
    generalize (2:Nat) ^ 445 = M at *
    omega

/-- The secret scalar of Ed25519 is never a multiple of the order. -/
theorem scalar25519_ne (h32 : plen C = 32) (h : List Byte) : edScalar (plen C) h % val C.L ≠ 0 := by
  intro h0
  obtain ⟨b1, b2, b3⟩ := scalar_bounds25519 h
  rw [h32] at h0
  obtain ⟨m, hm⟩ := Nat.dvd_of_mod_eq_zero h0
  have hL := hC.Lprime
  have h2 := hC.L2
  have hcop : Nat.Coprime 8 (val C.L) := by
    rw [show (8 : Nat) = 2 ^ 3 by norm_num]
    apply Nat.Coprime.pow_left
    exact (Nat.coprime_primes Nat.prime_two hL).mpr (by omega)
  have hd : 8 ∣ m := hcop.dvd_of_dvd_mul_left (hm ▸ Nat.dvd_of_mod_eq_zero b1)
  obtain ⟨j, rfl⟩ := hd
  have hhalf := hC.half
  have hpb : C.pbits = 255 := by
    rcases hC.kind with h | h
    · exact h.2.1
    · unfold plen at h32; omega
  rw [hpb] at hhalf
  have : j = 0 := by
    by_contra hj
    have : val C.L * (8 * 1) ≤ val C.L * (8 * j) := Nat.mul_le_mul_left _ (by omega)
    omega
  subst this
  omega

end
end EdDsa
