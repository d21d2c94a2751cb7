import Verif.Model.Seed
import Verif.Lemmas.Endian

namespace Seed
open Endian

theorem encLoop_succ (K : List D) (n : Nat) (s : D × D) :
    encLoop K (n + 1) s = ((encLoop K n s).2, (encLoop K n s).1 ^^^ func_F (K.getD n 0) (encLoop K n s).2) := by
  unfold encLoop
  rw [List.range_succ, List.foldl_append]
  rfl

theorem dec_enc_loop (K : List D) (n : Nat) (s : D × D) : decLoop K n (encLoop K n s) = s := by
  induction n with
  | zero => rfl
  | succ n ih =>
    rw [encLoop_succ]
    unfold decLoop
    rw [BitVec.xor_assoc, BitVec.xor_self, BitVec.xor_zero]
    exact ih

theorem dec_enc (inp : List Byte) (K : List D) (h : inp.length = 16) : decrypt (encrypt inp K) K = inp := by
  unfold decrypt encrypt
  simp only []
  obtain ⟨s, hs⟩ : ∃ s, s = encLoop K 15 (ld64 inp 0, ld64 inp 1) := ⟨_, rfl⟩
  rw [← hs, (ld64_st64 _ _).1, (ld64_st64 _ _).2, BitVec.xor_assoc, BitVec.xor_self, BitVec.xor_zero]
  have := dec_enc_loop K 15 (ld64 inp 0, ld64 inp 1)
  rw [← hs] at this
  rw [show (s.1, s.2) = s from rfl, this]
  exact st64_ld64 inp h

end Seed
