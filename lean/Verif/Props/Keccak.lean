import Verif.Lemmas.KeccakBits
import Verif.Props.Sponge
import Verif.Props.K12

/-!
# C69: the Keccak permutations, SHA-3 and SHAKE are those of FIPS 202, bit for bit
-/

namespace Props
open Sponge Spec

/-- C69: on any state of 200 octets the permutation with `nr` rounds is Keccak-p[1600, nr]. -/
theorem C69_permutation (nr : Nat) (hn : nr ≤ 24) (b : List (BitVec 8)) (hb : b.length = 200) :
    (_root_.Keccak.permute nr b).length = 200 ∧ Keccak.bits (_root_.Keccak.permute nr b) = Keccak.keccakP nr (Keccak.bits b) :=
  ⟨_root_.Keccak.permute_length nr hn b hb, _root_.Keccak.permute_bits nr hn b hb⟩

/-- C69: the three permutations of the API have 24, 12 and 14 rounds. -/
theorem C69_permutations (b : List (BitVec 8)) (hb : b.length = 200) :
    Keccak.bits (_root_.Keccak.f1600 b) = Keccak.keccakP 24 (Keccak.bits b) ∧
    Keccak.bits (_root_.Keccak.p1600nr12 b) = Keccak.keccakP 12 (Keccak.bits b) ∧
    Keccak.bits (_root_.Keccak.p1600nr14 b) = Keccak.keccakP 14 (Keccak.bits b) :=
  ⟨(C69_permutation 24 (by decide) b hb).2, (C69_permutation 12 (by decide) b hb).2, (C69_permutation 14 (by decide) b hb).2⟩

set_option maxRecDepth 10000000 in
/-- The first octets of Keccak-f[1600] of the zero state (the published value). -/
example : (_root_.Keccak.f1600 (List.replicate 200 0)).take 8 = [0xe7, 0xdd, 0xe1, 0x40, 0x79, 0x8f, 0x25, 0xf1] := by decide +kernel
set_option maxRecDepth 10000000 in
/-- The first octets of Keccak-p[1600, 12] of the zero state. -/
example : (_root_.Keccak.p1600nr12 (List.replicate 200 0)).take 8 ≠ (_root_.Keccak.f1600 (List.replicate 200 0)).take 8 := by decide +kernel

/-- The digest that `SHA3_Final` gives, cut or filled with zeros to `t` octets. -/
theorem sha3_digest (d rate : Nat) (hd : d = 8 * ((200 - rate) / 2)) (hr : 0 < rate) (hr2 : rate ≤ 200) (hc : 1600 - 2 * d = 8 * rate)
    (ms : List (List (BitVec 8))) (t : Nat) :
    Keccak.bits (sha3Final _root_.Keccak.f1600 (ms.foldl (update _root_.Keccak.f1600) (sha3Init rate)) t).1 =
      (Keccak.sha3 d (Keccak.bits ms.flatten) ++ List.replicate (8 * t - d) false).take (8 * t) := by
  rw [C11_sha3 _root_.Keccak.f1600 rate hr ms t]
  generalize hh : (200 - rate) / 2 = h at *
  have e : prefixOf (fun k => if k < h then spongeStream _root_.Keccak.f1600 rate 200 0x06 0x80 ms.flatten k else 0) t =
      (prefixOf (spongeStream _root_.Keccak.f1600 rate 200 0x06 0x80 ms.flatten) h ++ List.replicate (t - h) 0).take t := by
    apply List.ext_getElem?
    intro k
    unfold prefixOf
    rw [List.getElem?_map, List.getElem?_take, List.getElem?_append, List.length_map, List.length_range, List.getElem?_map, List.getElem?_replicate]
    by_cases hk : k < t
    · rw [List.getElem?_range hk, if_pos hk]
      by_cases hk2 : k < h
      · rw [if_pos hk2, List.getElem?_range hk2]; simp [hk2]
      · rw [if_neg hk2, if_pos (by omega)]; simp [hk2]
    · rw [if_neg hk, List.getElem?_eq_none (by simp; omega)]; rfl
  rw [e, _root_.Keccak.bits_take, _root_.Keccak.bits_append, _root_.Keccak.bits_zero,
    _root_.Keccak.bits_stream _root_.Keccak.f1600_perm rate hr hr2 0x06 _ _root_.Keccak.dom_06, ← hc, ← hd, Nat.mul_sub, ← hd]
  rfl

/-- C69: SHA3-224, -256, -384 and -512 of a message given in any pieces, as FIPS 202 defines them. -/
theorem C69_sha3_224 (ms : List (List (BitVec 8))) (t : Nat) :
    Keccak.bits (sha3Final _root_.Keccak.f1600 (ms.foldl (update _root_.Keccak.f1600) (sha3Init 144)) t).1 =
      (Keccak.sha3 224 (Keccak.bits ms.flatten) ++ List.replicate (8 * t - 224) false).take (8 * t) :=
  sha3_digest 224 144 (by decide) (by decide) (by decide) (by decide) ms t
theorem C69_sha3_256 (ms : List (List (BitVec 8))) (t : Nat) :
    Keccak.bits (sha3Final _root_.Keccak.f1600 (ms.foldl (update _root_.Keccak.f1600) (sha3Init 136)) t).1 =
      (Keccak.sha3 256 (Keccak.bits ms.flatten) ++ List.replicate (8 * t - 256) false).take (8 * t) :=
  sha3_digest 256 136 (by decide) (by decide) (by decide) (by decide) ms t
theorem C69_sha3_384 (ms : List (List (BitVec 8))) (t : Nat) :
    Keccak.bits (sha3Final _root_.Keccak.f1600 (ms.foldl (update _root_.Keccak.f1600) (sha3Init 104)) t).1 =
      (Keccak.sha3 384 (Keccak.bits ms.flatten) ++ List.replicate (8 * t - 384) false).take (8 * t) :=
  sha3_digest 384 104 (by decide) (by decide) (by decide) (by decide) ms t
theorem C69_sha3_512 (ms : List (List (BitVec 8))) (t : Nat) :
    Keccak.bits (sha3Final _root_.Keccak.f1600 (ms.foldl (update _root_.Keccak.f1600) (sha3Init 72)) t).1 =
      (Keccak.sha3 512 (Keccak.bits ms.flatten) ++ List.replicate (8 * t - 512) false).take (8 * t) :=
  sha3_digest 512 72 (by decide) (by decide) (by decide) (by decide) ms t

set_option maxRecDepth 10000000 in
/-- SHA3-256 of the empty message and of "abc" in two pieces (the published digests). -/
example : (sha3Final _root_.Keccak.f1600 (sha3Init 136) 32).1 =
    [0xa7, 0xff, 0xc6, 0xf8, 0xbf, 0x1e, 0xd7, 0x66, 0x51, 0xc1, 0x47, 0x56, 0xa0, 0x61, 0xd6, 0x62,
     0xf5, 0x80, 0xff, 0x4d, 0xe4, 0x3b, 0x49, 0xfa, 0x82, 0xd8, 0x0a, 0x4b, 0x80, 0xf8, 0x43, 0x4a] := by decide +kernel
set_option maxRecDepth 10000000 in
example : (sha3Final _root_.Keccak.f1600 ([[0x61], [0x62, 0x63]].foldl (update _root_.Keccak.f1600) (sha3Init 136)) 4).1 =
    [0x3a, 0x98, 0x5d, 0xa7] := by decide +kernel

/-- C69: SHAKE128 and SHAKE256: the first `n` octets read are the first `8 n` bits of the FIPS 202 function. -/
theorem C69_shake128 (ms : List (List (BitVec 8))) (n : Nat) :
    Keccak.bits (read _root_.Keccak.f1600 (shakeFinal _root_.Keccak.f1600 (ms.foldl (update _root_.Keccak.f1600) (shakeInit 168))) n).1 =
      Keccak.shake128 (Keccak.bits ms.flatten) (8 * n) := by
  rw [C11_shake _ 168 (by decide), _root_.Keccak.bits_stream _root_.Keccak.f1600_perm 168 (by decide) (by decide) 0x1f _ _root_.Keccak.dom_1f]
  rfl
theorem C69_shake256 (ms : List (List (BitVec 8))) (n : Nat) :
    Keccak.bits (read _root_.Keccak.f1600 (shakeFinal _root_.Keccak.f1600 (ms.foldl (update _root_.Keccak.f1600) (shakeInit 136))) n).1 =
      Keccak.shake256 (Keccak.bits ms.flatten) (8 * n) := by
  rw [C11_shake _ 136 (by decide), _root_.Keccak.bits_stream _root_.Keccak.f1600_perm 136 (by decide) (by decide) 0x1f _ _root_.Keccak.dom_1f]
  rfl

set_option maxRecDepth 10000000 in
/-- SHAKE128 of the empty message (the published output). -/
example : (read _root_.Keccak.f1600 (shakeFinal _root_.Keccak.f1600 (shakeInit 168)) 8).1 =
    [0x7f, 0x9c, 0x2b, 0xa4, 0xe8, 0x8f, 0x82, 0x7d] := by decide +kernel
set_option maxRecDepth 10000000 in
/-- SHAKE256 of the empty message. -/
example : (read _root_.Keccak.f1600 (shakeFinal _root_.Keccak.f1600 (shakeInit 136)) 8).1 =
    [0x46, 0xb9, 0xdd, 0x2b, 0x0b, 0xa8, 0x8d, 0x13] := by decide +kernel

end Props
