import Verif.Model.EccSig
import Verif.Spec.EccSig
import Verif.Lemmas.Ecdsa
import Verif.Props.Der

/-! The DER codec of signatures. -/

namespace Ecc
open Vlong Ec Spec

theorem moveUp_eq (subret n : Nat) (buf : List Byte) (h : subret + n ≤ buf.length) :
    moveUp subret n buf = some (buf.take subret ++ buf.take n ++ buf.drop (subret + n)) := by
  induction n generalizing buf with
  | zero => simp [moveUp]
  | succ n ih =>
    rw [moveUp, if_pos (by omega), ih _ (by rw [List.length_set]; omega)]
    have h1 : (buf.set (subret + n) (buf.getD n 0)).take subret = buf.take subret := List.take_set_of_le (by omega)
    have h2 : (buf.set (subret + n) (buf.getD n 0)).take n = buf.take n := List.take_set_of_le (by omega)
    have h3 : (buf.set (subret + n) (buf.getD n 0)).drop (subret + n) = buf.getD n 0 :: buf.drop (subret + n + 1) := by
      rw [List.drop_eq_getElem_cons (by rw [List.length_set]; omega), List.getElem_set_self,
        List.drop_set_of_lt (by omega)]
    rw [h1, h2, h3, List.append_assoc, List.append_assoc]
    congr 2
    rw [List.take_add_one, List.append_assoc]
    congr 1
    have : buf[n]?.toList = [buf.getD n 0] := by
      rw [List.getElem?_eq_getElem (by omega), List.getD_eq_getElem?_getD, List.getElem?_eq_getElem (by omega)]
      rfl
    rw [this]
    rfl

theorem putLen_small {v : Nat} (h : v < 128) : Der.putLen (BitVec.ofNat 64 v) = some [BitVec.ofNat 8 v] := by
  unfold Der.putLen
  have e : (BitVec.ofNat 64 v).toNat = v := by rw [BitVec.toNat_ofNat, Nat.mod_eq_of_lt (by omega)]
  rw [if_pos (by omega)]
  congr 2
  apply BitVec.eq_of_toNat_eq
  rw [BitVec.toNat_setWidth, e, BitVec.toNat_ofNat]

theorem tag2 : Der.putTag 0x80000002#32 0#32 = [0x02#8] := by decide
theorem tag16 : Der.putTag 0x80000010#32 1#32 = [0x30#8] := by decide

/-- `putInteger` for small sizes. -/
theorem putInteger_small {w : List W} (h : Der.intSize w < 128) (room : Option Nat) :
    Der.putInteger w room = match room with
      | none => some (((Der.intSize w + 2 : Nat) : Int), [])
      | some n => if n < Der.intSize w + 2 then some (-1, []) else
          some (((Der.intSize w + 2 : Nat) : Int), 0x02#8 :: BitVec.ofNat 8 (Der.intSize w) :: Der.encodeInteger w) := by
  unfold Der.putInteger
  simp only
  rw [putLen_small h, tag2]
  rcases room with _ | n
  · simp
  · simp

theorem intSize_small {w : List W} (h : val w < 2 ^ 384) : Der.intSize w ≤ 49 := by
  obtain ⟨s1, s2, s3⟩ := Der.intSize_spec w
  rcases s3 with s3 | s3
  · omega
  · by_contra hc
    have : 256 ^ 49 ≤ 256 ^ (Der.intSize w - 1) := Nat.pow_le_pow_right (by norm_num) (by omega)
    have h2 : (2 : Nat) ^ 384 * 2 < 256 ^ 49 := by decide +kernel
    omega

theorem derInt_of_words (w : List W) (h : val w < 2 ^ 384) :
    IsDerInt (val w) (0x02#8 :: BitVec.ofNat 8 (Der.intSize w) :: Der.encodeInteger w) := by
  obtain ⟨e1, e2, e3⟩ := Props.C08_encode w
  have := intSize_small h
  exact ⟨_, e2, e1, by omega, by rw [e3]⟩

theorem encodeDss_none {r s : List W} (hr : val r < 2 ^ 384) (hs : val s < 2 ^ 384) :
    encodeDss r s none = some (some (Der.intSize r + 2 + (Der.intSize s + 2) + 2, [])) := by
  have h1 := intSize_small hr
  have h2 := intSize_small hs
  unfold encodeDss
  simp only [Option.map_none, putInteger_small (show Der.intSize r < 128 by omega), putInteger_small (show Der.intSize s < 128 by omega),
    Option.bind_eq_bind, Option.bind_some, Option.elim_none]
  rw [if_neg (by omega), if_neg (by omega), Int.toNat_natCast, Int.toNat_natCast, putLen_small (by omega)]
  simp [tag16]

theorem encodeDss_some {r s : List W} (hr : val r < 2 ^ 384) (hs : val s < 2 ^ 384) (b : List Byte)
    (hb : Der.intSize r + 2 + (Der.intSize s + 2) + 2 ≤ b.length) :
    encodeDss r s (some b) = some (some (Der.intSize r + 2 + (Der.intSize s + 2) + 2,
      (0x30#8 :: BitVec.ofNat 8 (Der.intSize r + 2 + (Der.intSize s + 2)) ::
        ((0x02#8 :: BitVec.ofNat 8 (Der.intSize r) :: Der.encodeInteger r) ++
         (0x02#8 :: BitVec.ofNat 8 (Der.intSize s) :: Der.encodeInteger s))) ++
        b.drop (Der.intSize r + 2 + (Der.intSize s + 2) + 2))) := by
  have h1 := intSize_small hr
  have h2 := intSize_small hs
  have l1 : (Der.encodeInteger r).length = Der.intSize r := (Props.C08_encode r).2.2
  have l2 : (Der.encodeInteger s).length = Der.intSize s := (Props.C08_encode s).2.2
  unfold encodeDss
  simp only [Option.map_some, putInteger_small (show Der.intSize r < 128 by omega), putInteger_small (show Der.intSize s < 128 by omega),
    Option.bind_eq_bind, Nat.sub_zero, Option.elim_some]
  generalize hR : (0x02#8 :: BitVec.ofNat 8 (Der.intSize r) :: Der.encodeInteger r) = R
  generalize hS : (0x02#8 :: BitVec.ofNat 8 (Der.intSize s) :: Der.encodeInteger s) = S
  have lR : R.length = Der.intSize r + 2 := by rw [← hR]; simp [l1]
  have lS : S.length = Der.intSize s + 2 := by rw [← hS]; simp [l2]
  rw [← lR, ← lS] at hb ⊢
  rw [if_neg (by omega)]
  simp only [Option.bind_some]
  rw [if_neg (by omega), Int.toNat_natCast, if_neg (by omega)]
  rw [show putAt b 0 R = some (R ++ b.drop R.length) by unfold putAt; rw [if_pos (by omega)]; simp]
  simp only [Option.bind_some]
  have e1 : (R ++ b.drop R.length).take R.length = R := List.take_left
  have e2 : (R ++ b.drop R.length).drop (R.length + S.length) = b.drop (R.length + S.length) := by
    rw [List.drop_append, List.drop_eq_nil_of_le (by omega), List.nil_append, List.drop_drop]
    congr 1; omega
  rw [if_neg (by omega), Int.toNat_natCast]
  rw [show putAt (R ++ b.drop R.length) R.length S = some (R ++ S ++ b.drop (R.length + S.length)) by
    unfold putAt; rw [if_pos (by simp; omega), e1, e2]]
  simp only [Option.bind_some]
  rw [putLen_small (by omega)]
  simp only [Option.bind_some, tag16]
  have hlen : ([0x30#8] ++ [BitVec.ofNat 8 (R.length + S.length)]).length = 2 := rfl
  rw [hlen, if_neg (by omega)]
  rw [moveUp_eq _ _ _ (by simp; omega)]
  have e3 : (R ++ S ++ b.drop (R.length + S.length)).take (R.length + S.length) = R ++ S := by
    rw [← List.length_append]; exact List.take_left
  rw [e3]
  have e4 : (R ++ S ++ b.drop (R.length + S.length)).drop (2 + (R.length + S.length)) = b.drop (R.length + S.length + 2) := by
    rw [List.drop_append, List.drop_eq_nil_of_le (by simp), List.nil_append, List.drop_drop]
    congr 1; simp
  rw [e4]
  simp only [Option.bind_some]
  have ht : (List.take 2 (R ++ S ++ b.drop (R.length + S.length))).length = 2 := by
    rw [List.length_take, List.length_append, List.length_append]; omega
  have e5 : (List.take 2 (R ++ S ++ b.drop (R.length + S.length)) ++ (R ++ S) ++ b.drop (R.length + S.length + 2)).drop 2 =
      R ++ S ++ b.drop (R.length + S.length + 2) := by
    generalize List.take 2 (R ++ S ++ b.drop (R.length + S.length)) = T at ht
    rw [List.append_assoc, ← ht, List.drop_left]
  unfold putAt
  rw [if_pos (by rw [hlen, List.length_append, List.length_append, ht]; omega), hlen, Nat.zero_add, e5]
  simp

/-- With too short a buffer `-1` is returned, without a write outside it. -/
theorem encodeDss_short {r s : List W} (hr : val r < 2 ^ 384) (hs : val s < 2 ^ 384) (b : List Byte)
    (hb : b.length < Der.intSize r + 2 + (Der.intSize s + 2) + 2) : encodeDss r s (some b) = some none := by
  have h1 := intSize_small hr
  have h2 := intSize_small hs
  have l1 : (Der.encodeInteger r).length = Der.intSize r := (Props.C08_encode r).2.2
  have l2 : (Der.encodeInteger s).length = Der.intSize s := (Props.C08_encode s).2.2
  unfold encodeDss
  simp only [Option.map_some, putInteger_small (show Der.intSize r < 128 by omega), putInteger_small (show Der.intSize s < 128 by omega),
    Option.bind_eq_bind, Nat.sub_zero, Option.elim_some]
  generalize hR : (0x02#8 :: BitVec.ofNat 8 (Der.intSize r) :: Der.encodeInteger r) = R
  generalize hS : (0x02#8 :: BitVec.ofNat 8 (Der.intSize s) :: Der.encodeInteger s) = S
  have lR : R.length = Der.intSize r + 2 := by rw [← hR]; simp [l1]
  have lS : S.length = Der.intSize s + 2 := by rw [← hS]; simp [l2]
  rw [← lR, ← lS] at hb ⊢
  by_cases c1 : b.length < R.length
  · rw [if_pos c1]; rfl
  rw [if_neg c1]
  simp only [Option.bind_some]
  rw [if_neg (by omega), Int.toNat_natCast]
  rw [show putAt b 0 R = some (R ++ b.drop R.length) by unfold putAt; rw [if_pos (by omega)]; simp]
  simp only [Option.bind_some]
  by_cases c2 : b.length - R.length < S.length
  · rw [if_pos c2]; rfl
  rw [if_neg c2]
  simp only [Option.bind_some]
  rw [if_neg (by omega), Int.toNat_natCast]
  rw [show putAt (R ++ b.drop R.length) R.length S =
      some ((R ++ b.drop R.length).take R.length ++ S ++ (R ++ b.drop R.length).drop (R.length + S.length)) by
    unfold putAt; rw [if_pos (by simp; omega)]]
  simp only [Option.bind_some]
  rw [putLen_small (by omega)]
  simp only [Option.bind_some, tag16]
  rw [if_pos (by simp; omega)]; rfl

/-- The header reader on a short DER element. -/
theorem getHdr_short (n : BitVec 28) (pc : BitVec 32) (t : Byte) (hn : n.toNat < 31) (ht : Der.putTag (mkTag 0 n) pc = [t]) (content rest : List Byte)
    (h : content.length < 128) :
    Der.getHdr (t :: BitVec.ofNat 8 content.length :: (content ++ rest)) =
      .ok (mkTag 0 n) (BitVec.ofNat 64 content.length) (content ++ rest) := by
  obtain ⟨lo, h1, h2⟩ := Props.C07_header_roundtrip_partial 0 n pc content rest (by omega) (by omega) (by omega)
  rw [putLen_small h] at h1
  rw [← Option.some.inj h1, ht] at h2
  simpa using h2

/-- Decoding an encoding, whatever follows it. -/
theorem decodeDss_der (c : Nat) (r0 s0 : List W) {r s : Nat} {enc : List Byte} (h : IsDerSig r s enc) (rest : List Byte) :
    ∃ R S, decodeDss c r0 s0 (enc ++ rest) = .done R S true ∧ R.length = c ∧ S.length = c ∧
      val R = r % 2 ^ (32 * c) ∧ val S = s % 2 ^ (32 * c) := by
  obtain ⟨_, _, ⟨cr, -, rfl, lr, rfl⟩, ⟨cs, -, rfl, ls, rfl⟩, hlen, rfl⟩ := h
  refine ⟨os2ip c cr, os2ip c cs, ?_, (Props.C06_os2ip c cr).1, (Props.C06_os2ip c cs).1, (Props.C06_os2ip c cr).2,
    (Props.C06_os2ip c cs).2⟩
  have e1 := getHdr_short 16 1#32 0x30#8 (by decide) (by decide) _ rest hlen
  have e2 := getHdr_short 2 0#32 0x02#8 (by decide) (by decide) cr (0x02#8 :: BitVec.ofNat 8 cs.length :: cs ++ rest) lr
  have e3 := getHdr_short 2 0#32 0x02#8 (by decide) (by decide) cs rest ls
  have t1 : (BitVec.ofNat 64 cr.length).toNat = cr.length := by rw [BitVec.toNat_ofNat, Nat.mod_eq_of_lt (by omega)]
  have t2 : (BitVec.ofNat 64 cs.length).toNat = cs.length := by rw [BitVec.toNat_ofNat, Nat.mod_eq_of_lt (by omega)]
  unfold decodeDss
  rw [List.cons_append, List.cons_append, e1]
  simp only
  rw [if_neg (by decide), List.append_assoc, List.cons_append, List.cons_append, e2]
  simp only
  rw [if_neg (by decide), t1, List.drop_left, List.take_left, List.cons_append, List.cons_append, e3]
  simp only
  rw [if_neg (by decide), t2, List.take_left]

end Ecc
