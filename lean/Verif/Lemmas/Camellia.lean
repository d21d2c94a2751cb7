import Verif.Model.Camellia
import Verif.Lemmas.Endian

namespace Camellia
open Endian

theorem mk_hi (a b : BitVec 32) : (((a.setWidth 64 <<< 32) ||| b.setWidth 64) >>> 32 : D).setWidth 32 = a := by
  apply BitVec.eq_of_getLsbD_eq; intro i hi
  simp [hi, show 32 + i < 64 by omega, show i < 64 by omega]

theorem mk_lo (a b : BitVec 32) : ((a.setWidth 64 <<< 32) ||| b.setWidth 64 : D).setWidth 32 = b := by
  apply BitVec.eq_of_getLsbD_eq; intro i hi
  simp [hi]

theorem mk_split (X : D) : (((X >>> 32).setWidth 32 : BitVec 32).setWidth 64 <<< 32) ||| (X.setWidth 32 : BitVec 32).setWidth 64 = X := by
  apply BitVec.eq_of_getLsbD_eq; intro i hi
  by_cases h : i < 32
  · simp [h, hi]
  · simp [h, hi, show i - 32 < 32 by omega]
    rw [show 32 + (i - 32) = i by omega]; exact BitVec.getLsbD_eq_getElem hi

theorem xor_back (a b : BitVec 32) : a ^^^ (a ^^^ b) = b := by rw [← BitVec.xor_assoc, BitVec.xor_self, BitVec.zero_xor]

theorem inv_FL (X kl : D) : invf_FL (func_FL X kl) kl = X := by
  unfold invf_FL func_FL
  simp only [mk_hi, mk_lo, xor_back]
  exact mk_split X

theorem FL_inv (X kl : D) : func_FL (invf_FL X kl) kl = X := by
  unfold invf_FL func_FL
  simp only [mk_hi, mk_lo, xor_back]
  exact mk_split X

/-- The statement undoing a statement. -/
def Op.undo : Op → Op
  | .lX k => .lX k
  | .rX k => .rX k
  | .lF k => .lF k
  | .rF k => .rF k
  | .lFL k => .lInv k
  | .rFL k => .rInv k
  | .lInv k => .lFL k
  | .rInv k => .rFL k

theorem undo_exec (o : Op) (s : D × D) : o.undo.exec (o.exec s) = s := by
  obtain ⟨l, r⟩ := s
  cases o <;> simp [Op.undo, Op.exec, BitVec.xor_assoc, inv_FL, FL_inv]

theorem run_undo (p : List Op) (s : D × D) : run (p.reverse.map Op.undo) (run p s) = s := by
  induction p generalizing s with
  | nil => rfl
  | cons o p ih =>
    unfold run at ih ⊢
    rw [List.reverse_cons, List.map_append, List.foldl_append, List.foldl_cons, ih]
    exact undo_exec o s

theorem dec_enc_block (p q : List Op) (h : q = p.reverse.map Op.undo) (inp : List Byte) (hl : inp.length = 16) : decBlock q (encBlock p inp) = inp := by
  unfold decBlock encBlock
  simp only []
  rw [(ld64_st64 _ _).1, (ld64_st64 _ _).2, h, run_undo]
  exact st64_ld64 inp hl

theorem dec_enc128 (inp : List Byte) (k : Key) (h : inp.length = 16) : decrypt128 (encrypt128 inp k) k = inp :=
  dec_enc_block _ _ rfl inp h

theorem dec_enc256 (inp : List Byte) (k : Key) (h : inp.length = 16) : decrypt256 (encrypt256 inp k) k = inp :=
  dec_enc_block _ _ rfl inp h

end Camellia
