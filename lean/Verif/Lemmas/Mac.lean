import Verif.Model.Mac
import Verif.Spec.Mac
import Verif.Lemmas.Blocks
import Mathlib.Tactic.Ring
import Mathlib.Tactic.Set

namespace Mac
open Spec (fitTo hmac)

/-- What HMAC needs of a hash: for any history of updates (of less than `N` bytes) and any number of
finalisations the digest is `H` of the concatenation.  `ok` is what the context memory must satisfy. -/
structure HashLaw {σ : Type} (O : HashOps σ) (H : List Byte → List Byte) (N : Nat) (ok : σ → Prop) : Prop where
  len : ∀ m, (H m).length = O.L
  okI : ∀ s, ok s → ok (O.hInit s)
  okU : ∀ s d, ok s → ok (O.hUpdate s d)
  okF : ∀ s t, ok s → ok (O.hFinal s t).2
  digest : ∀ s, ok s → ∀ ms : List (List Byte), ms.flatten.length < N → ∀ (ts : List Nat) (t : Nat),
    (O.hFinal (ts.foldl (fun s u => (O.hFinal s u).2) (ms.foldl O.hUpdate (O.hInit s))) t).1 = fitTo (H ms.flatten) t

theorem fitTo_self (d : List Byte) : fitTo d d.length = d := by
  unfold fitTo
  apply List.ext_getElem
  · simp
  · intro i h1 h2
    simp at h1
    simp [List.getElem?_eq_getElem h1]

theorem xorPad_take (K0 : List Byte) (n : Nat) (pad : Byte) : (xorPad K0 n pad).take n = (K0.take n).map (· ^^^ pad) := by
  apply List.ext_getElem
  · simp [xorPad]
  · intro i h1 h2
    simp [xorPad] at h1
    simp [xorPad, h1.1]

theorem xorPad_twice (K0 : List Byte) (n : Nat) (pad : Byte) : xorPad (xorPad K0 n pad) n pad = K0 := by
  apply List.ext_getElem
  · simp [xorPad]
  · intro i h1 h2
    simp only [xorPad, List.getElem_mapIdx]
    by_cases c : i < n
    · simp only [if_pos c]; rw [BitVec.xor_assoc, BitVec.xor_self, BitVec.xor_zero]
    · simp only [if_neg c]

variable {σ : Type} {O : HashOps σ} {H : List Byte → List Byte} {N : Nat} {ok : σ → Prop}

theorem hmacUpdates (ms : List (List Byte)) : ∀ h : Hmac σ,
    ms.foldl (hmacUpdate O) h = { h with aux := ms.foldl O.hUpdate h.aux } := by
  induction ms with
  | nil => intro h; rfl
  | cons m ms ih => intro h; rw [List.foldl_cons, ih]; rfl

theorem ok_updates (law : HashLaw O H N ok) (ms : List (List Byte)) : ∀ s, ok s → ok (ms.foldl O.hUpdate s) := by
  induction ms with
  | nil => intro s h; exact h
  | cons m ms ih => intro s h; exact ih _ (law.okU _ _ h)

/-- The state after the first finalisation: the outer hash has been finalised once or more. -/
theorem hmac_final_state (law : HashLaw O H N ok) (hB : O.B ≤ 256) (hL : O.L ≤ 64) (hN : O.B + O.L < N)
    (h0 : Hmac σ) (hf : h0.finalized = false) (hok : ok h0.aux) (key : List Byte) (h : Hmac σ) (hk : hmacSetKey O h0 key = some h)
    (ms : List (List Byte)) (hlen : O.B + ms.flatten.length < N) :
    ∀ (ts : List Nat) (t : Nat),
      (hmacFinal O (ts.foldl (fun s u => (hmacFinal O s u).2) (ms.foldl (hmacUpdate O) h)) t).1 =
        fitTo (hmac H O.B key ms.flatten) t := by
  unfold hmacSetKey at hk
  split at hk
  swap
  · exact absurd hk (by simp)
  rename_i hkl
  simp only [xorPad_twice] at hk
  obtain rfl := Option.some.inj hk
  set K0 := key ++ (List.replicate 256 (0 : Byte)).drop key.length with hK0
  have hK0t : K0.take O.B = key ++ List.replicate (O.B - key.length) 0 := by
    rw [hK0, List.take_append, List.take_of_length_le hkl, List.drop_replicate, List.take_replicate]
    congr 2; omega
  rw [hmacUpdates]
  simp only []
  -- inner hash
  set a := (xorPad K0 O.B 0x36).take O.B with ha
  have haa : a = (key ++ List.replicate (O.B - key.length) 0).map (· ^^^ 0x36) := by rw [ha, xorPad_take, hK0t]
  set aux1 := ms.foldl O.hUpdate (O.hUpdate (O.hInit h0.aux) a) with haux1
  have haux1' : aux1 = (a :: ms).foldl O.hUpdate (O.hInit h0.aux) := rfl
  have hal : a.length = O.B := by rw [haa]; simp; omega
  have hin : ∀ t, (O.hFinal aux1 t).1 = fitTo (H (a ++ ms.flatten)) t := by
    intro t
    have := law.digest h0.aux hok (a :: ms) (by rw [List.flatten_cons, List.length_append, hal]; exact hlen) [] t
    rw [List.flatten_cons] at this
    exact this
  have hok1 : ok aux1 := ok_updates law ms _ (law.okU _ _ (law.okI _ hok))
  -- outer hash
  set b := (xorPad K0 O.B 0x5c).take O.B with hb
  have hbb : b = (key ++ List.replicate (O.B - key.length) 0).map (· ^^^ 0x5c) := by rw [hb, xorPad_take, hK0t]
  have hbl : b.length = O.B := by rw [hbb]; simp; omega
  have htag : ((O.hFinal aux1 O.L).1 ++ (List.replicate 64 (0 : Byte)).drop O.L).take O.L = H (a ++ ms.flatten) := by
    rw [hin, List.take_append_of_le_length (by simp [fitTo])]
    have := fitTo_self (H (a ++ ms.flatten))
    rw [law.len] at this
    rw [this, List.take_of_length_le (by rw [law.len])]
  set tagm := (O.hFinal aux1 O.L).1 ++ (List.replicate 64 (0 : Byte)).drop O.L with htm
  set aux2 := O.hUpdate (O.hUpdate (O.hInit (O.hFinal aux1 O.L).2) b) (tagm.take O.L) with haux2
  have haux2' : aux2 = [b, tagm.take O.L].foldl O.hUpdate (O.hInit (O.hFinal aux1 O.L).2) := rfl
  have hval : ∀ (ts : List Nat) (t : Nat), (O.hFinal (ts.foldl (fun s u => (O.hFinal s u).2) aux2) t).1 =
      fitTo (hmac H O.B key ms.flatten) t := by
    intro ts t
    rw [haux2', law.digest _ (law.okF _ _ hok1) [b, tagm.take O.L]
      (by rw [htag]; simp [law.len, hbl]; omega) ts t, htag]
    unfold hmac
    simp only [List.flatten_cons, List.flatten_nil, List.append_nil]
    rw [haa, hbb]
  -- the loop of further finalisations
  have step : ∀ (ts : List Nat) (s : Hmac σ) (us : List Nat), s.finalized = true → s.aux = us.foldl (fun s u => (O.hFinal s u).2) aux2 →
      ∃ us' : List Nat, (ts.foldl (fun s u => (hmacFinal O s u).2) s).finalized = true ∧
        (ts.foldl (fun s u => (hmacFinal O s u).2) s).aux = us'.foldl (fun s u => (O.hFinal s u).2) aux2 := by
    intro ts
    induction ts with
    | nil => intro s us h1 h2; exact ⟨us, h1, h2⟩
    | cons u ts ih =>
      intro s us h1 h2
      rw [List.foldl_cons]
      apply ih _ (us ++ [u])
      · unfold hmacFinal; simp only [h1, if_true]
      · unfold hmacFinal; simp only [h1, if_true]
        rw [List.foldl_append, ← h2]; rfl
  have fin1 : ∀ (s : Hmac σ) (us : List Nat) (t : Nat), s.finalized = true → s.aux = us.foldl (fun s u => (O.hFinal s u).2) aux2 →
      (hmacFinal O s t).1 = fitTo (hmac H O.B key ms.flatten) t := by
    intro s us t h1 h2
    unfold hmacFinal; simp only [h1, if_true]
    rw [h2, hval]
  set h1 : Hmac σ := { h0 with K0 := K0, tag := List.replicate 64 0, aux := aux1 } with hh1
  have efin : ∀ t, (hmacFinal O h1 t).1 = (O.hFinal ([0].foldl (fun s u => (O.hFinal s u).2) aux2) t).1 ∧
      (hmacFinal O h1 t).2.finalized = true ∧
      (hmacFinal O h1 t).2.aux = [0, t].foldl (fun s u => (O.hFinal s u).2) aux2 := by
    intro t
    have hf1 : h1.finalized = false := hf
    unfold hmacFinal
    simp only [hf1, Bool.false_eq_true, if_false]
    exact ⟨rfl, trivial, rfl⟩
  intro ts t
  cases ts with
  | nil => rw [List.foldl_nil, (efin t).1, hval]
  | cons u ts =>
    rw [List.foldl_cons]
    obtain ⟨us', g1, g2⟩ := step ts _ [0, u] (efin u).2.1 (efin u).2.2
    exact fin1 _ us' t g1 g2

/-- Re-keying a context that has been finalised: the outer hash is left out. -/
theorem hmac_rekey (law : HashLaw O H N ok) (hB : O.B ≤ 256)
    (h0 : Hmac σ) (hf : h0.finalized = true) (hok : ok h0.aux) (key : List Byte) (h : Hmac σ) (hk : hmacSetKey O h0 key = some h)
    (ms : List (List Byte)) (hlen : O.B + ms.flatten.length < N) (t : Nat) :
    (hmacFinal O (ms.foldl (hmacUpdate O) h) t).1 =
      fitTo (H ((key ++ List.replicate (O.B - key.length) 0).map (· ^^^ 0x36) ++ ms.flatten)) t := by
  unfold hmacSetKey at hk
  split at hk
  swap
  · exact absurd hk (by simp)
  rename_i hkl
  simp only [xorPad_twice] at hk
  obtain rfl := Option.some.inj hk
  rw [hmacUpdates]
  unfold hmacFinal
  simp only [hf, if_true]
  have hK0t : (key ++ (List.replicate 256 (0 : Byte)).drop key.length).take O.B = key ++ List.replicate (O.B - key.length) 0 := by
    rw [List.take_append, List.take_of_length_le hkl, List.drop_replicate, List.take_replicate]
    congr 2; omega
  rw [xorPad_take, hK0t]
  have := law.digest h0.aux hok ((key ++ List.replicate (O.B - key.length) 0).map (· ^^^ 0x36) :: ms)
    (by rw [List.flatten_cons, List.length_append, List.length_map, List.length_append, List.length_replicate]; omega) [] t
  rw [List.flatten_cons] at this
  exact this

end Mac
