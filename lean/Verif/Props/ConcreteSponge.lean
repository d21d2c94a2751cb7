import Verif.Props.Sponge
import Verif.Props.Keccak
import Verif.Props.K12
import Verif.Spec.Sp185

/-!
# Property C83: cSHAKE, KMAC, KMACXOF and KangarooTwelve over the modelled Keccak code

C13 and C18 are over any permutation.  Here `keccak-f-1600.c` is inside and the right-hand side is SP 800-185 over FIPS 202 on bits.
-/
namespace Props
open Sponge
open Spec (spongeStream prefixOf)
open Spec.Sp185

abbrev F := Keccak.f1600

/-- The state of KMAC after its initialisation, when no exact fit occurs. -/
theorem kmac_ctx (perm : List (BitVec 8) → List (BitVec 8)) (rate : Nat) (K S : List (BitVec 8)) (hr0 : 0 < rate) (hr : rate < 200)
    (hK : K.length < 2 ^ 61) (hS : S.length < 2 ^ 61)
    (hfit1 : NoFit rate (Spec.encodeString [0x4B, 0x4D, 0x41, 0x43] ++ Spec.encodeString S)) (hfit2 : NoFit rate (Spec.encodeString K)) :
    ∃ W, kmacInit perm K S rate = some (update perm (init rate 0x04 0x80 200) W) ∧
      ∀ X L, Spec.kmacMsg rate K S X L = W ++ (X ++ Spec.rightEncode L) := by
  obtain ⟨k1, p1, q1, e1⟩ := zeroPad_pos hr0 hfit1
  obtain ⟨k2, p2, q2, e2⟩ := zeroPad_pos hr0 hfit2
  let s0 : Ctx := init rate 0x04 0x80 200
  let P1 := csPrefix rate kmacName S ++ List.replicate k1 (0 : BitVec 8)
  let P2 := Spec.leftEncode rate ++ Spec.encodeString K
  have hd1 : rate ∣ P1.length := by
    have := dvd_padded hr0 (csPrefix rate kmacName S) rfl
    rw [show csPrefix rate kmacName S = Spec.leftEncode rate ++
      (Spec.encodeString [0x4B, 0x4D, 0x41, 0x43] ++ Spec.encodeString S) from rfl, e1] at this
    exact this
  refine ⟨P1 ++ P2 ++ List.replicate k2 0, ?_, ?_⟩
  · unfold kmacInit
    rw [if_neg (by omega)]
    simp only
    rw [customize_eq perm (init rate 0x0f 0x80 200) kmacName S hr0 (show rate < 2 ^ 64 by omega) (by decide) hS
      (by simp [kmacName]) k1 p1 q1]
    rw [leftEncode_eq, encodeString_eq perm _ K hK, update_append, update_append]
    have er : (BitVec.ofNat 64 rate).toNat = rate := by
      rw [BitVec.toNat_ofNat]; exact Nat.mod_eq_of_lt (by omega)
    rw [er]
    have hq : k2 + (P1 ++ P2).length % rate = rate := by
      obtain ⟨c, hc⟩ := hd1
      rw [List.length_append, hc, Nat.mul_add_mod]; exact q2
    rw [← updateNull_eq perm s0 (P1 ++ P2) k2 hr0 rfl p2 hq]
    simp only [P1, P2, List.append_assoc]
    rfl
  · intro X L
    unfold Spec.kmacMsg Spec.cshakeMsg Spec.bytepad
    rw [List.append_assoc (Spec.leftEncode rate), e1, e2]
    simp only [P1, P2, csPrefix, kmacName, List.append_assoc]

/-- C13: KMACXOF: after `KMAC_XofFinal` any sequence of `KMAC_XofRead` calls yields the consecutive pieces of the KMACXOF stream. -/
theorem C13_kmacxof_partial (perm : List (BitVec 8) → List (BitVec 8)) (rate : Nat) (K S : List (BitVec 8))
    (ms : List (List (BitVec 8))) (ns : List Nat) (hr0 : 0 < rate) (hr : rate < 200)
    (hK : K.length < 2 ^ 61) (hS : S.length < 2 ^ 61)
    (hfit1 : NoFit rate (Spec.encodeString [0x4B, 0x4D, 0x41, 0x43] ++ Spec.encodeString S)) (hfit2 : NoFit rate (Spec.encodeString K)) :
    ∃ x, kmacInit perm K S rate = some x ∧
      xofRun perm (kmacXofFinal perm (ms.foldl (update perm) x)) (ns.map .read) =
        streamRun (spongeStream perm rate 200 0x04 0x80 (Spec.kmacMsg rate K S ms.flatten 0)) 0 (ns.map .read) := by
  obtain ⟨W, hx, hm⟩ := kmac_ctx perm rate K S hr0 hr hK hS hfit1 hfit2
  refine ⟨_, hx, ?_⟩
  rw [updates_flatten, update_append]
  let s0 : Ctx := init rate 0x04 0x80 200
  have hf : (update perm s0 (W ++ ms.flatten)).finalized = false := by
    rw [update_fresh perm s0 _ (by exact hr0) rfl]; rfl
  let st := Spec.absorb perm rate (List.replicate 200 0) (W ++ ms.flatten ++ Spec.rightEncode 0 ++
    Spec.spongePad rate 0x04 0x80 ((W ++ ms.flatten ++ Spec.rightEncode 0).length % rate))
  have hfin : ∃ z, kmacXofFinal perm (update perm s0 (W ++ ms.flatten)) =
      { s0 with state := st, filled := 0, finalized := true, saved := z } := by
    unfold kmacXofFinal
    simp only [hf, Bool.false_eq_true, if_false]
    rw [rightEncode_eq]
    have hsave : ∀ (w : List (BitVec 8)) (y : Ctx) (z : List (BitVec 8)), update perm { y with saved := z } w = { update perm y w with saved := z } := by
      intro w
      induction w with
      | nil => intros; rfl
      | cons b w ih =>
        intro y z
        show update perm (absorbByte perm _ b) w = _
        have : absorbByte perm { y with saved := z } b = { absorbByte perm y b with saved := z } := by
          unfold absorbByte; simp only; split <;> rfl
        rw [this, ih]; rfl
    have hfi : ∀ (y : Ctx) (z : List (BitVec 8)), final perm { y with saved := z } = { final perm y with saved := z } := by
      intro y z; unfold final; simp only; split <;> rfl
    unfold save
    rw [hsave, update_append, hfi, final_fresh perm s0 _ (by exact hr0) rfl rfl]
    exact ⟨_, rfl⟩
  obtain ⟨z, hz⟩ := hfin
  show xofRun perm (kmacXofFinal perm (update perm s0 (W ++ ms.flatten))) _ = _
  rw [hz]
  have hstr : spongeStream perm rate 200 0x04 0x80 (Spec.kmacMsg rate K S ms.flatten 0) = Spec.squeezeByte perm rate st := by
    rw [hm, ← List.append_assoc]
    rfl
  rw [hstr]
  have run : ∀ (ns : List Nat) (pos : Nat) (y : Ctx), y.rate = rate → y.state = perm^[pos / rate] st → y.filled = pos % rate →
      xofRun perm y (ns.map .read) = streamRun (Spec.squeezeByte perm rate st) pos (ns.map .read) := by
    intro ns
    induction ns with
    | nil => intros; rfl
    | cons n ns ih =>
      intro pos y h1 h2 h3
      subst h1
      have e := read_spec perm n y st pos hr0 h2 h3
      simp only [List.map_cons, xofRun, streamRun]
      rw [e]
      exact congrArg _ (ih _ _ rfl rfl rfl)
  exact run ns 0 _ rfl (by simp) (by simp)

/-! ### cSHAKE -/

theorem cshake_bits (rate : Nat) (hr0 : 0 < rate) (hr : rate ≤ 200) (N S X : List (BitVec 8)) (n : Nat) :
    Spec.Keccak.bits (prefixOf (spongeStream F rate 200 0x04 0x80 (Spec.cshakeMsg rate N S X)) n) =
      Spec.Keccak.keccak (1600 - 8 * rate)
        (Spec.Keccak.bits (Spec.bytepad (Spec.encodeString N ++ Spec.encodeString S) rate) ++ Spec.Keccak.bits X ++ [false, false]) (8 * n) := by
  rw [Keccak.bits_stream Keccak.f1600_perm rate hr0 hr 0x04 _ Keccak.dom_04]
  unfold Spec.Keccak.keccak Spec.cshakeMsg
  rw [Keccak.bits_append, show 1600 - (1600 - 8 * rate) = 8 * rate by omega]

theorem cshake_run (rate : Nat) (hr0 : 0 < rate) (hr : rate ≤ 200) (x : Ctx) (hx : x.rate = rate) (N S : List (BitVec 8)) (ms : List (List (BitVec 8)))
    (ops : List XofOp) (hN : N.length < 2 ^ 61) (hS : S.length < 2 ^ 61) (hne : ¬ (N = [] ∧ S = []))
    (hfit : NoFit rate (Spec.encodeString N ++ Spec.encodeString S)) :
    xofRun F (shakeFinal F (ms.foldl (update F) (customize F x N S))) ops =
      streamRun (spongeStream F rate 200 0x04 0x80 (Spec.cshakeMsg rate N S ms.flatten)) 0 ops := by
  subst hx
  obtain ⟨k, hk, hk2, hk3⟩ := zeroPad_pos hr0 hfit
  have h := sponge_stream F (init x.rate 0x04 0x80 200) hr0 rfl rfl ((csPrefix x.rate N S ++ List.replicate k 0) :: ms) ops
  rw [List.foldl_cons] at h
  rw [customize_eq F x N S hr0 (by omega) hN hS hne k hk hk2, h]
  unfold spongeStream Spec.cshakeMsg Spec.bytepad
  have : csPrefix x.rate N S = Spec.leftEncode x.rate ++ (Spec.encodeString N ++ Spec.encodeString S) := rfl
  rw [hk3, ← this]
  rfl

/-- C83: cSHAKE128 (`SHAKE128_Init`, then `SHAKE_Xctrl(.., SHAKE_cSHAKE_customize, ..)`): any pieces of the message, any reads and rewinds:
the outputs are cut from one stream whose every prefix is the SP 800-185 value.  Partial: not when the padded prefix is an exact fit. -/
theorem C83_cshake128_partial (N S : List (BitVec 8)) (hN : N.length < 2 ^ 61) (hS : S.length < 2 ^ 61) (ms : List (List (BitVec 8)))
    (hfit : N = [] ∧ S = [] ∨ NoFit 168 (Spec.encodeString N ++ Spec.encodeString S)) :
    ∃ Z : Nat → BitVec 8, (∀ n, Spec.Keccak.bits (prefixOf Z n) = cshake128 (Spec.Keccak.bits ms.flatten) (8 * n) N S) ∧
      ∀ ops, xofRun F (shakeFinal F (ms.foldl (update F) (customize F (shakeInit 168) N S))) ops = streamRun Z 0 ops := by
  by_cases he : N = [] ∧ S = []
  · obtain ⟨rfl, rfl⟩ := he
    refine ⟨spongeStream F 168 200 0x1f 0x80 ms.flatten, fun n => ?_, fun ops => ?_⟩
    · rw [Keccak.bits_stream Keccak.f1600_perm 168 (by decide) (by decide) 0x1f _ Keccak.dom_1f]
      rfl
    · rw [C13_cshake_empty]
      exact C12_stream F 168 (by decide) ms ops
  · have hf := hfit.resolve_left he
    refine ⟨_, fun n => ?_, fun ops => cshake_run 168 (by decide) (by decide) _ rfl N S ms ops hN hS he hf⟩
    rw [cshake_bits 168 (by decide) (by decide)]
    unfold cshake128
    rw [if_neg he]
theorem C83_cshake256_partial (N S : List (BitVec 8)) (hN : N.length < 2 ^ 61) (hS : S.length < 2 ^ 61) (ms : List (List (BitVec 8)))
    (hfit : N = [] ∧ S = [] ∨ NoFit 136 (Spec.encodeString N ++ Spec.encodeString S)) :
    ∃ Z : Nat → BitVec 8, (∀ n, Spec.Keccak.bits (prefixOf Z n) = cshake256 (Spec.Keccak.bits ms.flatten) (8 * n) N S) ∧
      ∀ ops, xofRun F (shakeFinal F (ms.foldl (update F) (customize F (shakeInit 136) N S))) ops = streamRun Z 0 ops := by
  by_cases he : N = [] ∧ S = []
  · obtain ⟨rfl, rfl⟩ := he
    refine ⟨spongeStream F 136 200 0x1f 0x80 ms.flatten, fun n => ?_, fun ops => ?_⟩
    · rw [Keccak.bits_stream Keccak.f1600_perm 136 (by decide) (by decide) 0x1f _ Keccak.dom_1f]
      rfl
    · rw [C13_cshake_empty]
      exact C12_stream F 136 (by decide) ms ops
  · have hf := hfit.resolve_left he
    refine ⟨_, fun n => ?_, fun ops => cshake_run 136 (by decide) (by decide) _ rfl N S ms ops hN hS he hf⟩
    rw [cshake_bits 136 (by decide) (by decide)]
    unfold cshake256
    rw [if_neg he]

/-! ### KMAC -/

theorem kmac_bits (rate : Nat) (hr0 : 0 < rate) (hr : rate ≤ 200) (K S X : List (BitVec 8)) (L n : Nat) :
    Spec.Keccak.bits (prefixOf (spongeStream F rate 200 0x04 0x80 (Spec.kmacMsg rate K S X L)) n) =
      Spec.Keccak.keccak (1600 - 8 * rate) (Spec.Keccak.bits (Spec.bytepad (Spec.encodeString name ++ Spec.encodeString S) rate) ++
        (Spec.Keccak.bits (Spec.bytepad (Spec.encodeString K) rate) ++ Spec.Keccak.bits X ++ Spec.Keccak.bits (Spec.rightEncode L)) ++ [false, false])
        (8 * n) := by
  unfold Spec.kmacMsg
  rw [cshake_bits rate hr0 hr, Keccak.bits_append, Keccak.bits_append]
  rfl

section
variable (K S : List (BitVec 8)) (hK : K.length < 2 ^ 61) (hS : S.length < 2 ^ 61) (ms : List (List (BitVec 8)))
include hK hS

/-- C83: KMAC128, KMAC256 (with or without a customisation string): the tag of `t` octets is the SP 800-185 value. -/
theorem C83_kmac128_partial (t : Nat) (ht : t < 2 ^ 61) (h1 : NoFit 168 (Spec.encodeString name ++ Spec.encodeString S))
    (h2 : NoFit 168 (Spec.encodeString K)) :
    ∃ x, kmacInit F K S 168 = some x ∧
      Spec.Keccak.bits (kmacFinal F (ms.foldl (update F) x) t).1 = kmac128 K (Spec.Keccak.bits ms.flatten) (8 * t) S := by
  obtain ⟨x, hx, h⟩ := C13_kmac_partial F 168 K S ms t (by decide) (by decide) hK hS ht h1 h2
  refine ⟨x, hx, ?_⟩
  rw [h, kmac_bits 168 (by decide) (by decide)]
  unfold kmac128 cshake128
  rw [if_neg (fun e => absurd e.1 (by decide))]
theorem C83_kmac256_partial (t : Nat) (ht : t < 2 ^ 61) (h1 : NoFit 136 (Spec.encodeString name ++ Spec.encodeString S))
    (h2 : NoFit 136 (Spec.encodeString K)) :
    ∃ x, kmacInit F K S 136 = some x ∧
      Spec.Keccak.bits (kmacFinal F (ms.foldl (update F) x) t).1 = kmac256 K (Spec.Keccak.bits ms.flatten) (8 * t) S := by
  obtain ⟨x, hx, h⟩ := C13_kmac_partial F 136 K S ms t (by decide) (by decide) hK hS ht h1 h2
  refine ⟨x, hx, ?_⟩
  rw [h, kmac_bits 136 (by decide) (by decide)]
  unfold kmac256 cshake256
  rw [if_neg (fun e => absurd e.1 (by decide))]

/-- C83: KMACXOF128, KMACXOF256, any sequence of reads. -/
theorem C83_kmacxof128_partial (h1 : NoFit 168 (Spec.encodeString name ++ Spec.encodeString S)) (h2 : NoFit 168 (Spec.encodeString K)) :
    ∃ (x : Ctx) (Z : Nat → BitVec 8), kmacInit F K S 168 = some x ∧
      (∀ n, Spec.Keccak.bits (prefixOf Z n) = kmacxof128 K (Spec.Keccak.bits ms.flatten) (8 * n) S) ∧
      ∀ ns : List Nat, xofRun F (kmacXofFinal F (ms.foldl (update F) x)) (ns.map .read) = streamRun Z 0 (ns.map .read) := by
  have h := fun ns => C13_kmacxof_partial F 168 K S ms ns (by decide) (by decide) hK hS h1 h2
  obtain ⟨x, hx, _⟩ := h []
  refine ⟨x, spongeStream F 168 200 0x04 0x80 (Spec.kmacMsg 168 K S ms.flatten 0), hx, fun n => ?_, fun ns => ?_⟩
  rotate_left
  · obtain ⟨y, hy, e⟩ := h ns
    rw [hx] at hy
    obtain rfl := Option.some.inj hy
    exact e
  · rw [kmac_bits 168 (by decide) (by decide)]
    unfold kmacxof128 cshake128
    rw [if_neg (fun e => absurd e.1 (by decide))]
theorem C83_kmacxof256_partial (h1 : NoFit 136 (Spec.encodeString name ++ Spec.encodeString S)) (h2 : NoFit 136 (Spec.encodeString K)) :
    ∃ (x : Ctx) (Z : Nat → BitVec 8), kmacInit F K S 136 = some x ∧
      (∀ n, Spec.Keccak.bits (prefixOf Z n) = kmacxof256 K (Spec.Keccak.bits ms.flatten) (8 * n) S) ∧
      ∀ ns : List Nat, xofRun F (kmacXofFinal F (ms.foldl (update F) x)) (ns.map .read) = streamRun Z 0 (ns.map .read) := by
  have h := fun ns => C13_kmacxof_partial F 136 K S ms ns (by decide) (by decide) hK hS h1 h2
  obtain ⟨x, hx, _⟩ := h []
  refine ⟨x, spongeStream F 136 200 0x04 0x80 (Spec.kmacMsg 136 K S ms.flatten 0), hx, fun n => ?_, fun ns => ?_⟩
  rotate_left
  · obtain ⟨y, hy, e⟩ := h ns
    rw [hx] at hy
    obtain rfl := Option.some.inj hy
    exact e
  · rw [kmac_bits 136 (by decide) (by decide)]
    unfold kmacxof256 cshake256
    rw [if_neg (fun e => absurd e.1 (by decide))]
end

/-- The exact-fit condition is met by all keys of 32 octets without a customisation string, and fails for a key of 163 octets. -/
example : NoFit 168 (Spec.encodeString name ++ Spec.encodeString []) ∧ NoFit 168 (Spec.encodeString (List.replicate 32 7)) ∧
    ¬ NoFit 168 (Spec.encodeString (List.replicate 163 7)) := by
  unfold NoFit
  decide +kernel

/-- C83: at an exact fit the code computes cSHAKE128 of another message, the given one with 168 zero octets in front of it. -/
theorem C83_cshake128_exact_fit (N S : List (BitVec 8)) (hN : N.length < 2 ^ 61) (hS : S.length < 2 ^ 61) (hne : ¬ (N = [] ∧ S = []))
    (ms : List (List (BitVec 8))) (n : Nat) (hfit : ¬ NoFit 168 (Spec.encodeString N ++ Spec.encodeString S)) :
    Spec.Keccak.bits (read F (shakeFinal F (ms.foldl (update F) (customize F (shakeInit 168) N S))) n).1 =
      cshake128 (Spec.Keccak.bits (List.replicate 168 0 ++ ms.flatten)) (8 * n) N S := by
  have h := C13_cshake_exact_fit F (shakeInit 168) N S ms n (by decide) (by decide) hN hS hne (not_not.mp hfit)
  rw [List.append_assoc] at h
  rw [h, show (shakeInit 168).rate = 168 from rfl]
  unfold cshake128
  rw [if_neg hne]
  exact cshake_bits 168 (by decide) (by decide) N S (List.replicate 168 0 ++ ms.flatten) n
theorem C83_cshake256_exact_fit (N S : List (BitVec 8)) (hN : N.length < 2 ^ 61) (hS : S.length < 2 ^ 61) (hne : ¬ (N = [] ∧ S = []))
    (ms : List (List (BitVec 8))) (n : Nat) (hfit : ¬ NoFit 136 (Spec.encodeString N ++ Spec.encodeString S)) :
    Spec.Keccak.bits (read F (shakeFinal F (ms.foldl (update F) (customize F (shakeInit 136) N S))) n).1 =
      cshake256 (Spec.Keccak.bits (List.replicate 136 0 ++ ms.flatten)) (8 * n) N S := by
  have h := C13_cshake_exact_fit F (shakeInit 136) N S ms n (by decide) (by decide) hN hS hne (not_not.mp hfit)
  rw [List.append_assoc] at h
  rw [h, show (shakeInit 136).rate = 136 from rfl]
  unfold cshake256
  rw [if_neg hne]
  exact cshake_bits 136 (by decide) (by decide) N S (List.replicate 136 0 ++ ms.flatten) n

/-- An exact fit: no `N`, a customisation string of 161 octets. -/
example : ¬ NoFit 168 (Spec.encodeString [] ++ Spec.encodeString (List.replicate 161 0)) := by
  unfold NoFit
  decide +kernel

/-! ### KangarooTwelve -/

/-- C83: KangarooTwelve (KT128), KT256 and MarsupilamiFourteen: there is an octet permutation which is Keccak-p[1600, 12] (14) on bits, and the
outputs are those of RFC 9861 over it. -/
theorem C83_k12_partial (rounds rate : Nat) (hv : (rounds, rate) = (12, 168) ∨ (rounds, rate) = (12, 136) ∨ (rounds, rate) = (14, 136))
    (sched : K12.Ctx → List Nat → List Nat) (hs : ∀ x l, (sched x l).Perm l) (ms cs : List (List (BitVec 8))) (ops : List K12Op)
    (hC : cs.flatten.length < 2 ^ 24)
    (hS : (Spec.K12.chunks 8192 (ms.flatten ++ cs.flatten ++ Spec.K12.lengthEncode cs.flatten.length)).length ≤ 2 ^ 24) :
    ∃ perm : List (BitVec 8) → List (BitVec 8),
      (∀ b, b.length = 200 → (perm b).length = 200 ∧ Spec.Keccak.bits (perm b) = Spec.Keccak.keccakP rounds (Spec.Keccak.bits b)) ∧
      (K12.final2 (Keccak.permute rounds) sched (cs.foldl (K12.feedC (Keccak.permute rounds) sched)
          (ms.foldl (K12.update4 (Keccak.permute rounds) sched) (K12.init rate)))).bind (k12Run (Keccak.permute rounds) sched · ops) =
        some (k12Cursor (Spec.K12.stream perm rate ms.flatten cs.flatten) 0 ops) := by
  have hr : rounds ≤ 24 := by rcases hv with h | h | h <;> (obtain ⟨rfl, rfl⟩ := Prod.mk.inj h; decide)
  have hr2 : 0 < rate := by rcases hv with h | h | h <;> (obtain ⟨rfl, rfl⟩ := Prod.mk.inj h; decide)
  exact ⟨Keccak.permute rounds, fun b hb => C69_permutation rounds hr b hb,
    C18_tree_partial _ (fun s h => (C69_permutation rounds hr s h).1) rate hr2 sched hs ms cs ops hC hS⟩

example : Keccak.p1600nr12 = Keccak.permute 12 ∧ Keccak.p1600nr14 = Keccak.permute 14 := ⟨rfl, rfl⟩

end Props
