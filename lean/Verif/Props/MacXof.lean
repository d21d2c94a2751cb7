import Verif.Model.MacXof
import Verif.Props.Dispatch
import Verif.Props.AeadObj
import Verif.Props.ConcreteSponge
import Verif.Props.CrewExec
import Verif.Props.Gimli

/-!
# C92: KMAC, cSHAKE, CMAC, Gimli, BLAKE3 and KangarooTwelve through their objects
-/
namespace Props
open Spec (spongeStream prefixOf fitTo)
open Spec.Sp185
open Dispatch (IObj Byte)
open MacXof (XObj XCtx iKMAC iSHAKEx iGimli_XOF iCMAC_AES tCMAC iBLAKE3 iKT128 iKT256 iMarsupilamiFourteen)

/-- How a caller makes a context ready: `INIT_FUNC`; `KINIT_FUNC` with a key; `XCTRL_FUNC` on memory never initialised; `INIT_FUNC`, then `XCTRL_FUNC`. -/
inductive XStart | plain | key (k : List Byte) | control (cmd : Int) (bv : List (List Byte)) | plainControl (cmd : Int) (bv : List (List Byte))

/-- These calls; the inner `none` is the null pointer returned by the last of them. -/
def xReady (o : XObj) (mem : XCtx) : XStart → Option (Option XCtx)
  | .plain => (o.fn .initFunc).bind fun f => (MacXof.callInit f mem).map some
  | .key k => (o.fn .kInitFunc).bind fun f => MacXof.callKInit f o.param mem k
  | .control cmd bv => (o.fn .xctrlFunc).bind fun f => MacXof.callXctrl f mem cmd bv
  | .plainControl cmd bv => (o.fn .initFunc).bind fun f => (MacXof.callInit f mem).bind fun x => (o.fn .xctrlFunc).bind fun g => MacXof.callXctrl g x cmd bv

/-- `UPDATE_FUNC` for every piece. -/
def xUpdates (o : XObj) (x : XCtx) (ms : List (List Byte)) : Option XCtx := (o.fn .updateFunc).bind fun u => ms.foldlM (fun x m => MacXof.callUpdate u x m) x

/-- `READ_FUNC`, and `XOF_FINAL_FUNC` again for `rewind`. -/
def xRun (o : XObj) : XCtx → List XofOp → Option (List (List Byte))
  | _, [] => some []
  | x, .read n :: ops => (o.fn .readFunc).bind fun f => (MacXof.callFinal f x n).bind fun r => (xRun o r.2 ops).map (r.1 :: ·)
  | x, .rewind :: ops => (o.fn .xofFinalFunc).bind fun f => (MacXof.callXFinal f x).bind fun y => xRun o y ops

/-- A MAC by way of the object, on memory with the contents `mem`: the outer `none` is undefined behaviour, the inner one a null pointer. -/
def xMac (o : XObj) (mem : XCtx) (st : XStart) (ms : List (List Byte)) (t : Nat) : Option (Option (List Byte)) :=
  match xReady o mem st with
  | none => none
  | some none => some none
  | some (some x) => (xUpdates o x ms).bind fun x => (o.fn .finalFunc).bind fun f => (MacXof.callFinal f x t).map fun r => some r.1

/-- An extendable-output function by way of the object. -/
def xXof (o : XObj) (mem : XCtx) (st : XStart) (ms : List (List Byte)) (ops : List XofOp) : Option (Option (List (List Byte))) :=
  match xReady o mem st with
  | none => none
  | some none => some none
  | some (some x) => (xUpdates o x ms).bind fun x => (o.fn .xofFinalFunc).bind fun f => (MacXof.callXFinal f x).bind fun y => (xRun o y ops).map some

/-! ## KMAC and cSHAKE -/

theorem kmac_updates (b : Nat) (ms : List (List Byte)) : ∀ c, xUpdates (iKMAC b) (.keccak c) ms = some (.keccak (ms.foldl (Sponge.update F) c)) := by
  induction ms with
  | nil => intro c; rfl
  | cons m ms ih => intro c; exact ih _
theorem shake_updates (b : Nat) (ms : List (List Byte)) : ∀ c, xUpdates (iSHAKEx b) (.keccak c) ms = some (.keccak (ms.foldl (Sponge.update F) c)) := by
  induction ms with
  | nil => intro c; rfl
  | cons m ms ih => intro c; exact ih _
theorem gimli_updates (ms : List (List Byte)) : ∀ c, xUpdates iGimli_XOF (.gimli c) ms = some (.gimli (ms.foldl Gimli.xofWrite c)) := by
  induction ms with
  | nil => intro c; rfl
  | cons m ms ih => intro c; exact ih _

theorem shake_run (b : Nat) (ops : List XofOp) : ∀ c, xRun (iSHAKEx b) (.keccak c) ops = some (xofRun F c ops) := by
  induction ops with
  | nil => intro c; rfl
  | cons op ops ih =>
    intro c
    cases op with
    | read n =>
      show (xRun (iSHAKEx b) (.keccak (Sponge.read F c n).2) ops).map _ = _
      rw [ih]; rfl
    | rewind =>
      show xRun (iSHAKEx b) (.keccak (Sponge.shakeFinal F c)) ops = _
      rw [ih]; rfl
theorem gimli_run (ops : List XofOp) : ∀ c, xRun iGimli_XOF (.gimli c) ops = some (gimliRun c ops) := by
  induction ops with
  | nil => intro c; rfl
  | cons op ops ih =>
    intro c
    cases op with
    | read n =>
      show (xRun iGimli_XOF (.gimli (Gimli.xofRead c n).2) ops).map _ = _
      rw [ih]; rfl
    | rewind =>
      show xRun iGimli_XOF (.gimli (Gimli.xofFinal c)) ops = _
      rw [ih]; rfl
theorem kmac_run (b : Nat) (ns : List Nat) : ∀ c, xRun (iKMAC b) (.keccak c) (ns.map .read) = some (xofRun F c (ns.map .read)) := by
  induction ns with
  | nil => intro c; rfl
  | cons n ns ih =>
    intro c
    show (xRun (iKMAC b) (.keccak (Sponge.read F c n).2) (ns.map .read)).map _ = _
    rw [ih]; rfl

/-- The ways to key KMAC with the key `K` and the customisation string `S`: `KINIT_FUNC` for an empty `S`, or the control function with `KMAC_KInit_WithS`
and the vector of `S` and `K`. -/
inductive KmacKeyed (K S : List Byte) : XStart → Prop
  | kinit (h : S = []) : KmacKeyed K S (.key K)
  | withS : KmacKeyed K S (.control 1 [S, K])

theorem kmac_ready (b : Nat) (m : Sponge.Ctx) {K S : List Byte} {st : XStart} (hs : KmacKeyed K S st) :
    xReady (iKMAC b) (.keccak m) st = some ((Sponge.kmacInit F K S (200 - b / 8 * 2)).map .keccak) := by
  cases hs with
  | kinit h => subst h; rfl
  | withS => rfl

section
variable {K S : List Byte} {st : XStart} (hs : KmacKeyed K S st) (hK : K.length < 2 ^ 61) (hS : S.length < 2 ^ 61) (mem : Sponge.Ctx) (ms : List (List Byte))
include hs hK hS

/-- C92: KMAC through its objects, keyed in either way, on any memory: SP 800-185.  Partial as C83: not when the key or the customisation string fills the
padded block exactly. -/
theorem C92_kmac_partial (t : Nat) (ht : t < 2 ^ 61) :
    (NoFit 168 (Spec.encodeString name ++ Spec.encodeString S) → NoFit 168 (Spec.encodeString K) →
      ∃ T, xMac (iKMAC 128) (.keccak mem) st ms t = some (some T) ∧ Spec.Keccak.bits T = kmac128 K (Spec.Keccak.bits ms.flatten) (8 * t) S) ∧
    (NoFit 136 (Spec.encodeString name ++ Spec.encodeString S) → NoFit 136 (Spec.encodeString K) →
      ∃ T, xMac (iKMAC 256) (.keccak mem) st ms t = some (some T) ∧ Spec.Keccak.bits T = kmac256 K (Spec.Keccak.bits ms.flatten) (8 * t) S) := by
  have key : ∀ b x, Sponge.kmacInit F K S (200 - b / 8 * 2) = some x →
      xMac (iKMAC b) (.keccak mem) st ms t = some (some (Sponge.kmacFinal F (ms.foldl (Sponge.update F) x) t).1) := by
    intro b x hx
    unfold xMac
    rw [kmac_ready b mem hs, hx]
    simp only [Option.map_some]
    rw [kmac_updates]
    rfl
  refine ⟨fun h1 h2 => ?_, fun h1 h2 => ?_⟩
  · obtain ⟨x, hx, e⟩ := C83_kmac128_partial K S hK hS ms t ht h1 h2
    exact ⟨_, key 128 x hx, e⟩
  · obtain ⟨x, hx, e⟩ := C83_kmac256_partial K S hK hS ms t ht h1 h2
    exact ⟨_, key 256 x hx, e⟩

/-- C92: KMACXOF through the objects, for every sequence of reads. -/
theorem C92_kmacxof_partial :
    (NoFit 168 (Spec.encodeString name ++ Spec.encodeString S) → NoFit 168 (Spec.encodeString K) →
      ∃ Z : Nat → Byte, (∀ n, Spec.Keccak.bits (prefixOf Z n) = kmacxof128 K (Spec.Keccak.bits ms.flatten) (8 * n) S) ∧
        ∀ ns : List Nat, xXof (iKMAC 128) (.keccak mem) st ms (ns.map .read) = some (some (streamRun Z 0 (ns.map .read)))) ∧
    (NoFit 136 (Spec.encodeString name ++ Spec.encodeString S) → NoFit 136 (Spec.encodeString K) →
      ∃ Z : Nat → Byte, (∀ n, Spec.Keccak.bits (prefixOf Z n) = kmacxof256 K (Spec.Keccak.bits ms.flatten) (8 * n) S) ∧
        ∀ ns : List Nat, xXof (iKMAC 256) (.keccak mem) st ms (ns.map .read) = some (some (streamRun Z 0 (ns.map .read)))) := by
  have key : ∀ b x (ns : List Nat), Sponge.kmacInit F K S (200 - b / 8 * 2) = some x →
      xXof (iKMAC b) (.keccak mem) st ms (ns.map .read) =
        some (some (xofRun F (Sponge.kmacXofFinal F (ms.foldl (Sponge.update F) x)) (ns.map .read))) := by
    intro b x ns hx
    unfold xXof
    rw [kmac_ready b mem hs, hx]
    simp only [Option.map_some]
    rw [kmac_updates]
    show (xRun (iKMAC b) _ _).map some = _
    rw [kmac_run]
    rfl
  refine ⟨fun h1 h2 => ?_, fun h1 h2 => ?_⟩
  · obtain ⟨x, Z, hx, hZ, e⟩ := C83_kmacxof128_partial K S hK hS ms h1 h2
    exact ⟨Z, hZ, fun ns => by rw [key 128 x ns hx, e]⟩
  · obtain ⟨x, Z, hx, hZ, e⟩ := C83_kmacxof256_partial K S hK hS ms h1 h2
    exact ⟨Z, hZ, fun ns => by rw [key 256 x ns hx, e]⟩
end

/-- C92: cSHAKE through the SHAKE objects: `INIT_FUNC`, the control function with `SHAKE_cSHAKE_customize` and the vector of `N` and `S`, then any pieces of
the message, any reads and rewinds. -/
theorem C92_cshake_partial (mem : Sponge.Ctx) (N S : List Byte) (hN : N.length < 2 ^ 61) (hS : S.length < 2 ^ 61) (ms : List (List Byte)) :
    (N = [] ∧ S = [] ∨ NoFit 168 (Spec.encodeString N ++ Spec.encodeString S) →
      ∃ Z : Nat → Byte, (∀ n, Spec.Keccak.bits (prefixOf Z n) = cshake128 (Spec.Keccak.bits ms.flatten) (8 * n) N S) ∧
        ∀ ops, xXof (iSHAKEx 128) (.keccak mem) (.plainControl 1 [N, S]) ms ops = some (some (streamRun Z 0 ops))) ∧
    (N = [] ∧ S = [] ∨ NoFit 136 (Spec.encodeString N ++ Spec.encodeString S) →
      ∃ Z : Nat → Byte, (∀ n, Spec.Keccak.bits (prefixOf Z n) = cshake256 (Spec.Keccak.bits ms.flatten) (8 * n) N S) ∧
        ∀ ops, xXof (iSHAKEx 256) (.keccak mem) (.plainControl 1 [N, S]) ms ops = some (some (streamRun Z 0 ops))) := by
  have key : ∀ b ops, xXof (iSHAKEx b) (.keccak mem) (.plainControl 1 [N, S]) ms ops = some (some (xofRun F (Sponge.shakeFinal F
      (ms.foldl (Sponge.update F) (Sponge.customize F (Sponge.shakeInit ((1600 - b * 2) / 8)) N S))) ops)) := by
    intro b ops
    show (xUpdates (iSHAKEx b) (.keccak (Sponge.customize F (Sponge.shakeInit ((1600 - b * 2) / 8)) N S)) ms).bind _ = _
    rw [shake_updates]
    show (xRun (iSHAKEx b) _ _).map some = _
    rw [shake_run]
    rfl
  refine ⟨fun hf => ?_, fun hf => ?_⟩
  · obtain ⟨Z, hZ, e⟩ := C83_cshake128_partial N S hN hS ms hf
    exact ⟨Z, hZ, fun ops => by rw [key 128]; exact congrArg (some ∘ some) (e ops)⟩
  · obtain ⟨Z, hZ, e⟩ := C83_cshake256_partial N S hN hS ms hf
    exact ⟨Z, hZ, fun ops => by rw [key 256]; exact congrArg (some ∘ some) (e ops)⟩

/-- C92: the control functions refuse every other command; the SHAKE objects' one refuses vectors with fewer than two entries. -/
theorem C92_control_refuses (b : Nat) (mem : Sponge.Ctx) (cmd : Int) (bv : List (List Byte)) :
    (cmd ≠ 1 → xReady (iSHAKEx b) (.keccak mem) (.plainControl cmd bv) = some none ∧ xReady (iKMAC b) (.keccak mem) (.control cmd bv) = some none) ∧
    (bv.length < 2 → xReady (iSHAKEx b) (.keccak mem) (.plainControl cmd bv) = some none) := by
  have e1 : xReady (iSHAKEx b) (.keccak mem) (.plainControl cmd bv) = MacXof.callXctrl .SHAKE_Xctrl (.keccak (Sponge.shakeInit ((1600 - b * 2) / 8))) cmd bv := rfl
  have e2 : xReady (iKMAC b) (.keccak mem) (.control cmd bv) = MacXof.callXctrl (.KMAC_Xctrl b) (.keccak mem) cmd bv := rfl
  rw [e1, e2]
  unfold MacXof.callXctrl
  refine ⟨fun h => by simp [h], fun h => by simp [h]⟩

/-- C92: the control function of KMAC does not look at the length of the vector; with fewer than two entries the call is undefined. -/
theorem C92_kmac_short_vector (b : Nat) (mem : Sponge.Ctx) (bv : List (List Byte)) (h : bv.length < 2) :
    xReady (iKMAC b) (.keccak mem) (.control 1 bv) = none := by
  show MacXof.callXctrl (.KMAC_Xctrl b) (.keccak mem) 1 bv = none
  unfold MacXof.callXctrl
  simp [h]

/-- Keys of 32 octets with a customisation string of three octets meet the conditions. -/
example (K : List Byte) (h : K.length = 32) : KmacKeyed K [1, 2, 3] (.control 1 [[1, 2, 3], K]) ∧
    NoFit 168 (Spec.encodeString name ++ Spec.encodeString [1, 2, 3]) ∧ NoFit 168 (Spec.encodeString K) := by
  refine ⟨.withS, ?_, ?_⟩
  · unfold NoFit; decide +kernel
  · unfold NoFit Spec.encodeString
    rw [h]
    simp only [List.length_append, h]
    decide +kernel

/-! ## Gimli -/

/-- C92: the Gimli XOF through its object: the outputs are the consecutive pieces of the stream of the sponge over the permutation of the Gimli paper. -/
theorem C92_gimli (mem : Sponge.Ctx) (ms : List (List Byte)) : ∃ perm : List Byte → List Byte,
    (∀ b, b.length = 48 → (perm b).length = 48 ∧ Spec.Gimli.state (perm b) = Spec.Gimli.gimli (Spec.Gimli.state b)) ∧
    ∀ ops, xXof iGimli_XOF (.gimli mem) .plain ms ops = some (some (streamRun (spongeStream perm 16 48 0x1f 0x80 ms.flatten) 0 ops)) := by
  refine ⟨Gimli.permute, C73_permutation, fun ops => ?_⟩
  rw [← C73_xof]
  show (xUpdates iGimli_XOF (.gimli Gimli.xofInit) ms).bind _ = _
  rw [gimli_updates]
  show (xRun iGimli_XOF _ _).map some = _
  rw [gimli_run]
  rfl

/-! ## CMAC -/

/-- The objects for CMAC over the block cipher `bc`. -/
inductive CmacOver : XObj → IObj → Prop
  | aes (b : Nat) : CmacOver (iCMAC_AES b) (Dispatch.iAES b)
  | param (bc : IObj) : CmacOver (tCMAC bc) bc

theorem cmac_updates {o : XObj} {bc : IObj} (ho : CmacOver o bc) (e : List Byte → List Byte) (ms : List (List Byte)) :
    ∀ c, xUpdates o (.cmac e c) ms = some (.cmac e (ms.foldl (Mac.cmacUpdate e) c)) := by
  have hf : o.fn .updateFunc = some .CMAC_Update := by cases ho <;> rfl
  unfold xUpdates
  simp only [hf, Option.bind_some]
  induction ms with
  | nil => intro c; rfl
  | cons m ms ih => intro c; exact ih _

/-- C92: CMAC through every object for it: the key length is the one announced, other lengths give a null pointer, and the tags are those of SP 800-38B over
the standard's cipher. -/
theorem C92_cmac {o : XObj} {bc : IObj} (ho : CmacOver o bc) {n : Nat} {E : List Byte → List Byte → List Byte} (hc : SuiteCipher bc n E)
    (mem : Mac.Cmac) (me : List Byte → List Byte) (key : List Byte) (ms : List (List Byte)) (t : Nat) :
    o.num .keyBytes = n ∧
    xMac o (.cmac me mem) (.key key) ms t = some (if key.length = n then some (fitTo (Spec.cmac (E key) ms.flatten) t) else none) := by
  have hkb := (C89_cipher hc).1
  have hr : xReady o (.cmac me mem) (.key key) = some (MacXof.cmacOver bc key) := by cases ho <;> rfl
  have hff : o.fn .finalFunc = some .CMAC_Final := by cases ho <;> rfl
  refine ⟨by cases ho <;> exact hkb, ?_⟩
  unfold xMac
  rw [hr]
  by_cases hk : key.length = n
  · obtain ⟨c, h1, h2⟩ := C89_cmac hc hk ms t
    have : MacXof.cmacOver bc key = some (.cmac (blockFn bc key) c) := by
      unfold MacXof.cmacOver
      exact congrArg (Option.map _) h1
    rw [this, if_pos hk]
    simp only []
    rw [cmac_updates ho, Option.bind_some, hff, Option.bind_some]
    exact congrArg (some ∘ some) h2
  · have : MacXof.cmacOver bc key = none := by
      have hb : (bc.num .keyBytes).toNat = n := by rw [hkb]; rfl
      have h : key.length ≠ ((Mac.cmacInit n).flags &&& 0x3f#8).toNat := by
        intro h
        apply hk
        rw [h]
        cases hc <;> decide
      unfold MacXof.cmacOver Mac.cmacStart
      rw [hb]
      unfold Mac.cmacSetKey
      simp only [if_pos h]
      rfl
    rw [this, if_neg hk]

/-- CMAC over SM4 by the template: a key of 16 octets is accepted, one of 15 is not. -/
example (mem : Mac.Cmac) : (xMac (tCMAC Dispatch.iSM4) (.cmac id mem) (.key (List.replicate 16 5)) [[1, 2], [3]] 16).bind id ≠ none ∧
    xMac (tCMAC Dispatch.iSM4) (.cmac id mem) (.key (List.replicate 15 5)) [[1, 2], [3]] 16 = some none := by
  rw [(C92_cmac (.param _) .sm4 mem id _ _ _).2, (C92_cmac (.param _) .sm4 mem id _ _ _).2]
  simp

/-! ## Tree hashing -/

/-- `READ4_FUNC` with or without rewinding. -/
def xReads4 (o : XObj) : XCtx → List (Nat × Bool) → Option (List (List Byte))
  | _, [] => some []
  | x, (n, w) :: rest => (o.fn .read4Func).bind fun f => (MacXof.callRead4 f x n w).bind fun r => (xReads4 o r.2 rest).map (r.1 :: ·)

/-- The executions of `UPDATE4_FUNC` for every piece of the message, `XCTRL_FUNC` for every piece of the customisation string (none for an object without such
a function), and `FINAL2_FUNC`. -/
def XTree (o : XObj) (x : XCtx) (ms cs : List (List Byte)) (y : XCtx) : Prop :=
  ∃ u f, o.fn .update4Func = some u ∧ o.fn .final2Func = some f ∧ ∃ x1 x2, CrewExec.Steps (MacXof.CallUpdate4 u) x ms x1 ∧
    (cs = [] ∧ x2 = x1 ∨ ∃ g, o.fn .xctrlFunc = some g ∧ CrewExec.Steps (MacXof.CallFeed g) x1 cs x2) ∧ MacXof.CallFinal2 f x2 y

theorem b3_lift (ms : List (List Byte)) (x : Blake3.Ctx) (z : XCtx) : CrewExec.Steps (MacXof.CallUpdate4 .BLAKE3_Update4) (.blake3 x) ms z ↔
    ∃ y, z = .blake3 y ∧ CrewExec.Steps (CrewExec.B3Update Blake3.compress) x ms y := by
  induction ms generalizing x with
  | nil =>
    refine ⟨fun h => ?_, fun ⟨y, e, h⟩ => ?_⟩
    · cases h; exact ⟨x, rfl, .nil⟩
    · cases h; subst e; exact .nil
  | cons m ms ih =>
    refine ⟨fun h => ?_, fun ⟨y, e, h⟩ => ?_⟩
    · cases h with
      | @cons _ w _ _ _ h1 h2 =>
        cases w with
        | blake3 w =>
          obtain ⟨y, e, hy⟩ := (ih w).1 h2
          exact ⟨y, e, .cons h1 hy⟩
        | _ => exact h1.elim
    · cases h with
      | @cons _ w _ _ _ h1 h2 => exact CrewExec.Steps.cons (R := MacXof.CallUpdate4 .BLAKE3_Update4) (x := .blake3 x) (y := .blake3 w) h1 ((ih w).2 ⟨y, e, h2⟩)

theorem b3_tree (x : Blake3.Ctx) (ms : List (List Byte)) (z : XCtx) : XTree iBLAKE3 (.blake3 x) ms [] z ↔
    ∃ x1 y, z = .blake3 y ∧ CrewExec.Steps (CrewExec.B3Update Blake3.compress) x ms x1 ∧ CrewExec.B3Final Blake3.compress x1 y := by
  refine ⟨fun ⟨u, f, hu, hf, x1, x2, h1, h2, h3⟩ => ?_, fun ⟨x1, y, e, h1, h2⟩ => ?_⟩
  · obtain rfl : u = .BLAKE3_Update4 := (Option.some.inj hu).symm
    obtain rfl : f = .BLAKE3_Final2 := (Option.some.inj hf).symm
    have e2 : x2 = x1 := by
      rcases h2 with ⟨-, e⟩ | ⟨g, hg, -⟩
      · exact e
      · cases hg
    subst e2
    obtain ⟨w, rfl, hw⟩ := (b3_lift ms x x2).1 h1
    cases z with
    | blake3 y => exact ⟨w, y, rfl, hw, h3⟩
    | _ => exact h3.elim
  · subst e
    exact ⟨_, _, rfl, rfl, .blake3 x1, .blake3 x1, (b3_lift ms x _).2 ⟨x1, rfl, h1⟩, Or.inl ⟨rfl, rfl⟩, h2⟩

theorem b3_reads (rs : List (Nat × Bool)) : ∀ y, xReads4 iBLAKE3 (.blake3 y) rs = some (blake3Reads y rs) := by
  induction rs with
  | nil => intro y; rfl
  | cons r rs ih =>
    intro y
    show (xReads4 iBLAKE3 (.blake3 (Blake3.read Blake3.compress y r.1 r.2).2) rs).map _ = _
    rw [ih]
    rfl

/-- C92: BLAKE3 through its object, on memory with any contents, under every interleaving of the crew: after `INIT_FUNC` the hash function, after `KINIT_FUNC`
the keyed one; `KINIT_FUNC` returns a null pointer exactly for keys of a length other than 32.  Executions exist and end in one context. -/
theorem C92_blake3 (mem : Blake3.Ctx) (hm : mem.nodes.length = 65) (parts : List (List Byte)) (hlen : parts.flatten.length < 2 ^ 64) :
    (∃ x, xReady iBLAKE3 (.blake3 mem) .plain = some (some x) ∧ (∃ y, XTree iBLAKE3 x parts [] y ∧ ∀ y', XTree iBLAKE3 x parts [] y' → y' = y) ∧
      ∀ y, XTree iBLAKE3 x parts [] y → ∀ reads : List (Nat × Bool), (reads.map Prod.fst).sum < 2 ^ 64 →
        xReads4 iBLAKE3 y reads = some (Spec.Blake3.readStream (Spec.Blake3.xofByte Spec.Blake3.compress Spec.Blake3.IV 0 parts.flatten) 0 reads)) ∧
    (∀ key : List Byte, key.length ≠ 32 → xReady iBLAKE3 (.blake3 mem) (.key key) = some none) ∧
    ∀ key : List Byte, key.length = 32 → ∃ x, xReady iBLAKE3 (.blake3 mem) (.key key) = some (some x) ∧
      ∀ y, XTree iBLAKE3 x parts [] y → ∀ reads : List (Nat × Bool), (reads.map Prod.fst).sum < 2 ^ 64 →
        xReads4 iBLAKE3 y reads = some (Spec.Blake3.readStream (Spec.Blake3.xofByte Spec.Blake3.compress
          ((List.range 8).map (Spec.Blake2.leWord 32 key)) Spec.Blake3.KEYED_HASH parts.flatten) 0 reads) := by
  have hk : ∀ key, xReady iBLAKE3 (.blake3 mem) (.key key) = some ((Blake3.kinit mem.nodes key).map .blake3) := fun _ => rfl
  refine ⟨⟨.blake3 (Blake3.init mem.nodes), rfl, ?_, fun z hz reads hr => ?_⟩, fun key h => ?_, fun key h => ?_⟩
  · obtain ⟨y, ⟨x, h1, h2⟩, hu⟩ := C84_blake3_runs mem.nodes hm parts hlen
    refine ⟨.blake3 y, (b3_tree _ parts _).2 ⟨x, y, rfl, h1, h2⟩, fun z hz => ?_⟩
    obtain ⟨x', y', rfl, g1, g2⟩ := (b3_tree _ parts _).1 hz
    rw [hu y' ⟨x', g1, g2⟩]
  · obtain ⟨x1, y, rfl, h1, h2⟩ := (b3_tree _ parts _).1 hz
    rw [b3_reads, C84_blake3_hash mem.nodes hm parts hlen reads hr x1 y h1 h2]
  · rw [hk]
    unfold Blake3.kinit
    rw [if_pos h]
    rfl
  · cases hx : Blake3.kinit mem.nodes key with
    | none =>
      unfold Blake3.kinit at hx
      rw [if_neg (fun c => c h)] at hx
      cases hx
    | some x0 =>
      refine ⟨.blake3 x0, by rw [hk, hx]; rfl, fun z hz reads hr => ?_⟩
      obtain ⟨x1, y, rfl, h1, h2⟩ := (b3_tree _ parts _).1 hz
      rw [b3_reads, C84_blake3_keyed mem.nodes hm key x0 hx parts hlen reads hr x1 y h1 h2]

theorem k12_lift (r : Nat) (ms : List (List Byte)) (x : K12.Ctx) (z : XCtx) : CrewExec.Steps (MacXof.CallUpdate4 .K12_Update4) (.k12 r x) ms z ↔
    ∃ y, z = .k12 r y ∧ CrewExec.Steps (CrewExec.K12Update (Keccak.permute r)) x ms y := by
  induction ms generalizing x with
  | nil =>
    refine ⟨fun h => ?_, fun ⟨y, e, h⟩ => ?_⟩
    · cases h; exact ⟨x, rfl, .nil⟩
    · cases h; subst e; exact .nil
  | cons m ms ih =>
    refine ⟨fun h => ?_, fun ⟨y, e, h⟩ => ?_⟩
    · cases h with
      | @cons _ w _ _ _ h1 h2 =>
        cases w with
        | k12 r' w =>
          obtain ⟨rfl, h1⟩ := h1
          obtain ⟨y, e, hy⟩ := (ih w).1 h2
          exact ⟨y, e, .cons h1 hy⟩
        | _ => exact h1.elim
    · cases h with
      | @cons _ w _ _ _ h1 h2 =>
        exact CrewExec.Steps.cons (R := MacXof.CallUpdate4 .K12_Update4) (x := .k12 r x) (y := .k12 r w) ⟨rfl, h1⟩ ((ih w).2 ⟨y, e, h2⟩)

theorem k12_lift_feed (r : Nat) (ms : List (List Byte)) (x : K12.Ctx) (z : XCtx) : CrewExec.Steps (MacXof.CallFeed .K12_Xctrl) (.k12 r x) ms z ↔
    ∃ y, z = .k12 r y ∧ CrewExec.Steps (CrewExec.K12Feed (Keccak.permute r)) x ms y := by
  induction ms generalizing x with
  | nil =>
    refine ⟨fun h => ?_, fun ⟨y, e, h⟩ => ?_⟩
    · cases h; exact ⟨x, rfl, .nil⟩
    · cases h; subst e; exact .nil
  | cons m ms ih =>
    refine ⟨fun h => ?_, fun ⟨y, e, h⟩ => ?_⟩
    · cases h with
      | @cons _ w _ _ _ h1 h2 =>
        cases w with
        | k12 r' w =>
          obtain ⟨rfl, h1⟩ := h1
          obtain ⟨y, e, hy⟩ := (ih w).1 h2
          exact ⟨y, e, .cons h1 hy⟩
        | _ => exact h1.elim
    · cases h with
      | @cons _ w _ _ _ h1 h2 =>
        exact CrewExec.Steps.cons (R := MacXof.CallFeed .K12_Xctrl) (x := .k12 r x) (y := .k12 r w) ⟨rfl, h1⟩ ((ih w).2 ⟨y, e, h2⟩)

/-- The objects of the KangarooTwelve family, with the rounds of the permutation and the rate: KT128 and KT256 of RFC 9861, MarsupilamiFourteen. -/
inductive K12Family : XObj → (rounds rate : Nat) → Prop
  | kt128 : K12Family iKT128 12 168
  | kt256 : K12Family iKT256 12 136
  | m14 : K12Family iMarsupilamiFourteen 14 136

theorem k12_tree {o : XObj} {r rate : Nat} (ho : K12Family o r rate) (x : K12.Ctx) (ms cs : List (List Byte)) (z : XCtx) : XTree o (.k12 r x) ms cs z ↔
    ∃ x1 x2 y, z = .k12 r y ∧ CrewExec.Steps (CrewExec.K12Update (Keccak.permute r)) x ms x1 ∧
      CrewExec.Steps (CrewExec.K12Feed (Keccak.permute r)) x1 cs x2 ∧ CrewExec.K12Final (Keccak.permute r) x2 y := by
  have eu : o.fn .update4Func = some .K12_Update4 := by cases ho <;> rfl
  have ef : o.fn .final2Func = some .K12_Final2 := by cases ho <;> rfl
  have eg : o.fn .xctrlFunc = some .K12_Xctrl := by cases ho <;> rfl
  refine ⟨fun ⟨u, f, hu, hf, x1, x2, h1, h2, h3⟩ => ?_, fun ⟨x1, x2, y, e, h1, h2, h3⟩ => ?_⟩
  · obtain rfl : u = .K12_Update4 := Option.some.inj (hu.symm.trans eu)
    obtain rfl : f = .K12_Final2 := Option.some.inj (hf.symm.trans ef)
    obtain ⟨w, rfl, hw⟩ := (k12_lift r ms x x1).1 h1
    have : ∃ v, x2 = .k12 r v ∧ CrewExec.Steps (CrewExec.K12Feed (Keccak.permute r)) w cs v := by
      rcases h2 with ⟨rfl, e⟩ | ⟨g, hg, h2⟩
      · exact ⟨w, e, .nil⟩
      · obtain rfl : g = .K12_Xctrl := Option.some.inj (hg.symm.trans eg)
        exact (k12_lift_feed r cs w x2).1 h2
    obtain ⟨v, rfl, hv⟩ := this
    cases z with
    | k12 r' y =>
      obtain ⟨rfl, h3⟩ := h3
      exact ⟨w, v, y, rfl, hw, hv, h3⟩
    | _ => exact h3.elim
  · subst e
    exact ⟨_, _, eu, ef, .k12 r x1, .k12 r x2, (k12_lift r ms x _).2 ⟨x1, rfl, h1⟩, Or.inr ⟨_, eg, (k12_lift_feed r cs x1 _).2 ⟨x2, rfl, h2⟩⟩, rfl, h3⟩

/-- Reads of a KangarooTwelve context as calls of C18. -/
def k12Ops (rs : List (Nat × Bool)) : List K12Op := rs.map fun r => if r.2 then .rewindRead r.1 else .read r.1

theorem k12_reads4 {o : XObj} {r rate : Nat} (ho : K12Family o r rate) (rs : List (Nat × Bool)) :
    ∀ y, xReads4 o (.k12 r y) rs = k12Run (Keccak.permute r) (fun _ l => l) y (k12Ops rs) := by
  have er : o.fn .read4Func = some .K12_Read4 := by cases ho <;> rfl
  induction rs with
  | nil => intro y; rfl
  | cons a rs ih =>
    intro y
    obtain ⟨n, w⟩ := a
    unfold xReads4
    rw [er, Option.bind_some]
    show (xReads4 o (.k12 r (K12.read4 (Keccak.permute r) y n w).2) rs).map _ = _
    rw [ih]
    cases w <;> rfl

/-- C92: KT128, KT256 and MarsupilamiFourteen through their objects, on memory with any contents, for every cutting of the message and the customisation string
into calls, under every interleaving of the crew, and for all reads and rewinds: the stream of RFC 9861 over Keccak-p[1600] with 12 (14) rounds.  Executions
exist and end in one context.  Partial as C18: lengths below 2^24 octets and 2^24 chunks. -/
theorem C92_k12_partial {o : XObj} {r rate : Nat} (ho : K12Family o r rate) (r0 : Nat) (mem : K12.Ctx) (ms cs : List (List Byte))
    (hC : cs.flatten.length < 2 ^ 24)
    (hS : (Spec.K12.chunks 8192 (ms.flatten ++ cs.flatten ++ Spec.K12.lengthEncode cs.flatten.length)).length ≤ 2 ^ 24) :
    ∃ x, xReady o (.k12 r0 mem) .plain = some (some x) ∧ (∃ y, XTree o x ms cs y ∧ ∀ y', XTree o x ms cs y' → y' = y) ∧
      ∃ perm : List Byte → List Byte,
        (∀ b, b.length = 200 → (perm b).length = 200 ∧ Spec.Keccak.bits (perm b) = Spec.Keccak.keccakP r (Spec.Keccak.bits b)) ∧
        ∀ y, XTree o x ms cs y → ∀ reads : List (Nat × Bool),
          xReads4 o y reads = some (k12Cursor (Spec.K12.stream perm rate ms.flatten cs.flatten) 0 (k12Ops reads)) := by
  have hr : r ≤ 24 := by cases ho <;> decide
  have hr2 : 0 < rate := by cases ho <;> decide
  have hp := fun s h => (C69_permutation r hr s h).1
  refine ⟨.k12 r (K12.init rate), by cases ho <;> rfl, ?_, Keccak.permute r, fun b hb => C69_permutation r hr b hb, fun z hz reads => ?_⟩
  · obtain ⟨y, ⟨x1, x2, h1, h2, h3⟩, hu⟩ := C84_k12_runs (Keccak.permute r) hp rate hr2 ms cs hC hS
    refine ⟨.k12 r y, (k12_tree ho _ ms cs _).2 ⟨x1, x2, y, rfl, h1, h2, h3⟩, fun z hz => ?_⟩
    obtain ⟨x1', x2', y', rfl, g⟩ := (k12_tree ho _ ms cs _).1 hz
    rw [hu y' ⟨x1', x2', g⟩]
  · obtain ⟨x1, x2, y, rfl, h1, h2, h3⟩ := (k12_tree ho _ ms cs _).1 hz
    rw [k12_reads4 ho]
    exact C84_k12_partial (Keccak.permute r) hp rate hr2 ms cs (k12Ops reads) hC hS x1 x2 y h1 h2 h3

/-- The lengths of a message of three octets in two pieces with a customisation string are in range. -/
example : K12Family iMarsupilamiFourteen 14 136 ∧ ([[7], [8]] : List (List Byte)).flatten.length < 2 ^ 24 ∧
    (Spec.K12.chunks 8192 (([[1], [2, 3]] : List (List Byte)).flatten ++ ([[7], [8]] : List (List Byte)).flatten ++
      Spec.K12.lengthEncode ([[7], [8]] : List (List Byte)).flatten.length)).length ≤ 2 ^ 24 := by
  refine ⟨.m14, by decide, ?_⟩
  decide +kernel

end Props
