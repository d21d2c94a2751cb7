import Verif.Model.Poly1305
import Verif.Model.Gcm

/-!
# Model of `src/1-symm/chacha.c` and `src/2-encryption/chacha20-poly1305.c`

`in`/`out` live in a byte-addressed memory and may overlap; `iv`, `aad`, `T` are separate byte strings.  Loop indices are
natural numbers (`alen` is assumed small enough for `i+=16` not to wrap a 64-bit `size_t`).
-/
namespace Chacha
abbrev Byte := BitVec 8
abbrev W := BitVec 32
abbrev Mem := Spec.Mem

/-- `qround(a, b, c, d)`, `chacha.c:6-12`. -/
def qround (a b c d : W) : W × W × W × W :=
  let a := a + b; let d := d ^^^ a; let d := (d <<< 16) ||| (d >>> 16)
  let c := c + d; let b := b ^^^ c; let b := (b <<< 12) ||| (b >>> 20)
  let a := a + b; let d := d ^^^ a; let d := (d <<< 8) ||| (d >>> 24)
  let c := c + d; let b := b ^^^ c; let b := (b <<< 7) ||| (b >>> 25)
  (a, b, c, d)

/-- `qround(state[i], state[j], state[k], state[l])`. -/
def qr (s : List W) (i j k l : Nat) : List W :=
  let r := qround (s.getD i 0) (s.getD j 0) (s.getD k 0) (s.getD l 0)
  (((s.set i r.1).set j r.2.1).set k r.2.2.1).set l r.2.2.2

/-- `inner_block`, `chacha.c:14-26`. -/
def innerBlock (s : List W) : List W :=
  let s := qr s 0 4 8 12
  let s := qr s 1 5 9 13
  let s := qr s 2 6 10 14
  let s := qr s 3 7 11 15
  let s := qr s 0 5 10 15
  let s := qr s 1 6 11 12
  let s := qr s 2 7 8 13
  qr s 3 4 9 14

/-- `chacha20_set_state(state, key, nonce)`, `chacha.c:28-50`. -/
def setState (s : List W) (key nonce : Option (List Byte)) : List W :=
  let s := (((s.set 0 0x61707865#32).set 1 0x3320646e#32).set 2 0x79622d32#32).set 3 0x6b206574#32
  let s := match key with
    | none => s
    | some k => (List.range 8).foldl (fun s i => s.set (i + 4) (Poly1305.le32 k i)) s
  match nonce with
  | none => s
  | some n => (List.range 3).foldl (fun s i => s.set (i + 13) (Poly1305.le32 n i)) s

/-- `chacha20_block`, `chacha.c:52-66`: the state afterwards and the bytes of `ws`. -/
def keyBlock (s : List W) (counter : W) : List W × List Byte :=
  let s := s.set 12 counter
  let ws := (List.range 10).foldl (fun ws _ => innerBlock ws) s
  let ws := (List.range 16).map fun i => ws.getD i 0 + s.getD i 0
  (s, ws.flatMap fun (w : W) => [w.setWidth 8, (w >>> 8).setWidth 8, (w >>> 16).setWidth 8, (w >>> 24).setWidth 8])

/-- `for(i=0; i<len; i++) out[i] = ptr[i] ^ in[i];`, `chacha.c:68-75`, with `in` and `out` in memory. -/
def xorOut (ptr : List Byte) (n inp out : Nat) (mem : Mem) : Mem :=
  (List.range n).foldl (fun mem i => Spec.poke mem (out + i) (ptr.getD i 0 ^^^ mem (inp + i))) mem

/-- `chacha_aead_t`. -/
structure Ctx where
  state : List W
  poly : Poly1305.Ctx

/-- `ChaCha_AEAD_Init`, `chacha20-poly1305.c:6-14`. -/
def init (x : Ctx) (K : List Byte) : Option Ctx :=
  if K.length ≠ 32 then none else some { x with state := setState x.state (some K) none }

/-- `for(i=0; i<len; i+=64) chacha20_block(x->state, (uint32_t)(i/64+1), min(64,len-i), iptr+i, optr+i);`,
`chacha20-poly1305.c:40-42`, `:115-117`. -/
def cryptLoop (len inp out i : Nat) (s : List W) (mem : Mem) : List W × Mem :=
  if i < len then
    let r := keyBlock s (BitVec.ofNat 32 (i / 64 + 1))
    cryptLoop len inp out (i + 64) r.1 (xorOut r.2 (min 64 (len - i)) (inp + i) (out + i) mem)
  else (s, mem)
termination_by len - i

/-- The eight bytes of `htole64(v)`. -/
def putLe64 (v : BitVec 64) : List Byte :=
  [v.setWidth 8, (v >>> 8).setWidth 8, (v >>> 16).setWidth 8, (v >>> 24).setWidth 8, (v >>> 32).setWidth 8,
    (v >>> 40).setWidth 8, (v >>> 48).setWidth 8, (v >>> 56).setWidth 8]

/-- The authentication part, `chacha20-poly1305.c:44-60` and `:94-112`: `text i` is byte `i` of the ciphertext. -/
def authenticate (p : Poly1305.Ctx) (aad : List Byte) (text : Nat → Byte) (len : Nat) : Poly1305.Ctx :=
  let p := Gcm.absorb Poly1305.block (fun i => aad.getD i 0) aad.length 0 p
  let p := Gcm.absorb Poly1305.block text len 0 p
  let p := Poly1305.block p (putLe64 (BitVec.ofNat 64 aad.length) ++ putLe64 (BitVec.ofNat 64 len))
  Poly1305.final p

/-- `ChaCha_AEAD_Encrypt`, `chacha20-poly1305.c:18-68`.  `none`: NULL, nothing written; otherwise the context and memory
afterwards and the bytes stored at `T`. -/
def encrypt (x : Ctx) (iv aad : List Byte) (len inp out tlen : Nat) (mem : Mem) : Option (Ctx × Mem × List Byte) :=
  if iv.length ≠ 12 ∨ len ≥ 2 ^ 38 then none
  else
    let s := setState x.state none (some iv)
    let r := keyBlock s 0#32
    let p := Poly1305.init (r.2.take 32)
    let (s, mem) := cryptLoop len inp out 0 r.1 mem
    let p := authenticate p aad (fun i => mem (out + i)) len
    let words := Poly1305.tag p
    some ({ state := s, poly := p }, mem, (List.range tlen).map fun i => if i < 16 then words.getD i 0 else 0)

/-- `ChaCha_AEAD_Decrypt`, `chacha20-poly1305.c:70-120`: whether a non-NULL pointer is returned, context and memory
afterwards. -/
def decrypt (x : Ctx) (iv aad : List Byte) (len inp out : Nat) (T : List Byte) (mem : Mem) : Bool × Ctx × Mem :=
  if iv.length ≠ 12 then (false, x, mem)
  else if iv.length ≠ 12 ∨ len ≥ 2 ^ 38 then (false, x, mem)
  else
    let s := setState x.state none (some iv)
    let r := keyBlock s 0#32
    let p := Poly1305.init (r.2.take 32)
    let p := authenticate p aad (fun i => mem (inp + i)) len
    let words := Poly1305.tag p
    let b := (List.range T.length).foldl (fun (b : BitVec 32) i => b ||| (T.getD i 0 ^^^ (if i < 16 then words.getD i 0 else 0)).setWidth 32) 0#32
    if b ≠ 0#32 then (false, { state := r.1, poly := p }, mem)
    else
      let (s, mem) := cryptLoop len inp out 0 r.1 mem
      (true, { state := s, poly := p }, mem)

end Chacha
