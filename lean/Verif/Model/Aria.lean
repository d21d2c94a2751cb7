import Verif.Model.Sbox
import Verif.Model.Endian

/-!
# Model of `src/1-symm-national/aria.c`

Round keys are the byte string `ek` (stored big endian by the key schedule).
-/
namespace Aria
open Sbox (W widen wsbox)
open Endian
abbrev Byte := BitVec 8
abbrev D := BitVec 64

/-- First and second S-box in `table_SB`, `aria.c:13-28`, `:30-45`. -/
def s1Table : List (BitVec 8) := [
  0x63#8, 0x7c#8, 0x77#8, 0x7b#8, 0xf2#8, 0x6b#8, 0x6f#8, 0xc5#8, 0x30#8, 0x01#8, 0x67#8, 0x2b#8, 0xfe#8, 0xd7#8, 0xab#8, 0x76#8,
  0xca#8, 0x82#8, 0xc9#8, 0x7d#8, 0xfa#8, 0x59#8, 0x47#8, 0xf0#8, 0xad#8, 0xd4#8, 0xa2#8, 0xaf#8, 0x9c#8, 0xa4#8, 0x72#8, 0xc0#8,
  0xb7#8, 0xfd#8, 0x93#8, 0x26#8, 0x36#8, 0x3f#8, 0xf7#8, 0xcc#8, 0x34#8, 0xa5#8, 0xe5#8, 0xf1#8, 0x71#8, 0xd8#8, 0x31#8, 0x15#8,
  0x04#8, 0xc7#8, 0x23#8, 0xc3#8, 0x18#8, 0x96#8, 0x05#8, 0x9a#8, 0x07#8, 0x12#8, 0x80#8, 0xe2#8, 0xeb#8, 0x27#8, 0xb2#8, 0x75#8,
  0x09#8, 0x83#8, 0x2c#8, 0x1a#8, 0x1b#8, 0x6e#8, 0x5a#8, 0xa0#8, 0x52#8, 0x3b#8, 0xd6#8, 0xb3#8, 0x29#8, 0xe3#8, 0x2f#8, 0x84#8,
  0x53#8, 0xd1#8, 0x00#8, 0xed#8, 0x20#8, 0xfc#8, 0xb1#8, 0x5b#8, 0x6a#8, 0xcb#8, 0xbe#8, 0x39#8, 0x4a#8, 0x4c#8, 0x58#8, 0xcf#8,
  0xd0#8, 0xef#8, 0xaa#8, 0xfb#8, 0x43#8, 0x4d#8, 0x33#8, 0x85#8, 0x45#8, 0xf9#8, 0x02#8, 0x7f#8, 0x50#8, 0x3c#8, 0x9f#8, 0xa8#8,
  0x51#8, 0xa3#8, 0x40#8, 0x8f#8, 0x92#8, 0x9d#8, 0x38#8, 0xf5#8, 0xbc#8, 0xb6#8, 0xda#8, 0x21#8, 0x10#8, 0xff#8, 0xf3#8, 0xd2#8,
  0xcd#8, 0x0c#8, 0x13#8, 0xec#8, 0x5f#8, 0x97#8, 0x44#8, 0x17#8, 0xc4#8, 0xa7#8, 0x7e#8, 0x3d#8, 0x64#8, 0x5d#8, 0x19#8, 0x73#8,
  0x60#8, 0x81#8, 0x4f#8, 0xdc#8, 0x22#8, 0x2a#8, 0x90#8, 0x88#8, 0x46#8, 0xee#8, 0xb8#8, 0x14#8, 0xde#8, 0x5e#8, 0x0b#8, 0xdb#8,
  0xe0#8, 0x32#8, 0x3a#8, 0x0a#8, 0x49#8, 0x06#8, 0x24#8, 0x5c#8, 0xc2#8, 0xd3#8, 0xac#8, 0x62#8, 0x91#8, 0x95#8, 0xe4#8, 0x79#8,
  0xe7#8, 0xc8#8, 0x37#8, 0x6d#8, 0x8d#8, 0xd5#8, 0x4e#8, 0xa9#8, 0x6c#8, 0x56#8, 0xf4#8, 0xea#8, 0x65#8, 0x7a#8, 0xae#8, 0x08#8,
  0xba#8, 0x78#8, 0x25#8, 0x2e#8, 0x1c#8, 0xa6#8, 0xb4#8, 0xc6#8, 0xe8#8, 0xdd#8, 0x74#8, 0x1f#8, 0x4b#8, 0xbd#8, 0x8b#8, 0x8a#8,
  0x70#8, 0x3e#8, 0xb5#8, 0x66#8, 0x48#8, 0x03#8, 0xf6#8, 0x0e#8, 0x61#8, 0x35#8, 0x57#8, 0xb9#8, 0x86#8, 0xc1#8, 0x1d#8, 0x9e#8,
  0xe1#8, 0xf8#8, 0x98#8, 0x11#8, 0x69#8, 0xd9#8, 0x8e#8, 0x94#8, 0x9b#8, 0x1e#8, 0x87#8, 0xe9#8, 0xce#8, 0x55#8, 0x28#8, 0xdf#8,
  0x8c#8, 0xa1#8, 0x89#8, 0x0d#8, 0xbf#8, 0xe6#8, 0x42#8, 0x68#8, 0x41#8, 0x99#8, 0x2d#8, 0x0f#8, 0xb0#8, 0x54#8, 0xbb#8, 0x16#8]

def s2Table : List (BitVec 8) := [
  0xe2#8, 0x4e#8, 0x54#8, 0xfc#8, 0x94#8, 0xc2#8, 0x4a#8, 0xcc#8, 0x62#8, 0x0d#8, 0x6a#8, 0x46#8, 0x3c#8, 0x4d#8, 0x8b#8, 0xd1#8,
  0x5e#8, 0xfa#8, 0x64#8, 0xcb#8, 0xb4#8, 0x97#8, 0xbe#8, 0x2b#8, 0xbc#8, 0x77#8, 0x2e#8, 0x03#8, 0xd3#8, 0x19#8, 0x59#8, 0xc1#8,
  0x1d#8, 0x06#8, 0x41#8, 0x6b#8, 0x55#8, 0xf0#8, 0x99#8, 0x69#8, 0xea#8, 0x9c#8, 0x18#8, 0xae#8, 0x63#8, 0xdf#8, 0xe7#8, 0xbb#8,
  0x00#8, 0x73#8, 0x66#8, 0xfb#8, 0x96#8, 0x4c#8, 0x85#8, 0xe4#8, 0x3a#8, 0x09#8, 0x45#8, 0xaa#8, 0x0f#8, 0xee#8, 0x10#8, 0xeb#8,
  0x2d#8, 0x7f#8, 0xf4#8, 0x29#8, 0xac#8, 0xcf#8, 0xad#8, 0x91#8, 0x8d#8, 0x78#8, 0xc8#8, 0x95#8, 0xf9#8, 0x2f#8, 0xce#8, 0xcd#8,
  0x08#8, 0x7a#8, 0x88#8, 0x38#8, 0x5c#8, 0x83#8, 0x2a#8, 0x28#8, 0x47#8, 0xdb#8, 0xb8#8, 0xc7#8, 0x93#8, 0xa4#8, 0x12#8, 0x53#8,
  0xff#8, 0x87#8, 0x0e#8, 0x31#8, 0x36#8, 0x21#8, 0x58#8, 0x48#8, 0x01#8, 0x8e#8, 0x37#8, 0x74#8, 0x32#8, 0xca#8, 0xe9#8, 0xb1#8,
  0xb7#8, 0xab#8, 0x0c#8, 0xd7#8, 0xc4#8, 0x56#8, 0x42#8, 0x26#8, 0x07#8, 0x98#8, 0x60#8, 0xd9#8, 0xb6#8, 0xb9#8, 0x11#8, 0x40#8,
  0xec#8, 0x20#8, 0x8c#8, 0xbd#8, 0xa0#8, 0xc9#8, 0x84#8, 0x04#8, 0x49#8, 0x23#8, 0xf1#8, 0x4f#8, 0x50#8, 0x1f#8, 0x13#8, 0xdc#8,
  0xd8#8, 0xc0#8, 0x9e#8, 0x57#8, 0xe3#8, 0xc3#8, 0x7b#8, 0x65#8, 0x3b#8, 0x02#8, 0x8f#8, 0x3e#8, 0xe8#8, 0x25#8, 0x92#8, 0xe5#8,
  0x15#8, 0xdd#8, 0xfd#8, 0x17#8, 0xa9#8, 0xbf#8, 0xd4#8, 0x9a#8, 0x7e#8, 0xc5#8, 0x39#8, 0x67#8, 0xfe#8, 0x76#8, 0x9d#8, 0x43#8,
  0xa7#8, 0xe1#8, 0xd0#8, 0xf5#8, 0x68#8, 0xf2#8, 0x1b#8, 0x34#8, 0x70#8, 0x05#8, 0xa3#8, 0x8a#8, 0xd5#8, 0x79#8, 0x86#8, 0xa8#8,
  0x30#8, 0xc6#8, 0x51#8, 0x4b#8, 0x1e#8, 0xa6#8, 0x27#8, 0xf6#8, 0x35#8, 0xd2#8, 0x6e#8, 0x24#8, 0x16#8, 0x82#8, 0x5f#8, 0xda#8,
  0xe6#8, 0x75#8, 0xa2#8, 0xef#8, 0x2c#8, 0xb2#8, 0x1c#8, 0x9f#8, 0x5d#8, 0x6f#8, 0x80#8, 0x0a#8, 0x72#8, 0x44#8, 0x9b#8, 0x6c#8,
  0x90#8, 0x0b#8, 0x5b#8, 0x33#8, 0x7d#8, 0x5a#8, 0x52#8, 0xf3#8, 0x61#8, 0xa1#8, 0xf7#8, 0xb0#8, 0xd6#8, 0x3f#8, 0x7c#8, 0x6d#8,
  0xed#8, 0x14#8, 0xe0#8, 0xa5#8, 0x3d#8, 0x22#8, 0xb3#8, 0xf8#8, 0x89#8, 0xde#8, 0x71#8, 0x1a#8, 0xaf#8, 0xba#8, 0xb5#8, 0x81#8]

/-- `CALC`, `aria.c:7-9`. -/
def entry (i : Nat) : W × W :=
  ((s1Table.getD i 0).setWidth 32 <<< 24 ||| (s2Table.getD i 0).setWidth 32 <<< 16 ||| BitVec.ofNat 32 i * 0x0101#32,
   BitVec.ofNat 32 i * 0x01010000#32 ||| (s1Table.getD i 0).setWidth 32 <<< 8 ||| (s2Table.getD i 0).setWidth 32)
def table : List W := widen entry

/-- `SL1`, `aria.c:47-58`. -/
def sl1 (x : List Byte) : List Byte := (List.range 4).flatMap fun i => st32 (wsbox (ld32 x i) table)

/-- `y << 16 | y >> 16`. -/
def swap16 (y : W) : W := y <<< 16 ||| y >>> 16

/-- `SL2`, `aria.c:60-73`. -/
def sl2 (x : List Byte) : List Byte := (List.range 4).flatMap fun i => st32 (swap16 (wsbox (swap16 (ld32 x i)) table))

/-- `x[a] ^ x[b] ^ ...`. -/
def xsum (x : List Byte) (a b c d e f g : Nat) : Byte :=
  x.getD a 0 ^^^ x.getD b 0 ^^^ x.getD c 0 ^^^ x.getD d 0 ^^^ x.getD e 0 ^^^ x.getD f 0 ^^^ x.getD g 0

/-- `A`, `aria.c:75-99`. -/
def A (x : List Byte) : List Byte := [
  xsum x 3 4 6 8 9 13 14,
  xsum x 2 5 7 8 9 12 15,
  xsum x 1 4 6 10 11 12 15,
  xsum x 0 5 7 10 11 13 14,
  xsum x 0 2 5 8 11 14 15,
  xsum x 1 3 4 9 10 14 15,
  xsum x 0 2 7 9 10 12 13,
  xsum x 1 3 6 8 11 12 13,
  xsum x 0 1 4 7 10 13 15,
  xsum x 0 1 5 6 11 12 14,
  xsum x 2 3 5 6 8 13 15,
  xsum x 2 3 4 7 9 12 14,
  xsum x 1 2 6 7 9 11 12,
  xsum x 0 3 6 7 8 10 13,
  xsum x 0 3 4 5 9 11 14,
  xsum x 1 2 4 5 8 10 15]

/-- `for(i=0; i<16; i++) D[i] ^= RK[i];` with `RK = ek + 16*j`. -/
def addKey (x : List Byte) (ek : List Byte) (j : Nat) : List Byte := (List.range 16).map fun i => x.getD i 0 ^^^ ek.getD (j * 16 + i) 0

/-- `FO`, `FE`, `aria.c:101-117`, with a round key; the key-schedule calls pass `NULL` and skip the addition. -/
def FO (x ek : List Byte) (j : Nat) : List Byte := A (sl1 (addKey x ek j))
def FE (x ek : List Byte) (j : Nat) : List Byte := A (sl2 (addKey x ek j))

/-- The loop of `ARIA_Encrypt_Generic`, `aria.c:321-325`, `n` iterations. -/
def encLoop (ek : List Byte) (n : Nat) (out : List Byte) : List Byte :=
  (List.range n).foldl (fun out i => FE (FO out ek (i * 2 + 0)) ek (i * 2 + 1)) out

/-- `ARIA_Encrypt_Generic`, `aria.c:313-334`. -/
def encryptGeneric (inp ek : List Byte) (c : Nat) : List Byte :=
  let out := (List.range 16).map fun i => inp.getD i 0
  let i := c / 2 - 1
  let out := encLoop ek i out
  let out := FO out ek (i * 2 + 0)
  let out := addKey out ek (i * 2 + 1)
  let out := sl2 out
  addKey out ek (i * 2 + 2)

/-- `for(c=0; c<16; c++) dk[c] = ek[i * 16 + c];`. -/
def take16 (ek : List Byte) (i : Nat) : List Byte := (List.range 16).map fun c => ek.getD (i * 16 + c) 0

/-- The loop of `ARIA_Decrypt_Generic`, `aria.c:352-361`; returns `(out, dk, i)`. -/
def decLoop (ek : List Byte) (out dk : List Byte) (i : Nat) : List Byte × List Byte × Nat :=
  if i > 2 then
    let out := FO out dk 0
    let dk := A (take16 ek (i - 1))
    let out := FE out dk 0
    let dk := A (take16 ek (i - 2))
    decLoop ek out dk (i - 2)
  else (out, dk, i)
termination_by i

/-- `ARIA_Decrypt_Generic`, `aria.c:336-372`. -/
def decryptGeneric (inp ek : List Byte) (c : Nat) : List Byte :=
  let out := (List.range 16).map fun i => inp.getD i 0
  let dk := take16 ek c
  let (out, dk, _) := decLoop ek out dk c
  let out := FO out dk 0
  let dk := A (take16 ek 1)
  let out := addKey out dk 0
  let out := sl2 out
  addKey out ek 0

/-- `ARIA_Kschd_Generic`, `aria.c:119-193`: the words `ek[0]`, `ek[1]`, ... (the code computes those of even index first), then
stored big endian. -/
def kschdGeneric (c : Nat) (W0h W0l W1h W1l W2h W2l W3h W3l : D) : List Byte :=
  let ek : List D := [
    W0h ^^^ (W1h >>> 19 ||| W1l <<< 45), W0l ^^^ (W1l >>> 19 ||| W1h <<< 45),
    W1h ^^^ (W2h >>> 19 ||| W2l <<< 45), W1l ^^^ (W2l >>> 19 ||| W2h <<< 45),
    W2h ^^^ (W3h >>> 19 ||| W3l <<< 45), W2l ^^^ (W3l >>> 19 ||| W3h <<< 45),
    W3h ^^^ (W0h >>> 19 ||| W0l <<< 45), W3l ^^^ (W0l >>> 19 ||| W0h <<< 45),
    W0h ^^^ (W1h >>> 31 ||| W1l <<< 33), W0l ^^^ (W1l >>> 31 ||| W1h <<< 33),
    W1h ^^^ (W2h >>> 31 ||| W2l <<< 33), W1l ^^^ (W2l >>> 31 ||| W2h <<< 33),
    W2h ^^^ (W3h >>> 31 ||| W3l <<< 33), W2l ^^^ (W3l >>> 31 ||| W3h <<< 33),
    W3h ^^^ (W0h >>> 31 ||| W0l <<< 33), W3l ^^^ (W0l >>> 31 ||| W0h <<< 33),
    W0h ^^^ (W1h <<< 61 ||| W1l >>> 3), W0l ^^^ (W1l <<< 61 ||| W1h >>> 3),
    W1h ^^^ (W2h <<< 61 ||| W2l >>> 3), W1l ^^^ (W2l <<< 61 ||| W2h >>> 3),
    W2h ^^^ (W3h <<< 61 ||| W3l >>> 3), W2l ^^^ (W3l <<< 61 ||| W3h >>> 3),
    W3h ^^^ (W0h <<< 61 ||| W0l >>> 3), W3l ^^^ (W0l <<< 61 ||| W0h >>> 3),
    W0h ^^^ (W1h <<< 31 ||| W1l >>> 33), W0l ^^^ (W1l <<< 31 ||| W1h >>> 33)] ++
    (if c > 12 then [
      W1h ^^^ (W2h <<< 31 ||| W2l >>> 33), W1l ^^^ (W2l <<< 31 ||| W2h >>> 33),
      W2h ^^^ (W3h <<< 31 ||| W3l >>> 33), W2l ^^^ (W3l <<< 31 ||| W3h >>> 33)] else []) ++
    (if c > 14 then [
      W3h ^^^ (W0h <<< 31 ||| W0l >>> 33), W3l ^^^ (W0l <<< 31 ||| W0h >>> 33),
      W0h ^^^ (W1h <<< 19 ||| W1l >>> 45), W0l ^^^ (W1l <<< 19 ||| W1h >>> 45)] else [])
  ek.flatMap st64

/-- `C1h` .. `C3l`, `aria.c:195-200`. -/
def C1h : D := 0x517cc1b727220a94#64
def C1l : D := 0xfe13abe8fa9a6ee0#64
def C2h : D := 0x6db14acc9e21c820#64
def C2l : D := 0xff28b1d5ef5de2b0#64
def C3h : D := 0xdb92371d2126e970#64
def C3l : D := 0x0324977504e8c90e#64

/-- Octets of `W.l[2 i]`, `W.l[2 i + 1]`. -/
def pair64 (a b : D) : List Byte := st64 a ++ st64 b

/-- The body of the three key schedules, `aria.c:204-236`, `:241-273`, `:278-310`: the words as values of `be64toh` (exclusive or
commutes with it); `k2`, `k3` is what is added to `W.l[2]`, `W.l[3]`. -/
def keySchedWith (c : Nat) (key : List Byte) (Ah Al Bh Bl Ch Cl k2 k3 : D) : List Byte :=
  let w0 := ld64 key 0
  let w1 := ld64 key 1
  let b := A (sl1 (pair64 (w0 ^^^ Ah) (w1 ^^^ Al)))
  let w2 := ld64 b 0 ^^^ k2
  let w3 := ld64 b 1 ^^^ k3
  let b := A (sl2 (pair64 (w2 ^^^ Bh) (w3 ^^^ Bl)))
  let w4 := ld64 b 0 ^^^ w0
  let w5 := ld64 b 1 ^^^ w1
  let b := A (sl1 (pair64 (w4 ^^^ Ch) (w5 ^^^ Cl)))
  let w6 := ld64 b 0 ^^^ w2
  let w7 := ld64 b 1 ^^^ w3
  kschdGeneric c w0 w1 w2 w3 w4 w5 w6 w7

/-- `ARIA128_KeySched`, `aria.c:202-237`. -/
def keySched128 (key : List Byte) : List Byte := keySchedWith 12 key C1h C1l C2h C2l C3h C3l 0 0
/-- `ARIA192_KeySched`, `aria.c:239-274`. -/
def keySched192 (key : List Byte) : List Byte := keySchedWith 14 key C2h C2l C3h C3l C1h C1l (ld64 key 2) 0
/-- `ARIA256_KeySched`, `aria.c:276-311`. -/
def keySched256 (key : List Byte) : List Byte := keySchedWith 16 key C3h C3l C1h C1l C2h C2l (ld64 key 2) (ld64 key 3)

/-- `ARIA128_Encrypt` .. `ARIA256_Decrypt`, `aria.c:374-402`. -/
def encrypt128 (inp w : List Byte) : List Byte := encryptGeneric inp w 12
def encrypt192 (inp w : List Byte) : List Byte := encryptGeneric inp w 14
def encrypt256 (inp w : List Byte) : List Byte := encryptGeneric inp w 16
def decrypt128 (inp w : List Byte) : List Byte := decryptGeneric inp w 12
def decrypt192 (inp w : List Byte) : List Byte := decryptGeneric inp w 14
def decrypt256 (inp w : List Byte) : List Byte := decryptGeneric inp w 16

end Aria
