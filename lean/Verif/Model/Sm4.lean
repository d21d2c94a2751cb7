import Verif.Model.Sbox
import Verif.Model.Endian

/-!
# Model of `src/1-symm-national/sm4.c`

`sm4-arm.c` is modelled in `Model/ArmNi.lean`.
-/
namespace Sm4
open Sbox (W widen wsbox)
open Endian
abbrev Byte := BitVec 8

/-- `wsbox_table`, `sm4.c:31-48` (before widening). -/
def sboxTable : List (BitVec 8) := [
  0xd6#8, 0x90#8, 0xe9#8, 0xfe#8, 0xcc#8, 0xe1#8, 0x3d#8, 0xb7#8, 0x16#8, 0xb6#8, 0x14#8, 0xc2#8, 0x28#8, 0xfb#8, 0x2c#8, 0x05#8,
  0x2b#8, 0x67#8, 0x9a#8, 0x76#8, 0x2a#8, 0xbe#8, 0x04#8, 0xc3#8, 0xaa#8, 0x44#8, 0x13#8, 0x26#8, 0x49#8, 0x86#8, 0x06#8, 0x99#8,
  0x9c#8, 0x42#8, 0x50#8, 0xf4#8, 0x91#8, 0xef#8, 0x98#8, 0x7a#8, 0x33#8, 0x54#8, 0x0b#8, 0x43#8, 0xed#8, 0xcf#8, 0xac#8, 0x62#8,
  0xe4#8, 0xb3#8, 0x1c#8, 0xa9#8, 0xc9#8, 0x08#8, 0xe8#8, 0x95#8, 0x80#8, 0xdf#8, 0x94#8, 0xfa#8, 0x75#8, 0x8f#8, 0x3f#8, 0xa6#8,
  0x47#8, 0x07#8, 0xa7#8, 0xfc#8, 0xf3#8, 0x73#8, 0x17#8, 0xba#8, 0x83#8, 0x59#8, 0x3c#8, 0x19#8, 0xe6#8, 0x85#8, 0x4f#8, 0xa8#8,
  0x68#8, 0x6b#8, 0x81#8, 0xb2#8, 0x71#8, 0x64#8, 0xda#8, 0x8b#8, 0xf8#8, 0xeb#8, 0x0f#8, 0x4b#8, 0x70#8, 0x56#8, 0x9d#8, 0x35#8,
  0x1e#8, 0x24#8, 0x0e#8, 0x5e#8, 0x63#8, 0x58#8, 0xd1#8, 0xa2#8, 0x25#8, 0x22#8, 0x7c#8, 0x3b#8, 0x01#8, 0x21#8, 0x78#8, 0x87#8,
  0xd4#8, 0x00#8, 0x46#8, 0x57#8, 0x9f#8, 0xd3#8, 0x27#8, 0x52#8, 0x4c#8, 0x36#8, 0x02#8, 0xe7#8, 0xa0#8, 0xc4#8, 0xc8#8, 0x9e#8,
  0xea#8, 0xbf#8, 0x8a#8, 0xd2#8, 0x40#8, 0xc7#8, 0x38#8, 0xb5#8, 0xa3#8, 0xf7#8, 0xf2#8, 0xce#8, 0xf9#8, 0x61#8, 0x15#8, 0xa1#8,
  0xe0#8, 0xae#8, 0x5d#8, 0xa4#8, 0x9b#8, 0x34#8, 0x1a#8, 0x55#8, 0xad#8, 0x93#8, 0x32#8, 0x30#8, 0xf5#8, 0x8c#8, 0xb1#8, 0xe3#8,
  0x1d#8, 0xf6#8, 0xe2#8, 0x2e#8, 0x82#8, 0x66#8, 0xca#8, 0x60#8, 0xc0#8, 0x29#8, 0x23#8, 0xab#8, 0x0d#8, 0x53#8, 0x4e#8, 0x6f#8,
  0xd5#8, 0xdb#8, 0x37#8, 0x45#8, 0xde#8, 0xfd#8, 0x8e#8, 0x2f#8, 0x03#8, 0xff#8, 0x6a#8, 0x72#8, 0x6d#8, 0x6c#8, 0x5b#8, 0x51#8,
  0x8d#8, 0x1b#8, 0xaf#8, 0x92#8, 0xbb#8, 0xdd#8, 0xbc#8, 0x7f#8, 0x11#8, 0xd9#8, 0x5c#8, 0x41#8, 0x1f#8, 0x10#8, 0x5a#8, 0xd8#8,
  0x0a#8, 0xc1#8, 0x31#8, 0x88#8, 0xa5#8, 0xcd#8, 0x7b#8, 0xbd#8, 0x2d#8, 0x74#8, 0xd0#8, 0x12#8, 0xb8#8, 0xe5#8, 0xb4#8, 0xb0#8,
  0x89#8, 0x69#8, 0x97#8, 0x4a#8, 0x0c#8, 0x96#8, 0x77#8, 0x7e#8, 0x65#8, 0xb9#8, 0xf1#8, 0x09#8, 0xc5#8, 0x6e#8, 0xc6#8, 0x84#8,
  0x18#8, 0xf0#8, 0x7d#8, 0xec#8, 0x3a#8, 0xdc#8, 0x4d#8, 0x20#8, 0x79#8, 0xee#8, 0x5f#8, 0x3e#8, 0xd7#8, 0xcb#8, 0x39#8, 0x48#8]

/-- `CALC`, `sm4.c:29`. -/
def entry (i : Nat) : W × W := ((sboxTable.getD i 0).setWidth 32 * 0x01010101#32, BitVec.ofNat 32 i * 0x01010101#32)
def table : List W := widen entry

/-- `tau`, `sm4.c:70-73`. -/
def tau (x : W) : W := wsbox x table

/-- `Lin0`, `sm4.c:75-83`. -/
def lin0 (B : W) : W := B ^^^ (B <<< 2 ||| B >>> 30) ^^^ (B <<< 10 ||| B >>> 22) ^^^ (B <<< 18 ||| B >>> 14) ^^^ (B <<< 24 ||| B >>> 8)

/-- `Lin1`, `sm4.c:85-88`. -/
def lin1 (B : W) : W := B ^^^ (B <<< 13 ||| B >>> 19) ^^^ (B <<< 23 ||| B >>> 9)

/-- `Pmt_T0`, `Pmt_T1`, `sm4.c:60-68`. -/
def t0 (x : W) : W := lin0 (tau x)
def t1 (x : W) : W := lin1 (tau x)

/-- `Rnd_F`, `sm4.c:50-58`. -/
def rndF (x0 x1 x2 x3 rk : W) : W := x0 ^^^ t0 (x1 ^^^ x2 ^^^ x3 ^^^ rk)

/-- The round loop of `SM4Feistel`, `sm4.c:104-112`: `n` iterations. -/
def loop (rk : List W) (rev : Bool) (X : List W) (n : Nat) : List W :=
  (List.range n).foldl (fun X i =>
    X.set (i % 4) (rndF (X.getD ((i + 0) % 4) 0) (X.getD ((i + 1) % 4) 0) (X.getD ((i + 2) % 4) 0) (X.getD ((i + 3) % 4) 0)
      (rk.getD (if rev then 31 - i else i) 0))) X

/-- `SM4Feistel`, `sm4.c:90-115`. -/
def feistel (inp : List Byte) (rk : List W) (rev : Bool) : List Byte :=
  let X := [ld32 inp 0, ld32 inp 1, ld32 inp 2, ld32 inp 3]
  let X := loop rk rev X 32
  st32 (X.getD 3 0) ++ st32 (X.getD 2 0) ++ st32 (X.getD 1 0) ++ st32 (X.getD 0 0)

/-- `SM4Encrypt`, `SM4Decrypt`, `sm4.c:117-125`. -/
def encrypt (inp : List Byte) (rk : List W) : List Byte := feistel inp rk false
def decrypt (inp : List Byte) (rk : List W) : List Byte := feistel inp rk true

/-- `FK`, `sm4.c:127-129`; `CK`, `:131-140`. -/
def FK : List W := [0xA3B1BAC6#32, 0x56AA3350#32, 0x677D9197#32, 0xB27022DC#32]
def CK : List W := [
  0x00070E15#32, 0x1C232A31#32, 0x383F464D#32, 0x545B6269#32,
  0x70777E85#32, 0x8C939AA1#32, 0xA8AFB6BD#32, 0xC4CBD2D9#32,
  0xE0E7EEF5#32, 0xFC030A11#32, 0x181F262D#32, 0x343B4249#32,
  0x50575E65#32, 0x6C737A81#32, 0x888F969D#32, 0xA4ABB2B9#32,
  0xC0C7CED5#32, 0xDCE3EAF1#32, 0xF8FF060D#32, 0x141B2229#32,
  0x30373E45#32, 0x4C535A61#32, 0x686F767D#32, 0x848B9299#32,
  0xA0A7AEB5#32, 0xBCC3CAD1#32, 0xD8DFE6ED#32, 0xF4FB0209#32,
  0x10171E25#32, 0x2C333A41#32, 0x484F565D#32, 0x646B7279#32]

/-- The loop of `SM4KeySched`, `sm4.c:151-156`; the state is `(K, rk)`. -/
def ksLoop (K : List W) (n : Nat) : List W × List W :=
  (List.range n).foldl (fun (s : List W × List W) i =>
    let k := s.1.getD (i % 4) 0 ^^^ t1 (s.1.getD ((i + 1) % 4) 0 ^^^ s.1.getD ((i + 2) % 4) 0 ^^^ s.1.getD ((i + 3) % 4) 0 ^^^ CK.getD i 0)
    (s.1.set (i % 4) k, s.2 ++ [k])) (K, [])

/-- `SM4KeySched`, `sm4.c:142-157`. -/
def keySched (key : List Byte) : List W :=
  let K := [ld32 key 0 ^^^ FK.getD 0 0, ld32 key 1 ^^^ FK.getD 1 0, ld32 key 2 ^^^ FK.getD 2 0, ld32 key 3 ^^^ FK.getD 3 0]
  (ksLoop K 32).2

end Sm4
