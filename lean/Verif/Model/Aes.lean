import Verif.Model.Sbox

/-!
# Model of `src/1-symm/rijndael.c`

The portable implementation; the intrinsic ones are not modelled.  Words are loaded and stored little endian.
-/
namespace Aes
open Sbox (W widen wsbox invwsbox)
abbrev Byte := BitVec 8

/-- `wsbox_table`, `rijndael.c:9-26` (before widening). -/
def sboxTable : List (BitVec 8) := [
  0x63#8, 0x7c#8, 0x77#8, 0x7b#8, 0xf2#8, 0x6b#8, 0x6f#8, 0xc5#8, 0x30#8, 0x01#8, 0x67#8, 0x2b#8, 0xfe#8, 0xd7#8, 0xab#8, 0x76#8,
  0xca#8, 0x82#8, 0xc9#8, 0x7d#8, 0xfa#8, 0x59#8, 0x47#8, 0xf0#8, 0xad#8, 0xd4#8, 0xa2#8, 0xaf#8, 0x9c#8, 0xa4#8, 0x72#8, 0xc0#8,
  0xb7#8, 0xfd#8, 0x93#8, 0x26#8, 0x36#8, 0x3f#8, 0xf7#8, 0xcc#8, 0x34#8, 0xa5#8, 0xe5#8, 0xf1#8, 0x71#8, 0xd8#8, 0x31#8, 0x15#8,
  0x04#8, 0xc7#8, 0x23#8, 0xc3#8, 0x18#8, 0x96#8, 0x05#8, 0x9a#8, 0x07#8, 0x12#8, 0x80#8, 0xe2#8, 0xeb#8, 0x27#8, 0xb2#8, 0x75#8,
  0x09#8, 0x83#8, 0x2c#8, 0x1a#8, 0x1b#8, 0x6e#8, 0x5a#8, 0xa0#8, 0x52#8, 0x3b#8, 0xd6#8, 0xb3#8, 0x29#8, 0xe3#8, 0x2f#8, 0x84#8,
  0x53#8, 0xd1#8, 0x00#8, 0xed#8, 0x20#8, 0xfc#8, 0xb1#8, 0x5b#8, 0x6a#8, 0xcb#8, 0xbe#8, 0x39#8, 0x4a#8, 0x4c#8, 0x58#8, 0xcf#8,
  0xd0#8, 0xef#8, 0xaa#8, 0xfb#8, 0x43#8, 0x4d#8, 0x33#8, 0x85#8, 0x45#8, 0xf9#8, 0x02#8, 0x7f#8, 0x50#8, 0x3c#8, 0x9f#8, 0xa8#8,
  0x51#8, 0xa3#8, 0x40#8, 0x8f#8, 0x92#8, 0x9d#8, 0x38#8, 0xf5#8, 0xbc#8, 0xb6#8, 0xda#8, 0x21#8, 0x10#8, 0xff#8, 0xf3#8, 0xd2#8,
  0xcd#8, 0x0c#8, 0x13#8, 0xec#8, 0x5f#8, 0x97#8, 0x44#8, 0x17#8, 0xc4#8, 0xa7#8, 0x7e#8, 0x3d#8, 0x64#8, 0x5d#8, 0x19#8, 0x73#8,
  0x60#8, 0x81#8, 0x4f#8, 0xdc#8, 0x22#8, 0x2a#8, 0x90#8, 0x88#8, 0x46#8, 0xee#8, 0xb8#8, 0x14#8, 0xde#8, 0x5e#8, 0x0b#8, 0xdb#8,
  0xe0#8, 0x32#8, 0x3a#8, 0x0a#8, 0x49#8, 0x06#8, 0x24#8, 0x5c#8, 0xc2#8, 0xd3#8, 0xac#8, 0x62#8, 0x91#8, 0x95#8, 0xe4#8, 0x79#8,
  0xe7#8, 0xc8#8, 0x37#8, 0x6d#8, 0x8d#8, 0xd5#8, 0x4e#8, 0xa9#8, 0x6c#8, 0x56#8, 0xf4#8, 0xea#8, 0x65#8, 0x7a#8, 0xae#8, 0x08#8,
  0xba#8, 0x78#8, 0x25#8, 0x2e#8, 0x1c#8, 0xa6#8, 0xb4#8, 0xc6#8, 0xe8#8, 0xdd#8, 0x74#8, 0x1f#8, 0x4b#8, 0xbd#8, 0x8b#8, 0x8a#8,
  0x70#8, 0x3e#8, 0xb5#8, 0x66#8, 0x48#8, 0x03#8, 0xf6#8, 0x0e#8, 0x61#8, 0x35#8, 0x57#8, 0xb9#8, 0x86#8, 0xc1#8, 0x1d#8, 0x9e#8,
  0xe1#8, 0xf8#8, 0x98#8, 0x11#8, 0x69#8, 0xd9#8, 0x8e#8, 0x94#8, 0x9b#8, 0x1e#8, 0x87#8, 0xe9#8, 0xce#8, 0x55#8, 0x28#8, 0xdf#8,
  0x8c#8, 0xa1#8, 0x89#8, 0x0d#8, 0xbf#8, 0xe6#8, 0x42#8, 0x68#8, 0x41#8, 0x99#8, 0x2d#8, 0x0f#8, 0xb0#8, 0x54#8, 0xbb#8, 0x16#8]

/-- `#define CALC(b,i) (uint32_t)b*0x01010101, (uint32_t)i*0x01010101`, `rijndael.c:7`. -/
def entry (i : Nat) : W × W := ((sboxTable.getD i 0).setWidth 32 * 0x01010101#32, BitVec.ofNat 32 i * 0x01010101#32)

/-- The 512-word table, `rijndael.c:9`. -/
def table : List W := widen entry

/-- `xtime`, `rijndael.c:28-32`. -/
def xtime (x : BitVec 16) : Byte :=
  let y : BitVec 32 := x.setWidth 32 <<< 1
  let x : BitVec 16 := ((y &&& 0x00ff#32) - (y &&& 0x0100#32)).setWidth 16
  (x ^^^ ((x >>> 8) &&& 0x1b#16)).setWidth 8

/-- `gmul`, `rijndael.c:36-51`; the state is `(x, a)`. -/
def gmul (a b : Byte) : Byte :=
  ((List.range 8).foldl (fun (s : Byte × Byte) i => ((if b.getLsbD i then s.1 ^^^ s.2 else s.1), xtime (s.2.setWidth 16))) (0, a)).1

/-- `s(r,c)`, `rijndael.c:54`. -/
def at' (st : List Byte) (r c : Nat) : Byte := st.getD (r + c * 4) 0
def put (st : List Byte) (r c : Nat) (v : Byte) : List Byte := st.set (r + c * 4) v

/-- `((uint32_t *)state)[i]`. -/
def word (st : List Byte) (i : Nat) : W := st.getD (4 * i + 3) 0 ++ st.getD (4 * i + 2) 0 ++ st.getD (4 * i + 1) 0 ++ st.getD (4 * i) 0

/-- The bytes of a word in memory. -/
def bytes (w : W) : List Byte := [w.setWidth 8, (w >>> 8).setWidth 8, (w >>> 16).setWidth 8, (w >>> 24).setWidth 8]

/-- `SubBytes`, `rijndael.c:56-62`. -/
def subBytes (st : List Byte) : List Byte := (List.range 4).flatMap fun i => bytes (wsbox (word st i) table)

/-- `ShiftRows`, `rijndael.c:64-86`. -/
def shiftRows (st : List Byte) : List Byte :=
  let x := at' st 1 0
  let st := put st 1 0 (at' st 1 1)
  let st := put st 1 1 (at' st 1 2)
  let st := put st 1 2 (at' st 1 3)
  let st := put st 1 3 x
  let x := at' st 2 0
  let st := put st 2 0 (at' st 2 2)
  let st := put st 2 2 x
  let x := at' st 2 1
  let st := put st 2 1 (at' st 2 3)
  let st := put st 2 3 x
  let x := at' st 3 3
  let st := put st 3 3 (at' st 3 2)
  let st := put st 3 2 (at' st 3 1)
  let st := put st 3 1 (at' st 3 0)
  put st 3 0 x

/-- The triple loop of `MixColumns`, `rijndael.c:88-101`, and `InvMixColumns`, `:142-155`. -/
def mix (a : List Byte) (st : List Byte) : List Byte :=
  (List.range 4).flatMap fun c => (List.range 4).map fun r =>
    (List.range 4).foldl (fun x i => x ^^^ gmul (at' st i c) (a.getD ((i + 7 - r) % 4) 0)) 0

def mixColumns (st : List Byte) : List Byte := mix [0x03#8, 0x01#8, 0x01#8, 0x02#8] st

/-- `AddRoundKey(state, w + off)`, `rijndael.c:103-108`. -/
def addRoundKey (st w : List Byte) (off : Nat) : List Byte := (List.range 16).map fun i => st.getD i 0 ^^^ w.getD (off + i) 0

/-- `InvShiftRows`, `rijndael.c:110-132`. -/
def invShiftRows (st : List Byte) : List Byte :=
  let x := at' st 1 3
  let st := put st 1 3 (at' st 1 2)
  let st := put st 1 2 (at' st 1 1)
  let st := put st 1 1 (at' st 1 0)
  let st := put st 1 0 x
  let x := at' st 2 3
  let st := put st 2 3 (at' st 2 1)
  let st := put st 2 1 x
  let x := at' st 2 2
  let st := put st 2 2 (at' st 2 0)
  let st := put st 2 0 x
  let x := at' st 3 0
  let st := put st 3 0 (at' st 3 1)
  let st := put st 3 1 (at' st 3 2)
  let st := put st 3 2 (at' st 3 3)
  put st 3 3 x

/-- `InvSubBytes`, `rijndael.c:134-140`. -/
def invSubBytes (st : List Byte) : List Byte := (List.range 4).flatMap fun i => bytes (invwsbox (word st i) table)

def invMixColumns (st : List Byte) : List Byte := mix [0x0b#8, 0x0d#8, 0x09#8, 0x0e#8] st

/-- `Rijndael_Nb4_Cipher`, `rijndael.c:166-186`. -/
def cipher (inp w : List Byte) (Nr : Nat) : List Byte :=
  let out := (List.range 16).map fun i => inp.getD i 0
  let out := addRoundKey out w 0
  let out := (List.range (Nr - 1)).foldl (fun out j =>
    let i := j + 1
    addRoundKey (mixColumns (shiftRows (subBytes out))) w (i * 16)) out
  addRoundKey (shiftRows (subBytes out)) w (Nr * 16)

/-- The loop `for(i=Nr; --i>0; )` of `Rijndael_Nb4_InvCipher`, `rijndael.c:204-209`. -/
def invLoop (w : List Byte) : Nat → List Byte → List Byte
  | 0, out => out
  | i + 1, out => invLoop w i (invMixColumns (addRoundKey (invSubBytes (invShiftRows out)) w ((i + 1) * 16)))

/-- `Rijndael_Nb4_InvCipher`, `rijndael.c:194-214`. -/
def invCipher (inp w : List Byte) (Nr : Nat) : List Byte :=
  let out := (List.range 16).map fun i => inp.getD i 0
  let out := addRoundKey out w (Nr * 16)
  let out := invLoop w (Nr - 1) out
  addRoundKey (invSubBytes (invShiftRows out)) w 0

/-- One iteration of the second loop of `Rijndael_Nb4_KeyExpansion`, `rijndael.c:236-253`; the state is the words so far
(as values of `le32toh`) and `Rcon`. -/
def expandStep (Nk : Nat) (s : List W × Byte) (i : Nat) : List W × Byte :=
  let temp := s.1.getD (i - 1) 0
  let (temp, Rcon) :=
    if i % Nk = 0 then
      let temp := wsbox temp table
      let temp := temp >>> 8 ||| temp <<< 24
      (temp ^^^ s.2.setWidth 32, xtime (s.2.setWidth 16))
    else if Nk > 6 ∧ i % Nk = 4 then (wsbox temp table, s.2)
    else (temp, s.2)
  (s.1 ++ [s.1.getD (i - Nk) 0 ^^^ temp], Rcon)

/-- `Rijndael_Nb4_KeyExpansion`, `rijndael.c:224-254`: the bytes of `w`. -/
def keyExpansion (key : List Byte) (Nk Nr : Nat) : List Byte :=
  let w := (List.range Nk).map fun i => word key i
  let w := ((List.range (4 * (Nr + 1) - Nk)).foldl (fun s d => expandStep Nk s (Nk + d)) (w, 1#8)).1
  w.flatMap bytes

end Aes
