import Verif.Model.Sbox
import Verif.Model.Endian

/-!
# Model of `src/1-symm-national/camellia.c`
-/
namespace Camellia
open Sbox (W widen wsbox)
open Endian
abbrev Byte := BitVec 8
abbrev D := BitVec 64

/-- `wsbox_table`, `camellia.c:16-33` (before widening). -/
def sboxTable : List (BitVec 8) := [
  0x70#8, 0x82#8, 0x2c#8, 0xec#8, 0xb3#8, 0x27#8, 0xc0#8, 0xe5#8, 0xe4#8, 0x85#8, 0x57#8, 0x35#8, 0xea#8, 0x0c#8, 0xae#8, 0x41#8,
  0x23#8, 0xef#8, 0x6b#8, 0x93#8, 0x45#8, 0x19#8, 0xa5#8, 0x21#8, 0xed#8, 0x0e#8, 0x4f#8, 0x4e#8, 0x1d#8, 0x65#8, 0x92#8, 0xbd#8,
  0x86#8, 0xb8#8, 0xaf#8, 0x8f#8, 0x7c#8, 0xeb#8, 0x1f#8, 0xce#8, 0x3e#8, 0x30#8, 0xdc#8, 0x5f#8, 0x5e#8, 0xc5#8, 0x0b#8, 0x1a#8,
  0xa6#8, 0xe1#8, 0x39#8, 0xca#8, 0xd5#8, 0x47#8, 0x5d#8, 0x3d#8, 0xd9#8, 0x01#8, 0x5a#8, 0xd6#8, 0x51#8, 0x56#8, 0x6c#8, 0x4d#8,
  0x8b#8, 0x0d#8, 0x9a#8, 0x66#8, 0xfb#8, 0xcc#8, 0xb0#8, 0x2d#8, 0x74#8, 0x12#8, 0x2b#8, 0x20#8, 0xf0#8, 0xb1#8, 0x84#8, 0x99#8,
  0xdf#8, 0x4c#8, 0xcb#8, 0xc2#8, 0x34#8, 0x7e#8, 0x76#8, 0x05#8, 0x6d#8, 0xb7#8, 0xa9#8, 0x31#8, 0xd1#8, 0x17#8, 0x04#8, 0xd7#8,
  0x14#8, 0x58#8, 0x3a#8, 0x61#8, 0xde#8, 0x1b#8, 0x11#8, 0x1c#8, 0x32#8, 0x0f#8, 0x9c#8, 0x16#8, 0x53#8, 0x18#8, 0xf2#8, 0x22#8,
  0xfe#8, 0x44#8, 0xcf#8, 0xb2#8, 0xc3#8, 0xb5#8, 0x7a#8, 0x91#8, 0x24#8, 0x08#8, 0xe8#8, 0xa8#8, 0x60#8, 0xfc#8, 0x69#8, 0x50#8,
  0xaa#8, 0xd0#8, 0xa0#8, 0x7d#8, 0xa1#8, 0x89#8, 0x62#8, 0x97#8, 0x54#8, 0x5b#8, 0x1e#8, 0x95#8, 0xe0#8, 0xff#8, 0x64#8, 0xd2#8,
  0x10#8, 0xc4#8, 0x00#8, 0x48#8, 0xa3#8, 0xf7#8, 0x75#8, 0xdb#8, 0x8a#8, 0x03#8, 0xe6#8, 0xda#8, 0x09#8, 0x3f#8, 0xdd#8, 0x94#8,
  0x87#8, 0x5c#8, 0x83#8, 0x02#8, 0xcd#8, 0x4a#8, 0x90#8, 0x33#8, 0x73#8, 0x67#8, 0xf6#8, 0xf3#8, 0x9d#8, 0x7f#8, 0xbf#8, 0xe2#8,
  0x52#8, 0x9b#8, 0xd8#8, 0x26#8, 0xc8#8, 0x37#8, 0xc6#8, 0x3b#8, 0x81#8, 0x96#8, 0x6f#8, 0x4b#8, 0x13#8, 0xbe#8, 0x63#8, 0x2e#8,
  0xe9#8, 0x79#8, 0xa7#8, 0x8c#8, 0x9f#8, 0x6e#8, 0xbc#8, 0x8e#8, 0x29#8, 0xf5#8, 0xf9#8, 0xb6#8, 0x2f#8, 0xfd#8, 0xb4#8, 0x59#8,
  0x78#8, 0x98#8, 0x06#8, 0x6a#8, 0xe7#8, 0x46#8, 0x71#8, 0xba#8, 0xd4#8, 0x25#8, 0xab#8, 0x42#8, 0x88#8, 0xa2#8, 0x8d#8, 0xfa#8,
  0x72#8, 0x07#8, 0xb9#8, 0x55#8, 0xf8#8, 0xee#8, 0xac#8, 0x0a#8, 0x36#8, 0x49#8, 0x2a#8, 0x68#8, 0x3c#8, 0x38#8, 0xf1#8, 0xa4#8,
  0x40#8, 0x28#8, 0xd3#8, 0x7b#8, 0xbb#8, 0xc9#8, 0x43#8, 0xc1#8, 0x15#8, 0xe3#8, 0xad#8, 0xf4#8, 0x77#8, 0xc7#8, 0x80#8, 0x9e#8]

/-- `CALC`, `camellia.c:7-14`; `b` and `i` are at most 255. -/
def entry (i : Nat) : W × W :=
  let b : W := (sboxTable.getD i 0).setWidth 32
  let i : W := BitVec.ofNat 32 i
  (b <<< 24 ||| (b &&& 0x7f#32) <<< 17 ||| (b &&& 0x80#32) <<< 9 ||| (b &&& 0xfe#32) <<< 7 ||| (b &&& 0x01#32) <<< 15 ||| b,
   i * 0x01010100#32 ||| (i &&& 0xfe#32) >>> 1 ||| (i &&& 0x01#32) <<< 7)
def table : List W := widen entry

/-- `func_S`, `camellia.c:73-84`. -/
def func_S (x : D) : D :=
  let hi := wsbox ((x >>> 32).setWidth 32) table
  let lo : W := x.setWidth 32
  let lo := lo <<< 24 ||| lo >>> 8
  let lo := wsbox lo table
  let lo := lo >>> 24 ||| lo <<< 8
  (hi.setWidth 64 <<< 32) ||| lo.setWidth 64

/-- `xmask_bytes`, `camellia.c:86-93`. -/
def xmask (x m : D) : D :=
  let ret := x &&& m
  let ret := ret ^^^ ret >>> 32
  let ret := ret ^^^ ret >>> 16
  let ret := ret ^^^ ret >>> 8
  ret &&& 0xFF#64

/-- `func_P`, `camellia.c:95-106`. -/
def func_P (x : D) : D :=
  xmask x 0xFF00FFFF00FFFFFF#64 <<< 56 |||
  xmask x 0xFFFF00FFFF00FFFF#64 <<< 48 |||
  xmask x 0xFFFFFF00FFFF00FF#64 <<< 40 |||
  xmask x 0x00FFFFFFFFFFFF00#64 <<< 32 |||
  xmask x 0xFFFF000000FFFFFF#64 <<< 24 |||
  xmask x 0x00FFFF00FF00FFFF#64 <<< 16 |||
  xmask x 0x0000FFFFFFFF00FF#64 <<< 8 |||
  xmask x 0xFF0000FFFFFFFF00#64

/-- `func_F`, `camellia.c:42-45`. -/
def func_F (X k : D) : D := func_P (func_S (X ^^^ k))

/-- `func_FL`, `camellia.c:47-58`. -/
def func_FL (X kl : D) : D :=
  let X_L : W := (X >>> 32).setWidth 32
  let X_R : W := X.setWidth 32
  let kl_L : W := (kl >>> 32).setWidth 32
  let kl_R : W := kl.setWidth 32
  let Y_R := X_L &&& kl_L
  let Y_R := Y_R <<< 1 ||| Y_R >>> 31
  let Y_R := Y_R ^^^ X_R
  let Y_L := Y_R ||| kl_R
  let Y_L := Y_L ^^^ X_L
  (Y_L.setWidth 64 <<< 32) ||| Y_R.setWidth 64

/-- `invf_FL`, `camellia.c:60-71`. -/
def invf_FL (Y kl : D) : D :=
  let Y_L : W := (Y >>> 32).setWidth 32
  let Y_R : W := Y.setWidth 32
  let kl_L : W := (kl >>> 32).setWidth 32
  let kl_R : W := kl.setWidth 32
  let X_L := Y_R ||| kl_R
  let X_L := X_L ^^^ Y_L
  let X_R := X_L &&& kl_L
  let X_R := X_R <<< 1 ||| X_R >>> 31
  let X_R := X_R ^^^ Y_R
  (X_L.setWidth 64 <<< 32) ||| X_R.setWidth 64

/-- `camellia128_kschd_t`, `camellia256_kschd_t`, `camellia.h`. The 128-bit schedule leaves the `R` and `B` fields absent. -/
structure Key where
  LL : D
  LR : D
  AL : D
  AR : D
  RL : D := 0
  RR : D := 0
  BL : D := 0
  BR : D := 0

/-- The statements occurring in the cipher bodies, acting on the variables `l` and `r`. -/
inductive Op where
  | lX (k : D)    -- l ^= k
  | rX (k : D)    -- r ^= k
  | lF (k : D)    -- l ^= func_F(r, k)
  | rF (k : D)    -- r ^= func_F(l, k)
  | lFL (k : D)   -- l = func_FL(l, k)
  | rFL (k : D)   -- r = func_FL(r, k)
  | lInv (k : D)  -- l = invf_FL(l, k)
  | rInv (k : D)  -- r = invf_FL(r, k)

def Op.exec : Op → D × D → D × D
  | .lX k, (l, r) => (l ^^^ k, r)
  | .rX k, (l, r) => (l, r ^^^ k)
  | .lF k, (l, r) => (l ^^^ func_F r k, r)
  | .rF k, (l, r) => (l, r ^^^ func_F l k)
  | .lFL k, (l, r) => (func_FL l k, r)
  | .rFL k, (l, r) => (l, func_FL r k)
  | .lInv k, (l, r) => (invf_FL l k, r)
  | .rInv k, (l, r) => (l, invf_FL r k)

def run (p : List Op) (s : D × D) : D × D := p.foldl (fun s o => o.exec s) s

/-- `Camellia128_Encrypt`, `camellia.c:198-229`. -/
def enc128 (k : Key) : List Op := [
  .lX k.LL,
  .rX k.LR,
  .rF k.AL,
  .lF k.AR,
  .rF (k.LL <<< 15 ||| k.LR >>> 49),
  .lF (k.LR <<< 15 ||| k.LL >>> 49),
  .rF (k.AL <<< 15 ||| k.AR >>> 49),
  .lF (k.AR <<< 15 ||| k.AL >>> 49),
  .lFL (k.AL <<< 30 ||| k.AR >>> 34),
  .rInv (k.AR <<< 30 ||| k.AL >>> 34),
  .rF (k.LL <<< 45 ||| k.LR >>> 19),
  .lF (k.LR <<< 45 ||| k.LL >>> 19),
  .rF (k.AL <<< 45 ||| k.AR >>> 19),
  .lF (k.LR <<< 60 ||| k.LL >>> 4),
  .rF (k.AL <<< 60 ||| k.AR >>> 4),
  .lF (k.AR <<< 60 ||| k.AL >>> 4),
  .lFL (k.LR <<< 13 ||| k.LL >>> 51),
  .rInv (k.LL <<< 13 ||| k.LR >>> 51),
  .rF (k.LR <<< 30 ||| k.LL >>> 34),
  .lF (k.LL <<< 30 ||| k.LR >>> 34),
  .rF (k.AR <<< 30 ||| k.AL >>> 34),
  .lF (k.AL <<< 30 ||| k.AR >>> 34),
  .rF (k.LR <<< 47 ||| k.LL >>> 17),
  .lF (k.LL <<< 47 ||| k.LR >>> 17),
  .rX (k.AR <<< 47 ||| k.AL >>> 17),
  .lX (k.AL <<< 47 ||| k.AR >>> 17)]

/-- `Camellia128_Decrypt`, `camellia.c:243-274`. -/
def dec128 (k : Key) : List Op := [
  .lX (k.AL <<< 47 ||| k.AR >>> 17),
  .rX (k.AR <<< 47 ||| k.AL >>> 17),
  .lF (k.LL <<< 47 ||| k.LR >>> 17),
  .rF (k.LR <<< 47 ||| k.LL >>> 17),
  .lF (k.AL <<< 30 ||| k.AR >>> 34),
  .rF (k.AR <<< 30 ||| k.AL >>> 34),
  .lF (k.LL <<< 30 ||| k.LR >>> 34),
  .rF (k.LR <<< 30 ||| k.LL >>> 34),
  .rFL (k.LL <<< 13 ||| k.LR >>> 51),
  .lInv (k.LR <<< 13 ||| k.LL >>> 51),
  .lF (k.AR <<< 60 ||| k.AL >>> 4),
  .rF (k.AL <<< 60 ||| k.AR >>> 4),
  .lF (k.LR <<< 60 ||| k.LL >>> 4),
  .rF (k.AL <<< 45 ||| k.AR >>> 19),
  .lF (k.LR <<< 45 ||| k.LL >>> 19),
  .rF (k.LL <<< 45 ||| k.LR >>> 19),
  .rFL (k.AR <<< 30 ||| k.AL >>> 34),
  .lInv (k.AL <<< 30 ||| k.AR >>> 34),
  .lF (k.AR <<< 15 ||| k.AL >>> 49),
  .rF (k.AL <<< 15 ||| k.AR >>> 49),
  .lF (k.LR <<< 15 ||| k.LL >>> 49),
  .rF (k.LL <<< 15 ||| k.LR >>> 49),
  .lF k.AR,
  .rF k.AL,
  .rX k.LR,
  .lX k.LL]

/-- `Camellia256_Encrypt` (also used for 192-bit keys), `camellia.c:288-329`. -/
def enc256 (k : Key) : List Op := [
  .lX k.LL,
  .rX k.LR,
  .rF k.BL,
  .lF k.BR,
  .rF (k.RL <<< 15 ||| k.RR >>> 49),
  .lF (k.RR <<< 15 ||| k.RL >>> 49),
  .rF (k.AL <<< 15 ||| k.AR >>> 49),
  .lF (k.AR <<< 15 ||| k.AL >>> 49),
  .lFL (k.RL <<< 30 ||| k.RR >>> 34),
  .rInv (k.RR <<< 30 ||| k.RL >>> 34),
  .rF (k.BL <<< 30 ||| k.BR >>> 34),
  .lF (k.BR <<< 30 ||| k.BL >>> 34),
  .rF (k.LL <<< 45 ||| k.LR >>> 19),
  .lF (k.LR <<< 45 ||| k.LL >>> 19),
  .rF (k.AL <<< 45 ||| k.AR >>> 19),
  .lF (k.AR <<< 45 ||| k.AL >>> 19),
  .lFL (k.LL <<< 60 ||| k.LR >>> 4),
  .rInv (k.LR <<< 60 ||| k.LL >>> 4),
  .rF (k.RL <<< 60 ||| k.RR >>> 4),
  .lF (k.RR <<< 60 ||| k.RL >>> 4),
  .rF (k.BL <<< 60 ||| k.BR >>> 4),
  .lF (k.BR <<< 60 ||| k.BL >>> 4),
  .rF (k.LR <<< 13 ||| k.LL >>> 51),
  .lF (k.LL <<< 13 ||| k.LR >>> 51),
  .lFL (k.AR <<< 13 ||| k.AL >>> 51),
  .rInv (k.AL <<< 13 ||| k.AR >>> 51),
  .rF (k.RR <<< 30 ||| k.RL >>> 34),
  .lF (k.RL <<< 30 ||| k.RR >>> 34),
  .rF (k.AR <<< 30 ||| k.AL >>> 34),
  .lF (k.AL <<< 30 ||| k.AR >>> 34),
  .rF (k.LR <<< 47 ||| k.LL >>> 17),
  .lF (k.LL <<< 47 ||| k.LR >>> 17),
  .rX (k.BR <<< 47 ||| k.BL >>> 17),
  .lX (k.BL <<< 47 ||| k.BR >>> 17)]

/-- `Camellia256_Decrypt`, `camellia.c:343-384`. -/
def dec256 (k : Key) : List Op := [
  .lX (k.BL <<< 47 ||| k.BR >>> 17),
  .rX (k.BR <<< 47 ||| k.BL >>> 17),
  .lF (k.LL <<< 47 ||| k.LR >>> 17),
  .rF (k.LR <<< 47 ||| k.LL >>> 17),
  .lF (k.AL <<< 30 ||| k.AR >>> 34),
  .rF (k.AR <<< 30 ||| k.AL >>> 34),
  .lF (k.RL <<< 30 ||| k.RR >>> 34),
  .rF (k.RR <<< 30 ||| k.RL >>> 34),
  .rFL (k.AL <<< 13 ||| k.AR >>> 51),
  .lInv (k.AR <<< 13 ||| k.AL >>> 51),
  .lF (k.LL <<< 13 ||| k.LR >>> 51),
  .rF (k.LR <<< 13 ||| k.LL >>> 51),
  .lF (k.BR <<< 60 ||| k.BL >>> 4),
  .rF (k.BL <<< 60 ||| k.BR >>> 4),
  .lF (k.RR <<< 60 ||| k.RL >>> 4),
  .rF (k.RL <<< 60 ||| k.RR >>> 4),
  .rFL (k.LR <<< 60 ||| k.LL >>> 4),
  .lInv (k.LL <<< 60 ||| k.LR >>> 4),
  .lF (k.AR <<< 45 ||| k.AL >>> 19),
  .rF (k.AL <<< 45 ||| k.AR >>> 19),
  .lF (k.LR <<< 45 ||| k.LL >>> 19),
  .rF (k.LL <<< 45 ||| k.LR >>> 19),
  .lF (k.BR <<< 30 ||| k.BL >>> 34),
  .rF (k.BL <<< 30 ||| k.BR >>> 34),
  .rFL (k.RR <<< 30 ||| k.RL >>> 34),
  .lInv (k.RL <<< 30 ||| k.RR >>> 34),
  .lF (k.AR <<< 15 ||| k.AL >>> 49),
  .rF (k.AL <<< 15 ||| k.AR >>> 49),
  .lF (k.RR <<< 15 ||| k.RL >>> 49),
  .rF (k.RL <<< 15 ||| k.RR >>> 49),
  .lF k.BR,
  .rF k.BL,
  .rX k.LR,
  .lX k.LL]

/-- Loads and stores of the encryption functions: `camellia.c:195-196`, `:231-232` (`:285-286`, `:331-332`). -/
def encBlock (p : List Op) (inp : List Byte) : List Byte :=
  let s := run p (ld64 inp 0, ld64 inp 1)
  st64 s.2 ++ st64 s.1

/-- Loads and stores of the decryption functions: `camellia.c:240-241`, `:276-277` (`:340-341`, `:386-387`). -/
def decBlock (p : List Op) (inp : List Byte) : List Byte :=
  let s := run p (ld64 inp 1, ld64 inp 0)
  st64 s.1 ++ st64 s.2

def encrypt128 (inp : List Byte) (k : Key) : List Byte := encBlock (enc128 k) inp
def decrypt128 (inp : List Byte) (k : Key) : List Byte := decBlock (dec128 k) inp
def encrypt256 (inp : List Byte) (k : Key) : List Byte := encBlock (enc256 k) inp
def decrypt256 (inp : List Byte) (k : Key) : List Byte := decBlock (dec256 k) inp

/-- `Sigma1` .. `Sigma6`, `camellia.c:108-113`. -/
def sigma1 : D := 0xA09E667F3BCC908B#64
def sigma2 : D := 0xB67AE8584CAA73B2#64
def sigma3 : D := 0xC6EF372FE94F82BE#64
def sigma4 : D := 0x54FF53A5F1D36F1C#64
def sigma5 : D := 0x10E527FADE682D1D#64
def sigma6 : D := 0xB05688C2B3E6C1FD#64

/-- `Camellia_KeySched128`, `camellia.c:115-134`; `k`, `k_l` as values of `be64toh`. -/
def ks128 (k0 k1 kl0 kl1 : D) : Key :=
  let l := k0
  let r := k1
  let r := r ^^^ func_F l sigma1
  let l := l ^^^ func_F r sigma2
  let l := l ^^^ kl0
  let r := r ^^^ kl1
  let r := r ^^^ func_F l sigma3
  let l := l ^^^ func_F r sigma4
  { LL := kl0, LR := kl1, AL := l, AR := r }

/-- `Camellia_KeySched256`, `camellia.c:136-150`. -/
def ks256 (kr0 kr1 : D) (kw : Key) : Key :=
  let l := kr0
  let r := kr1
  let l := l ^^^ kw.AL
  let r := r ^^^ kw.AR
  let r := r ^^^ func_F l sigma5
  let l := l ^^^ func_F r sigma6
  { kw with RL := kr0, RR := kr1, BL := l, BR := r }

/-- `Camellia128_KeySched`, `camellia.c:152-155`. -/
def keySched128 (key : List Byte) : Key := ks128 (ld64 key 0) (ld64 key 1) (ld64 key 0) (ld64 key 1)

/-- `Camellia192_KeySched`, `camellia.c:157-170` (exclusive-or and complement commute with byte swapping). -/
def keySched192 (key : List Byte) : Key :=
  let kw := ks128 (ld64 key 0 ^^^ ld64 key 2) (ld64 key 1 ^^^ ~~~ ld64 key 2) (ld64 key 0) (ld64 key 1)
  ks256 (ld64 key 2) (~~~ ld64 key 2) kw

/-- `Camellia256_KeySched`, `camellia.c:172-185`. -/
def keySched256 (key : List Byte) : Key :=
  let kw := ks128 (ld64 key 0 ^^^ ld64 key 2) (ld64 key 1 ^^^ ld64 key 3) (ld64 key 0) (ld64 key 1)
  ks256 (ld64 key 2) (ld64 key 3) kw

end Camellia
