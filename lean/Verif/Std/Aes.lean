import Verif.Model.Base
/-!
# The AES block cipher (FIPS 197)

`crypto/kwp.go` and `crypto/aes.go` call Go's `crypto/aes`.  This is the algorithm it documents, in the order of the
standard, so that the laws assumed of it elsewhere can be proved and the known-answer tests of the repository replayed.
It is not a model of code in /repo.
-/
namespace D1.Std
open D1

/-- SBOX(), table 4, entry 0x00 first. -/
def sboxTable : Nat := 0x637c777bf26b6fc53001672bfed7ab76ca82c97dfa5947f0add4a2af9ca472c0b7fd9326363ff7cc34a5e5f171d8311504c723c31896059a071280e2eb27b27509832c1a1b6e5aa0523bd6b329e32f8453d100ed20fcb15b6acbbe394a4c58cfd0efaafb434d338545f9027f503c9fa851a3408f929d38f5bcb6da2110fff3d2cd0c13ec5f974417c4a77e3d645d197360814fdc222a908846eeb814de5e0bdbe0323a0a4906245cc2d3ac629195e479e7c8376d8dd54ea96c56f4ea657aae08ba78252e1ca6b4c6e8dd741f4bbd8b8a703eb5664803f60e613557b986c11d9ee1f8981169d98e949b1e87e9ce5528df8ca1890dbfe6426841992d0fb054bb16

/-- INVSBOX(), table 6, entry 0x00 first. -/
def invSboxTable : Nat := 0x52096ad53036a538bf40a39e81f3d7fb7ce339829b2fff87348e4344c4dee9cb547b9432a6c2233dee4c950b42fac34e082ea16628d924b2765ba2496d8bd12572f8f66486689816d4a45ccc5d65b6926c704850fdedb9da5e154657a78d9d8490d8ab008cbcd30af7e45805b8b34506d02c1e8fca3f0f02c1afbd0301138a6b3a9111414f67dcea97f2cfcef0b4e67396ac7422e7ad3585e2f937e81c75df6e47f11a711d29c5896fb7620eaa18be1bfc563e4bc6d279209adbc0fe78cd5af41fdda8338807c731b11210592780ec5f60517fa919b54a0d2de57a9f93c99cefa0e03b4dae2af5b0c8ebbb3c83539961172b047eba77d626e169146355210c7d

def sbox (x : UInt8) : UInt8 := UInt8.ofNat (sboxTable >>> (8 * (255 - x.toNat)))
def invSbox (x : UInt8) : UInt8 := UInt8.ofNat (invSboxTable >>> (8 * (255 - x.toNat)))

/-- Multiplication by x in GF(2^8) (4.2). -/
def xtime (b : UInt8) : UInt8 := if b &&& 0x80 = 0 then b <<< 1 else (b <<< 1) ^^^ 0x1b

/-- Multiplication by the constants of MIXCOLUMNS() and INVMIXCOLUMNS(). -/
def mul2 (b : UInt8) : UInt8 := xtime b
def mul3 (b : UInt8) : UInt8 := xtime b ^^^ b
def mul9 (b : UInt8) : UInt8 := xtime (xtime (xtime b)) ^^^ b
def mul11 (b : UInt8) : UInt8 := xtime (xtime (xtime b)) ^^^ xtime b ^^^ b
def mul13 (b : UInt8) : UInt8 := xtime (xtime (xtime b)) ^^^ xtime (xtime b) ^^^ b
def mul14 (b : UInt8) : UInt8 := xtime (xtime (xtime b)) ^^^ xtime (xtime b) ^^^ xtime b

/-- Exclusive or of bytes; ADDROUNDKEY() (5.1.4) with a round key.  The state is kept in the order of the input bytes, column after column. -/
def xorBytes (rk s : Bytes) : Bytes := s.mapIdx fun i x => x ^^^ rk.getD i 0

/-- SUBBYTES() (5.1.1) and its inverse (5.3.2). -/
def subBytes (s : Bytes) : Bytes := s.map sbox
def invSubBytes (s : Bytes) : Bytes := s.map invSbox

/-- SHIFTROWS() (5.1.2): row `i % 4` moves left by `i % 4`; and its inverse (5.3.1). -/
def shiftRows (s : Bytes) : Bytes := (List.range 16).map fun i => s.getD (4 * ((i / 4 + i % 4) % 4) + i % 4) 0
def invShiftRows (s : Bytes) : Bytes := (List.range 16).map fun i => s.getD (4 * ((i / 4 + 4 - i % 4) % 4) + i % 4) 0

/-- MIXCOLUMNS() (5.1.3). -/
def mixColumns : Bytes → Bytes
  | a :: b :: c :: d :: r =>
    (mul2 a ^^^ mul3 b ^^^ c ^^^ d) :: (a ^^^ mul2 b ^^^ mul3 c ^^^ d) ::
    (a ^^^ b ^^^ mul2 c ^^^ mul3 d) :: (mul3 a ^^^ b ^^^ c ^^^ mul2 d) :: mixColumns r
  | r => r

/-- INVMIXCOLUMNS() (5.3.3). -/
def invMixColumns : Bytes → Bytes
  | a :: b :: c :: d :: r =>
    (mul14 a ^^^ mul11 b ^^^ mul13 c ^^^ mul9 d) :: (mul9 a ^^^ mul14 b ^^^ mul11 c ^^^ mul13 d) ::
    (mul13 a ^^^ mul9 b ^^^ mul14 c ^^^ mul11 d) :: (mul11 a ^^^ mul13 b ^^^ mul9 c ^^^ mul14 d) :: invMixColumns r
  | r => r

/-- Rcon (5.2): powers of x. -/
def rcon : Nat → UInt8
  | 0 => 0x8d
  | n + 1 => xtime (rcon n)

/-- One word of KEYEXPANSION() (algorithm 2, lines 8 to 16), `ws` holding the words before it, the last one first. -/
def nextWord (nk i : Nat) (ws : List Bytes) : Bytes :=
  let temp := ws.headD []
  let temp :=
    if i % nk = 0 then
      (subBytes (temp.drop 1 ++ temp.take 1)).mapIdx fun j x => if j = 0 then x ^^^ rcon (i / nk) else x
    else if nk > 6 ∧ i % nk = 4 then subBytes temp
    else temp
  xorBytes temp (ws.getD (nk - 1) [])

/-- KEYEXPANSION(): the words after the first `nk`, the last one first. -/
def expandFrom (nk : Nat) : Nat → Nat → List Bytes → List Bytes
  | 0, _, ws => ws
  | n + 1, i, ws => expandFrom nk n (i + 1) (nextWord nk i ws :: ws)

/-- Number of 32-bit words of the key: 4, 6 or 8.  Keys of any other length are not accepted by `aes.NewCipher`. -/
def keyWords (k : Bytes) : Nat := if k.length = 16 then 4 else if k.length = 24 then 6 else 8

/-- The round keys, first to last. -/
def roundKeys (k : Bytes) : List Bytes :=
  let nk := keyWords k
  let ws := (List.range nk).map fun i => (k.drop (4 * i)).take 4
  let all := (expandFrom nk (4 * (nk + 7) - nk) nk ws.reverse).reverse
  (List.range (nk + 7)).map fun r => (all.drop (4 * r)).take 4 |>.flatten

def aesRound (s rk : Bytes) : Bytes := xorBytes rk (mixColumns (shiftRows (subBytes s)))
def aesInvRound (s rk : Bytes) : Bytes := invMixColumns (xorBytes rk (invSubBytes (invShiftRows s)))

/-- CIPHER() (algorithm 1) with the given round keys. -/
def cipherWith (rks : List Bytes) (s : Bytes) : Bytes :=
  let s := xorBytes (rks.headD []) s
  let s := (rks.tail.dropLast).foldl aesRound s
  xorBytes (rks.getLastD []) (shiftRows (subBytes s))

/-- INVCIPHER() (algorithm 3) with the given round keys. -/
def invCipherWith (rks : List Bytes) (s : Bytes) : Bytes :=
  let s := xorBytes (rks.getLastD []) s
  let s := (rks.tail.dropLast).reverse.foldl aesInvRound s
  xorBytes (rks.headD []) (invSubBytes (invShiftRows s))

/-- The block cipher and its inverse. -/
def aesEnc (k b : Bytes) : Bytes := cipherWith (roundKeys k) b
def aesDec (k b : Bytes) : Bytes := invCipherWith (roundKeys k) b

end D1.Std
