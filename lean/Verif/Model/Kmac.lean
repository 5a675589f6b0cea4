import Verif.Model.Crypto
/-!
# crypto/kmac.go, crypto/kdf.go, crypto/tagger.go
-/
namespace D1

/-- First index `i` at or after `lo` with `i ≥ hi` or `b[i] ≠ 0`: the loops of crypto/kmac.go:129-131 and 142-144. -/
def skipZeros (b : Bytes) (hi : Nat) : Nat → Nat → Nat
  | 0, i => i
  | f + 1, i => if i < hi ∧ b.getD i 0 = 0 then skipZeros b hi f (i + 1) else i

/-- `leftEncode` (crypto/kmac.go:124-135). -/
def leftEncode (value : Nat) : Bytes :=
  let b : Bytes := 0 :: be64 value
  let i := skipZeros b 8 8 1
  let b := b.set (i - 1) (UInt8.ofNat (9 - i))
  b.drop (i - 1)

/-- `rightEncode` (crypto/kmac.go:137-148). -/
def rightEncode (value : Nat) : Bytes :=
  let b : Bytes := be64 value ++ [0]
  let i := skipZeros b 7 8 0
  let b := b.set 8 (UInt8.ofNat (8 - i))
  b.drop i

/-- `bytepad` (crypto/kmac.go:115-122). -/
def bytepad (input : Bytes) (w : Nat) : Bytes :=
  let buf := leftEncode w ++ input
  let padlen := w - buf.length % w
  buf ++ List.replicate padlen 0

/-- A cSHAKE context of golang.org/x/crypto/sha3: its rate, its initial block and the bytes absorbed so far.
`NewCShake256(N, S)` absorbs `bytepad(encode_string(N) || encode_string(S), rate)` first, with the same `bytepad` as
crypto/kmac.go. -/
structure CShake where
  rate : Nat
  initBlock : Bytes
  absorbed : Bytes

/-- `sha3.NewCShake128` / `NewCShake256` for a non-empty function name. -/
def newCShake (rate : Nat) (n s : Bytes) : CShake :=
  let ib := leftEncode (n.length * 8) ++ n ++ leftEncode (s.length * 8) ++ s
  ⟨rate, ib, bytepad ib rate⟩

def CShake.write (c : CShake) (p : Bytes) : CShake := { c with absorbed := c.absorbed ++ p }
def CShake.reset (c : CShake) : CShake := { c with absorbed := bytepad c.initBlock c.rate }
def CShake.read (P : Prims) (c : CShake) (n : Nat) : Bytes := P.sponge c.rate c.absorbed n

/-- The `kmac` struct (crypto/kmac.go:34-44). -/
structure Kmac where
  shake : CShake
  tagSize : Nat
  initBlock : Bytes
  blockSize : Nat

/-- crypto/kmac.go:30. -/
def kmacMinimumTagSize : Nat := 8

/-- `newKMAC` (crypto/kmac.go:74-87); `none` is the panic for small tags. -/
def newKMAC (key : Bytes) (tagSize : Nat) (c : CShake) (blockSize : Nat) : Option Kmac :=
  if tagSize < kmacMinimumTagSize then none
  else
    let initBlock := leftEncode (key.length * 8) ++ key
    some ⟨c.write (bytepad initBlock blockSize), tagSize, initBlock, blockSize⟩

/-- The function name "KMAC" (crypto/kmac.go:56, 70). -/
def kmacName : Bytes := [75, 77, 65, 67]

/-- `NewKMAC128` (crypto/kmac.go:52-58). -/
def newKMAC128 (key : Bytes) (tagSize : Nat) (custom : Bytes) : Option Kmac :=
  if key.length < 16 then none else newKMAC key tagSize (newCShake 168 kmacName custom) 168

/-- `NewKMAC256` (crypto/kmac.go:66-72). -/
def newKMAC256 (key : Bytes) (tagSize : Nat) (custom : Bytes) : Option Kmac :=
  if key.length < 32 then none else newKMAC key tagSize (newCShake 136 kmacName custom) 136

/-- `Write`, promoted from the embedded `ShakeHash`. -/
def Kmac.write (k : Kmac) (p : Bytes) : Kmac := { k with shake := k.shake.write p }

/-- `Reset` (crypto/kmac.go:90-93). -/
def Kmac.reset (k : Kmac) : Kmac :=
  let k := { k with shake := k.shake.reset }
  k.write (bytepad k.initBlock k.blockSize)

/-- `Sum` (crypto/kmac.go:107-113): works on a clone of the sponge, so the receiver is unchanged. -/
def Kmac.sum (P : Prims) (k : Kmac) (b : Bytes) : Bytes :=
  let dup := k.shake.write (rightEncode (k.tagSize * 8))
  b ++ dup.read P k.tagSize

/-- `KMACKDF` (crypto/kdf.go:22-28); `none` is a panic of `NewKMAC256`. -/
def kmacKdf (P : Prims) (size : Nat) (kik label : Bytes) (context : List Bytes) : Option Bytes :=
  (newKMAC256 kik size label).map fun k => (context.foldl Kmac.write k).sum P []

/-- crypto/tagger.go:22-23. -/
def tagLen : Nat := 32
def taggerKeyLength : Nat := 32

/-- `Tagger` (crypto/tagger.go:26-28). -/
structure Tagger where
  key : Bytes
  deriving DecidableEq

/-- `NewKMAC256Tagger` (crypto/tagger.go:31-37). -/
def newKMAC256Tagger (key : Bytes) : Except Err Tagger :=
  if key.length ≠ taggerKeyLength then .error .invalidKeyLength else .ok ⟨key⟩

/-- `Tag` (crypto/tagger.go:39-49): the JSON text of the data is the customization string, the message is empty. -/
def Tagger.tag (P : Prims) (t : Tagger) (data : J) : Option Bytes :=
  (newKMAC256 t.key tagLen data.render).map fun mac => mac.sum P []

end D1
