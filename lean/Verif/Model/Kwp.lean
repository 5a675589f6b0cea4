import Verif.Model.Prims
/-!
# crypto/kwp.go: AES key wrapping with padding

A KWP instance is its wrapping key; `kwp.block.Encrypt` is `P.aesEnc key`.  Go's in-place buffers are returned values.
-/
namespace D1

/-- crypto/kwp.go:51. -/
def minWrapSize : Nat := 16
/-- crypto/kwp.go:53. -/
def maxWrapSize : Nat := 8192
/-- crypto/kwp.go:55. -/
def roundCount : Nat := 6
/-- crypto/kwp.go:56. -/
def ivPrefix : Nat := 0xA65959A6

/-- `NewKWP` (crypto/kwp.go:67-78): 16- and 32-byte keys only.  `aes.NewCipher` does not fail for those. -/
def newKWP (key : Bytes) : Except Err Bytes :=
  if key.length = 16 ∨ key.length = 32 then .ok key else .error .kwp

/-- `wrappingSize` (crypto/kwp.go:82-85). -/
def wrappingSize (inputSize : Nat) : Nat :=
  let paddingSize := 7 - (inputSize + 7) % 8
  inputSize + paddingSize + 8

/-- Go's `copy(dst[off:], src)`: overwrite as many bytes as fit. -/
def copyAt (dst : Bytes) (off : Nat) (src : Bytes) : Bytes :=
  dst.take off ++ src.take (dst.length - off) ++ dst.drop (off + src.length)

/-- The loop of crypto/kwp.go:111-115 and 147-151: xor the low 32 bits of the round constant, big endian, into bytes
4 to 7 of `buf`. -/
def xorRound (buf : Bytes) (rc : Nat) : Bytes :=
  buf.mapIdx fun i b =>
    if 4 ≤ i ∧ i < 8 then b ^^^ UInt8.ofNat (rc / 256 ^ (7 - i)) else b

/-- Round constant of round `i`, block `j` (crypto/kwp.go:111, 147). -/
def roundConst (blockCount i j : Nat) : Nat := i * blockCount + j + 1

/-- Body of the inner loop of `computeW` (crypto/kwp.go:106-117); the state is (buf, data). -/
def wStep (P : Prims) (key : Bytes) (blockCount : Nat) (s : Bytes × Bytes) (ij : Nat × Nat) : Bytes × Bytes :=
  let off := 8 * (ij.2 + 1)
  let buf := copyAt s.1 8 ((s.2.drop off).take 8)
  let buf := P.aesEnc key buf
  let buf := xorRound buf (roundConst blockCount ij.1 ij.2)
  (buf, copyAt s.2 off (buf.drop 8))

/-- Body of the inner loop of `invertW` (crypto/kwp.go:143-154). -/
def wInvStep (P : Prims) (key : Bytes) (blockCount : Nat) (s : Bytes × Bytes) (ij : Nat × Nat) : Bytes × Bytes :=
  let off := 8 * (ij.2 + 1)
  let buf := copyAt s.1 8 ((s.2.drop off).take 8)
  let buf := xorRound buf (roundConst blockCount ij.1 ij.2)
  let buf := P.aesDec key buf
  (buf, copyAt s.2 off (buf.drop 8))

/-- The (i, j) pairs in the order of the two loops of `computeW` (crypto/kwp.go:104-105). -/
def wSchedule (blockCount : Nat) : List (Nat × Nat) :=
  (List.range roundCount).flatMap fun i => (List.range blockCount).map fun j => (i, j)

/-- The (i, j) pairs in the order of the two loops of `invertW` (crypto/kwp.go:141-142), counting down. -/
def wInvSchedule (blockCount : Nat) : List (Nat × Nat) :=
  (List.range roundCount).reverse.flatMap fun i => (List.range blockCount).reverse.map fun j => (i, j)

/-- `computeW` (crypto/kwp.go:89-122). -/
def computeW (P : Prims) (key iv data0 : Bytes) : Except Err Bytes :=
  if data0.length ≤ 8 ∨ data0.length > 2 ^ 31 - 1 - 16 ∨ iv.length ≠ 8 then .error .kwp
  else
    let data := List.replicate (wrappingSize data0.length) (0 : UInt8)
    let data := copyAt data 0 iv
    let data := copyAt data 8 data0
    let blockCount := data.length / 8 - 1
    let buf := copyAt (List.replicate 16 (0 : UInt8)) 0 (data.take 8)
    let s := (wSchedule blockCount).foldl (wStep P key blockCount) (buf, data)
    .ok (copyAt s.2 0 (s.1.take 8))

/-- `invertW` (crypto/kwp.go:126-160). -/
def invertW (P : Prims) (key wrapped : Bytes) : Except Err Bytes :=
  if wrapped.length < 24 ∨ wrapped.length % 8 ≠ 0 then .error .kwp
  else
    let data := wrapped
    let blockCount := data.length / 8 - 1
    let buf := copyAt (List.replicate 16 (0 : UInt8)) 0 (data.take 8)
    let s := (wInvSchedule blockCount).foldl (wInvStep P key blockCount) (buf, data)
    .ok (copyAt s.2 0 (s.1.take 8))

/-- `Wrap` (crypto/kwp.go:163-176). -/
def kwpWrap (P : Prims) (key data : Bytes) : Except Err Bytes :=
  if data.length < minWrapSize then .error .kwp
  else if data.length > maxWrapSize then .error .kwp
  else computeW P key (be32 ivPrefix ++ be32 data.length) data

/-- `Unwrap` (crypto/kwp.go:181-219).  `int` is 64 bits wide, so `encodedSize` is never negative. -/
def kwpUnwrap (P : Prims) (key data : Bytes) : Except Err Bytes :=
  if data.length < wrappingSize minWrapSize then .error .kwp
  else if data.length > wrappingSize maxWrapSize then .error .kwp
  else if data.length % 8 ≠ 0 then .error .kwp
  else match invertW P key data with
    | .error e => .error e
    | .ok unwrapped =>
      if be32Val unwrapped ≠ ivPrefix then .error .kwp
      else
        let encodedSize := be32Val (unwrapped.drop 4)
        if wrappingSize encodedSize ≠ unwrapped.length then .error .kwp
        else if (unwrapped.drop (8 + encodedSize)).any (· ≠ 0) then .error .kwp
        else .ok ((unwrapped.drop 8).take encodedSize)

end D1
