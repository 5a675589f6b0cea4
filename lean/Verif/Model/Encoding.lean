import Verif.Model.Base
/-!
# Text and integer encodings used by the repository

These are Go standard library functions (`encoding/base64`, `encoding/binary`, `fmt`, `unicode/utf8`) that the
repository's claims depend on byte for byte; they are modelled concretely.
-/
namespace D1

/-! ## Hexadecimal and decimal -/

/-- Lower-case hexadecimal digit. -/
def hexDigit (n : Nat) : UInt8 := if n < 10 then UInt8.ofNat (48 + n) else UInt8.ofNat (87 + n)

/-- `fmt.Sprintf("%x", b)` (used at io/mem.go:35). -/
def hexEnc : Bytes → Bytes
  | [] => []
  | b :: r => hexDigit (b.toNat / 16) :: hexDigit (b.toNat % 16) :: hexEnc r

/-- Decimal digits of `n`, most significant first; `fuel` bounds the number of digits minus one. -/
def decAux : Nat → Nat → Bytes
  | 0, n => [UInt8.ofNat (48 + n % 10)]
  | f + 1, n => if n < 10 then [UInt8.ofNat (48 + n)] else decAux f (n / 10) ++ [UInt8.ofNat (48 + n % 10)]

/-- `strconv` / `fmt.Sprintf("%d", n)` for unsigned integers (io/io.go:52; JSON numbers). -/
def decEnc (n : Nat) : Bytes := decAux n n

/-! ## Base 64 -/

/-- Alphabet of `base64.StdEncoding` (`url = false`) and `base64.RawURLEncoding` (`url = true`). -/
def b64Char (url : Bool) (n : Nat) : UInt8 :=
  if n < 26 then UInt8.ofNat (65 + n)
  else if n < 52 then UInt8.ofNat (71 + n)
  else if n < 62 then UInt8.ofNat (n - 4)
  else if n = 62 then (if url then 45 else 43)
  else (if url then 95 else 47)

/-- Inverse of `b64Char`; `none` for bytes outside the alphabet. -/
def b64Val (url : Bool) (c : UInt8) : Option Nat :=
  let n := c.toNat
  if 65 ≤ n ∧ n ≤ 90 then some (n - 65)
  else if 97 ≤ n ∧ n ≤ 122 then some (n - 71)
  else if 48 ≤ n ∧ n ≤ 57 then some (n + 4)
  else if n = (if url then 45 else 43) then some 62
  else if n = (if url then 95 else 47) then some 63
  else none

/-- `EncodeToString`: padded for `StdEncoding` (how JSON writes `[]byte`), unpadded for `RawURLEncoding`
(data/token.go:97, crypto/password.go:45). -/
def b64Enc (url : Bool) : Bytes → Bytes
  | [] => []
  | [a] =>
    b64Char url (a.toNat / 4) :: b64Char url (a.toNat % 4 * 16) :: (if url then [] else [61, 61])
  | [a, b] =>
    b64Char url (a.toNat / 4) :: b64Char url (a.toNat % 4 * 16 + b.toNat / 16) ::
      b64Char url (b.toNat % 16 * 4) :: (if url then [] else [61])
  | a :: b :: c :: r =>
    b64Char url (a.toNat / 4) :: b64Char url (a.toNat % 4 * 16 + b.toNat / 16) ::
      b64Char url (b.toNat % 16 * 4 + c.toNat / 64) :: b64Char url (c.toNat % 64) :: b64Enc url r

/-- Decoding without line breaks.  Go's non-strict decoder ignores the unused low bits of the last character. -/
def b64DecAux (url : Bool) : Bytes → Option Bytes
  | [] => some []
  | [_] => none
  | [a, b] => if url then
      match b64Val url a, b64Val url b with
      | some va, some vb => some [UInt8.ofNat (va * 4 + vb / 16)]
      | _, _ => none
    else none
  | [a, b, c] => if url then
      match b64Val url a, b64Val url b, b64Val url c with
      | some va, some vb, some vc => some [UInt8.ofNat (va * 4 + vb / 16), UInt8.ofNat (vb % 16 * 16 + vc / 4)]
      | _, _, _ => none
    else none
  | a :: b :: c :: d :: r =>
    match b64Val url a, b64Val url b with
    | some va, some vb =>
      if url = false ∧ c = 61 then
        if d = 61 ∧ r = [] then some [UInt8.ofNat (va * 4 + vb / 16)] else none
      else match b64Val url c with
        | none => none
        | some vc =>
          if url = false ∧ d = 61 then
            if r = [] then some [UInt8.ofNat (va * 4 + vb / 16), UInt8.ofNat (vb % 16 * 16 + vc / 4)] else none
          else match b64Val url d with
            | none => none
            | some vd => match b64DecAux url r with
              | none => none
              | some out => some (UInt8.ofNat (va * 4 + vb / 16) :: UInt8.ofNat (vb % 16 * 16 + vc / 4) ::
                  UInt8.ofNat (vc % 4 * 64 + vd) :: out)
    | _, _ => none

/-- `DecodeString`: carriage returns and line feeds anywhere in the input are skipped (data/token.go:102). -/
def b64Dec (url : Bool) (s : Bytes) : Option Bytes := b64DecAux url (s.filter (fun c => c ≠ 10 ∧ c ≠ 13))

/-! ## Variable-length integers -/

/-- `binary.PutUvarint` (data/node.go:34): seven bits per byte, least significant group first. `fuel` is one less
than the maximal number of bytes. -/
def uvarintAux : Nat → Nat → Bytes
  | 0, x => [UInt8.ofNat x]
  | f + 1, x => if x < 128 then [UInt8.ofNat x] else UInt8.ofNat (x % 128 + 128) :: uvarintAux f (x / 128)

/-- `buf[:binary.PutUvarint(buf, x)]` for a 64-bit `x` (at most `binary.MaxVarintLen64 = 10` bytes). -/
def uvarint (x : Nat) : Bytes := uvarintAux 9 x

/-- `binary.BigEndian.PutUint64`: eight bytes, most significant first. -/
def be64 (x : Nat) : Bytes :=
  [UInt8.ofNat (x / 2 ^ 56), UInt8.ofNat (x / 2 ^ 48), UInt8.ofNat (x / 2 ^ 40), UInt8.ofNat (x / 2 ^ 32),
   UInt8.ofNat (x / 2 ^ 24), UInt8.ofNat (x / 2 ^ 16), UInt8.ofNat (x / 2 ^ 8), UInt8.ofNat x]

/-- `binary.BigEndian.PutUint32`. -/
def be32 (x : Nat) : Bytes :=
  [UInt8.ofNat (x / 2 ^ 24), UInt8.ofNat (x / 2 ^ 16), UInt8.ofNat (x / 2 ^ 8), UInt8.ofNat x]

/-- `binary.BigEndian.Uint32` on the first four bytes of a slice (missing bytes read as zero; the code only calls
it on slices that have them). -/
def be32Val (b : Bytes) : Nat :=
  (b.getD 0 0).toNat * 2 ^ 24 + (b.getD 1 0).toNat * 2 ^ 16 + (b.getD 2 0).toNat * 2 ^ 8 + (b.getD 3 0).toNat

/-! ## UTF-8 -/

/-- One step of reading a Go string as UTF-8: a well-formed sequence of one to four bytes, or one bad byte. -/
inductive Chunk where
  | valid (bs : Bytes)
  | bad (b : UInt8)
  deriving DecidableEq, Repr

/-- Continuation byte within `[lo, hi]`. -/
def contIn (b : UInt8) (lo hi : Nat) : Bool := decide (lo ≤ b.toNat ∧ b.toNat ≤ hi)

/-- Smallest and largest allowed second byte after first byte `n` (Go's `acceptRanges`, also RFC 3629). -/
def accept2 (n : Nat) : Nat × Nat :=
  if n = 0xE0 then (0xA0, 0xBF) else if n = 0xED then (0x80, 0x9F)
  else if n = 0xF0 then (0x90, 0xBF) else if n = 0xF4 then (0x80, 0x8F) else (0x80, 0xBF)

/-- `utf8.DecodeRuneInString` on `b :: r`: the length of the well-formed sequence at the front, `0` when it is
`RuneError` of width 1. -/
def runeLen (b : UInt8) (r : Bytes) : Nat :=
  let n := b.toNat
  if n < 0x80 then 1
  else if 0xC2 ≤ n ∧ n ≤ 0xDF then
    match r with
    | b1 :: _ => if contIn b1 0x80 0xBF then 2 else 0
    | [] => 0
  else if 0xE0 ≤ n ∧ n ≤ 0xEF then
    match r with
    | b1 :: b2 :: _ => if contIn b1 (accept2 n).1 (accept2 n).2 && contIn b2 0x80 0xBF then 3 else 0
    | _ => 0
  else if 0xF0 ≤ n ∧ n ≤ 0xF4 then
    match r with
    | b1 :: b2 :: b3 :: _ =>
      if contIn b1 (accept2 n).1 (accept2 n).2 && contIn b2 0x80 0xBF && contIn b3 0x80 0xBF then 4 else 0
    | _ => 0
  else 0

/-- Splits a string into chunks; `fuel` is at least its length. -/
def chunksAux : Nat → Bytes → List Chunk
  | 0, _ => []
  | _ + 1, [] => []
  | f + 1, b :: r =>
    if runeLen b r = 0 then .bad b :: chunksAux f r
    else .valid ((b :: r).take (runeLen b r)) :: chunksAux f ((b :: r).drop (runeLen b r))

/-- The UTF-8 chunks of a Go string. -/
def chunks (s : GoString) : List Chunk := chunksAux s.length s

/-- `utf8.ValidString`. -/
def validUtf8 (s : GoString) : Bool := (chunks s).all (fun c => match c with | .valid _ => true | .bad _ => false)

/-- Bytes of a chunk after the replacement of a bad byte by U+FFFD. -/
def Chunk.san : Chunk → Bytes
  | .valid bs => bs
  | .bad _ => [0xEF, 0xBF, 0xBD]

/-- A string with every bad byte replaced by U+FFFD: what remains of a Go string after one trip through JSON. -/
def sanitize (s : GoString) : GoString := (chunks s).flatMap Chunk.san

end D1
