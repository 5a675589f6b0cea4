import Verif.Model.Base
/-!
# RFC 4122 (UUIDs)

Section 4.4: a version 4 UUID is made of 16 random bytes by setting the four most significant bits of byte 6 to 0100 and the two most
significant bits of byte 8 to 10.  Section 3: the text form is 32 lower case hexadecimal digits in groups of 8, 4, 4, 4 and 12, joined by
hyphens.
-/
namespace D1.Spec

/-- The version 4 UUID made of random bytes. -/
structure MadeOf (b u : Bytes) : Prop where
  len : u.length = 16
  version : (u.getD 6 0).toNat = 64 + (b.getD 6 0).toNat % 16
  variant : (u.getD 8 0).toNat = 128 + (b.getD 8 0).toNat % 64
  rest : ∀ i, i < 16 → i ≠ 6 → i ≠ 8 → u.getD i 0 = b.getD i 0

/-- The digits, "0123456789abcdef". -/
def hexDigits : Bytes := [48, 49, 50, 51, 52, 53, 54, 55, 56, 57, 97, 98, 99, 100, 101, 102]

/-- Half a byte. -/
def halfByte (u : Bytes) (i : Nat) : Nat := if i % 2 = 0 then (u.getD (i / 2) 0).toNat / 16 else (u.getD (i / 2) 0).toNat % 16

/-- Where digit `i` stands. -/
def digitPos (i : Nat) : Nat := if i < 8 then i else if i < 12 then i + 1 else if i < 16 then i + 2 else if i < 20 then i + 3 else i + 4

/-- The text form of a UUID. -/
structure TextOf (u t : Bytes) : Prop where
  len : t.length = 36
  digits : ∀ i, i < 32 → t[digitPos i]? = hexDigits[halfByte u i]?
  hyphens : ∀ i, i = 8 ∨ i = 13 ∨ i = 18 ∨ i = 23 → t[i]? = some 45

end D1.Spec
