import Verif.Spec.Fresh
import Verif.Spec.Uuid
/-!
# What is written: UTF-8 (RFC 3629), JSON text (RFC 8259), base64 (RFC 4648), and the documents of the library
-/
namespace D1.Spec

/-- The bytes of an ASCII text. -/
def ascii (s : String) : Bytes := s.toList.map fun c => UInt8.ofNat c.toNat

/-! ## UTF-8 -/

/-- Unicode scalar values. -/
def Scalar (c : Nat) : Prop := c < 0xD800 ∨ 0xE000 ≤ c ∧ c < 0x110000

/-- RFC 3629, section 3. -/
def utf8 (c : Nat) : Bytes :=
  if c < 0x80 then [UInt8.ofNat c]
  else if c < 0x800 then [UInt8.ofNat (0xC0 + c / 64), UInt8.ofNat (0x80 + c % 64)]
  else if c < 0x10000 then [UInt8.ofNat (0xE0 + c / 4096), UInt8.ofNat (0x80 + c / 64 % 64), UInt8.ofNat (0x80 + c % 64)]
  else [UInt8.ofNat (0xF0 + c / 262144), UInt8.ofNat (0x80 + c / 4096 % 64), UInt8.ofNat (0x80 + c / 64 % 64), UInt8.ofNat (0x80 + c % 64)]

/-! ## JSON -/

/-- A hexadecimal digit. -/
def HexDigit (c : UInt8) (v : Nat) : Prop :=
  (48 ≤ c.toNat ∧ c.toNat ≤ 57 ∧ v = c.toNat - 48) ∨ (65 ≤ c.toNat ∧ c.toNat ≤ 70 ∧ v = c.toNat - 55) ∨
    (97 ≤ c.toNat ∧ c.toNat ≤ 102 ∧ v = c.toNat - 87)

/-- The escape `\uXXXX`. -/
def Escape (t : Bytes) (v : Nat) : Prop := ∃ a b c d va vb vc vd, t = [92, 117, a, b, c, d] ∧ HexDigit a va ∧ HexDigit b vb ∧ HexDigit c vc ∧
  HexDigit d vd ∧ v = ((va * 16 + vb) * 16 + vc) * 16 + vd

/-- The escapes of a backslash and one more character: `\"`, `\\`, `\/`, `\b`, `\f`, `\n`, `\r`, `\t`. -/
def shortEscapes : List (UInt8 × Nat) := [(34, 34), (92, 92), (47, 47), (98, 8), (102, 12), (110, 10), (114, 13), (116, 9)]

/-- One character of a string (RFC 8259, section 7) and the character it stands for. -/
inductive Char8259 : Bytes → Nat → Prop
  | plain (c : Nat) : Scalar c → 0x20 ≤ c → c ≠ 34 → c ≠ 92 → Char8259 (utf8 c) c
  | short (e : UInt8) (c : Nat) : (e, c) ∈ shortEscapes → Char8259 [92, e] c
  | hex (t : Bytes) (c : Nat) : Escape t c → Scalar c → Char8259 t c
  | pair (t t' : Bytes) (h l : Nat) : Escape t (0xD800 + h) → Escape t' (0xDC00 + l) → h < 0x400 → l < 0x400 →
      Char8259 (t ++ t') (0x10000 + h * 0x400 + l)

/-- The characters between the quotes, and the UTF-8 of what they stand for. -/
inductive Chars : Bytes → Bytes → Prop
  | nil : Chars [] []
  | cons {t x v : Bytes} {c : Nat} : Char8259 t c → Chars x v → Chars (t ++ x) (utf8 c ++ v)

/-- Decimal digits without leading zeros. -/
inductive Digits : Bytes → Nat → Prop
  | one (d : Nat) : d < 10 → Digits [UInt8.ofNat (48 + d)] d
  | more {t : Bytes} {n : Nat} (d : Nat) : Digits t n → 0 < n → d < 10 → Digits (t ++ [UInt8.ofNat (48 + d)]) (n * 10 + d)

mutual
/-- JSON texts without whitespace (RFC 8259, sections 2 to 7) of null, strings, natural numbers and objects. -/
inductive Text : Bytes → J → Prop
  | null : Text (ascii "null") .null
  | str {t v : Bytes} : Chars t v → Text ([34] ++ t ++ [34]) (.str v)
  | num {t : Bytes} {n : Nat} : Digits t n → Text t (.num n)
  | empty : Text (ascii "{}") (.obj .nil)
  | obj {t : Bytes} {fs : JFields} : Members t fs → Text ([123] ++ t ++ [125]) (.obj fs)
/-- The members of an object. -/
inductive Members : Bytes → JFields → Prop
  | one {k s t : Bytes} {v : J} : Chars k s → Text t v → Members ([34] ++ k ++ [34, 58] ++ t) (.cons s v .nil)
  | more {k s t r : Bytes} {v : J} {fs : JFields} : Chars k s → Text t v → Members r fs →
      Members ([34] ++ k ++ [34, 58] ++ t ++ [44] ++ r) (.cons s v fs)
end

/-- Nothing in a text that ends a line or means something in HTML. -/
def Tame (t : Bytes) : Prop := ∀ c ∈ t, 0x20 ≤ c.toNat ∧ c ≠ 38 ∧ c ≠ 60 ∧ c ≠ 62

/-! ## Base64 -/

/-- The lowest `n` bits of a number, most significant first. -/
def bitsOf : Nat → Nat → List Bool
  | 0, _ => []
  | n + 1, x => bitsOf n (x / 2) ++ [decide (x % 2 = 1)]

/-- The alphabets of RFC 4648, sections 4 and 5. -/
def alphabet (url : Bool) : Bytes :=
  ascii "ABCDEFGHIJKLMNOPQRSTUVWXYZabcdefghijklmnopqrstuvwxyz0123456789" ++ ascii (if url then "-_" else "+/")

/-- The text `t` is the base64 of `b`: the bits of `b`, and as few zeros as are needed, six to a character; with the standard alphabet
padded with `=` to a multiple of four characters, with the other one not. -/
def Base64 (url : Bool) (t b : Bytes) : Prop := ∃ (vs : List Nat) (zeros pad : Nat), (∀ v ∈ vs, v < 64) ∧ zeros < 6 ∧ pad < 4 ∧
  vs.flatMap (bitsOf 6) = b.flatMap (fun x => bitsOf 8 x.toNat) ++ List.replicate zeros false ∧
  t = vs.map (fun v => (alphabet url).getD v 0) ++ List.replicate pad 61 ∧ if url then pad = 0 else 4 ∣ t.length

/-! ## The documents -/

/-- A JSON string with the base64 of bytes, or null. -/
def Data64 (j : J) : NBytes → Prop
  | none => j = .null
  | some b => ∃ t, Base64 false t b ∧ j = .str t

/-- A JSON object with these members in this order. -/
def members (l : List (String × J)) : J := .obj (JFields.ofList (l.map fun x => (ascii x.1, x.2)))

/-- A set of names, as an object with empty objects. -/
def nameSet (names : Option (List GoString)) : J :=
  match names with
  | none => .null
  | some l => .obj (JFields.ofList (l.map fun x => (x, .obj .nil)))

variable (P : Prims)

/-- The bytes are the AES-256-GCM ciphertext, followed by its nonce, of the text of one value, bound to the text of another. -/
def SealedText (key : Bytes) (bound content : J) (b : Bytes) : Prop := ∃ (nonce a t : Bytes), nonce.length = 12 ∧ Text a bound ∧ Text t content ∧
  Tame a ∧ Tame t ∧ b = P.gcmSeal key nonce a t ++ nonce

/-- The same with a new key, which is wrapped. -/
def SealedWith (kek : Bytes) (bound content cipher wrapped : J) : Prop := ∃ (key c w : Bytes), key.length = 32 ∧ kwpWrap P kek key = .ok w ∧
  SealedText P key bound content c ∧ Data64 cipher (some c) ∧ Data64 wrapped (some w)

/-- What is stored with an identifier and a type of data.  Types are numbered: 0 objects, 1 access lists, 2 nodes of the index, 4 users,
5 groups. -/
inductive Document (keys : Keys) (conf : StandaloneConfig) : Bytes → Nat → J → Prop
  | object {u ut key c : Bytes} {pt ad : NBytes} {bound content cipher assoc : J} : TextOf u ut → key.length = 32 →
      Data64 bound (some (u ++ ad.getD [])) → Data64 content pt → SealedText P key bound content c → Data64 cipher (some c) → Data64 assoc ad →
      Document keys conf u 0 (members [("Ciphertext", cipher), ("AssociatedData", assoc), ("OID", .str ut)])
  | access {u ut : Bytes} {names : Option (List GoString)} {wdek : NBytes} {bound dek cipher wrapped : J} : TextOf u ut →
      Data64 bound (some u) → Data64 dek wdek →
      SealedWith P keys.aek bound (members [("Groups", nameSet names), ("WrappedDEK", dek)]) cipher wrapped →
      Document keys conf u 1 (members [("OID", .str ut), ("Ciphertext", cipher), ("WrappedKey", wrapped)])
  | node {label kek kw : Bytes} {identifier : GoString} {next : Nat} {bound cipher wrapped : J} : kmacKdf P 32 keys.iek labelId [kw] = some kek →
      Data64 bound (some label) →
      SealedWith P kek bound (members [("Identifier", .str identifier), ("NextCounter", .num next)]) cipher wrapped →
      Document keys conf label 2 (members [("Ciphertext", cipher), ("WrappedKey", wrapped)])
  | user {uid : GoString} {saltAndHash : NBytes} {scopes : Scope} {names : Option (List GoString)} {hash cipher wrapped : J} :
      Data64 hash saltAndHash →
      SealedWith P conf.uek (.str (sanitize uid))
        (members [("SaltAndHash", hash), ("Scopes", .num scopes.toNat), ("Groups", nameSet names)]) cipher wrapped →
      Document keys conf uid 4 (members [("UID", .str (sanitize uid)), ("Ciphertext", cipher), ("WrappedKey", wrapped)])
  | group {gid : GoString} {scopes : Scope} {cipher wrapped : J} :
      SealedWith P conf.gek (.str (sanitize gid)) (members [("Scopes", .num scopes.toNat)]) cipher wrapped →
      Document keys conf gid 5 (members [("GID", .str (sanitize gid)), ("Ciphertext", cipher), ("WrappedKey", wrapped)])

/-- What a token says: when it expires, and what it holds, bound to that time. -/
def TokenDocument (kek : Bytes) (j : J) : Prop := ∃ (expiry : GoTime) (content : J) (plaintext : NBytes) (cipher wrapped : J),
  Data64 content plaintext ∧ SealedWith P kek (.str (P.timeText expiry)) content cipher wrapped ∧
  j = members [("ExpiryTime", .str (P.timeText expiry)), ("Ciphertext", cipher), ("WrappedKey", wrapped)]

/-- What leaves the library in a step is well formed. -/
def Written (keys : Keys) (conf : StandaloneConfig) : Step → Prop
  | .eff ⟨.put id dt b, _⟩ => ∃ j, Text b j ∧ Tame b ∧ Document P keys conf id dt.toNat j
  | .eff ⟨.update id dt b, _⟩ => ∃ j, Text b j ∧ Tame b ∧ Document P keys conf id dt.toNat j
  | .done (some (.token s)) => ∃ b j, Base64 true s b ∧ Text b j ∧ Tame b ∧ (TokenDocument P keys.tek j ∨ TokenDocument P conf.tek j)
  | .done (some (.password s)) => ∃ b : Bytes, b.length = 32 ∧ Base64 true s b
  | _ => True

end D1.Spec
