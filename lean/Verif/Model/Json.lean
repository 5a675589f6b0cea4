import Verif.Model.Encoding
/-!
# JSON as written by json-iterator

The repository serializes everything with `github.com/json-iterator/go` (`ConfigDefault`: HTML escaping on, map keys
not sorted).  `J` is the subset of JSON values that the repository's types produce, `render` the exact text.
Reading JSON is a parameter (`Prims.unmarshal`): for the text of a value it returns the value with its strings
sanitized, for any other input it may do anything.
-/
namespace D1

mutual
/-- JSON values produced by the repository's types. -/
inductive J where
  | null
  | str (s : GoString)
  | num (n : Nat)
  | obj (fs : JFields)
/-- Fields of a JSON object, in the order written. -/
inductive JFields where
  | nil
  | cons (k : GoString) (v : J) (r : JFields)
end

/-- Bytes that json-iterator writes unescaped when `EscapeHTML` is on (`htmlSafeSet`). -/
def htmlSafe (b : UInt8) : Bool :=
  let n := b.toNat
  decide (0x20 ≤ n ∧ n < 0x80 ∧ n ≠ 34 ∧ n ≠ 38 ∧ n ≠ 60 ∧ n ≠ 62 ∧ n ≠ 92)

/-- Escape sequence for one ASCII byte (`writeStringSlowPathWithHTMLEscaped`). -/
def escAscii (b : UInt8) : Bytes :=
  if htmlSafe b then [b]
  else if b = 92 ∨ b = 34 then [92, b]
  else if b = 10 then [92, 110]
  else if b = 13 then [92, 114]
  else if b = 9 then [92, 116]
  else [92, 117, 48, 48, hexDigit (b.toNat / 16), hexDigit (b.toNat % 16)]

/-- Text of one UTF-8 chunk: U+2028 and U+2029 are escaped, a bad byte becomes the six characters of the JSON escape for U+FFFD. -/
def escChunk : Chunk → Bytes
  | .valid [b] => escAscii b
  | .valid [0xE2, 0x80, 0xA8] => [92, 117, 50, 48, 50, 56]
  | .valid [0xE2, 0x80, 0xA9] => [92, 117, 50, 48, 50, 57]
  | .valid bs => bs
  | .bad _ => [92, 117, 102, 102, 102, 100]

/-- A JSON string literal (`WriteStringWithHTMLEscaped`). -/
def renderStr (s : GoString) : Bytes := [34] ++ (chunks s).flatMap escChunk ++ [34]

mutual
/-- The JSON text of a value. -/
def J.render : J → Bytes
  | .null => [110, 117, 108, 108]
  | .str s => renderStr s
  | .num n => decEnc n
  | .obj fs => [123] ++ fs.render true ++ [125]
/-- The fields of an object; `first` tells whether a separating comma is needed. -/
def JFields.render : JFields → Bool → Bytes
  | .nil, _ => []
  | .cons k v r, first => (if first then [] else [44]) ++ renderStr k ++ [58] ++ v.render ++ r.render false
end

mutual
/-- The value that a JSON reader recovers from the text of a value: strings are sanitized. -/
def J.san : J → J
  | .null => .null
  | .str s => .str (sanitize s)
  | .num n => .num n
  | .obj fs => .obj fs.san
def JFields.san : JFields → JFields
  | .nil => .nil
  | .cons k v r => .cons (sanitize k) v.san r.san
end

/-- Last field with the given name, as the struct decoder assigns fields in the order read.
Simplification: json-iterator also matches names case-insensitively; the repository's own output never relies on it. -/
def JFields.lookup (name : GoString) : JFields → Option J
  | .nil => none
  | .cons k v r => match r.lookup name with
    | some x => some x
    | none => if k = name then some v else none

/-- Keys of an object read into a `map[string]struct{}`: the value of each key must itself be an object or null. -/
def JFields.keys : JFields → Option (List GoString)
  | .nil => some []
  | .cons k v r => match v, r.keys with
    | .obj _, some l => some (k :: l)
    | .null, some l => some (k :: l)
    | _, _ => none

/-- Fields from a list. -/
def JFields.ofList : List (GoString × J) → JFields
  | [] => .nil
  | (k, v) :: r => .cons k v (JFields.ofList r)

/-! ## Encoders and decoders of Go types -/

/-- `[]byte`: null when nil, otherwise padded standard base64. -/
def J.ofBytes : NBytes → J
  | none => .null
  | some b => .str (b64Enc false b)

/-- Reading into a `[]byte`. -/
def J.toBytes : J → Option NBytes
  | .null => some none
  | .str s => (b64Dec false s).map some
  | _ => none

/-- Reading into a `string`. -/
def J.toStr : J → Option GoString
  | .null => some []
  | .str s => some s
  | _ => none

/-- Reading into a `uint64`: larger numbers are an error. -/
def J.toU64 : J → Option Nat
  | .null => some 0
  | .num n => if n < 2 ^ 64 then some n else none
  | _ => none

/-- `map[string]struct{}`: null when nil. -/
def J.ofSet : GoSet → J
  | none => .null
  | some l => .obj (JFields.ofList (l.map (fun k => (k, .obj .nil))))

/-- Reading into a `map[string]struct{}` that is nil before. -/
def J.toSet : J → Option GoSet
  | .null => some none
  | .obj fs => fs.keys.map (fun ks => some (ks.foldl setInsert []))
  | _ => none

/-- A struct field: absent fields keep the zero value. -/
def field {α : Type} (fs : JFields) (name : GoString) (zero : α) (dec : J → Option α) : Option α :=
  match fs.lookup name with
  | none => some zero
  | some v => dec v

/-- Fields of the JSON value read into a struct (null leaves the zero struct). -/
def J.fields : J → Option JFields
  | .null => some .nil
  | .obj fs => some fs
  | _ => none

/-! ## UUID text (github.com/gofrs/uuid, `UUID.String` / `UnmarshalText`) -/

/-- Canonical text `xxxxxxxx-xxxx-xxxx-xxxx-xxxxxxxxxxxx`. -/
def uuidText (u : Oid) : Bytes :=
  hexEnc (u.1.take 4) ++ [45] ++ hexEnc ((u.1.drop 4).take 2) ++ [45] ++ hexEnc ((u.1.drop 6).take 2) ++ [45] ++
    hexEnc ((u.1.drop 8).take 2) ++ [45] ++ hexEnc (u.1.drop 10)

end D1
