import Verif.Model.Kmac
/-!
# data/object.go, data/access.go, data/token.go, data/node.go

Each type comes with its JSON form (`toJ`, written by json-iterator from the exported fields in declaration order)
and its reader (`ofJ`).
-/
namespace D1

/-! Field names as bytes. -/
/-- "Ciphertext" -/
def nCiphertext : GoString := [67, 105, 112, 104, 101, 114, 116, 101, 120, 116]
/-- "AssociatedData" -/
def nAssociatedData : GoString := [65, 115, 115, 111, 99, 105, 97, 116, 101, 100, 68, 97, 116, 97]
/-- "OID" -/
def nOID : GoString := [79, 73, 68]
/-- "Groups" -/
def nGroups : GoString := [71, 114, 111, 117, 112, 115]
/-- "WrappedDEK" -/
def nWrappedDEK : GoString := [87, 114, 97, 112, 112, 101, 100, 68, 69, 75]
/-- "WrappedKey" -/
def nWrappedKey : GoString := [87, 114, 97, 112, 112, 101, 100, 75, 101, 121]
/-- "ExpiryTime" -/
def nExpiryTime : GoString := [69, 120, 112, 105, 114, 121, 84, 105, 109, 101]
/-- "Identifier" -/
def nIdentifier : GoString := [73, 100, 101, 110, 116, 105, 102, 105, 101, 114]
/-- "NextCounter" -/
def nNextCounter : GoString := [78, 101, 120, 116, 67, 111, 117, 110, 116, 101, 114]

/-! ## data/object.go -/

/-- `Object` (data/object.go:25-31). -/
structure Object where
  plaintext : NBytes
  associatedData : NBytes
  deriving DecidableEq

/-- `SealedObject` (data/object.go:34-44). -/
structure SealedObject where
  ciphertext : NBytes
  associatedData : NBytes
  oid : Oid
  deriving DecidableEq

/-- JSON of a `SealedObject` (utility.go:78). -/
def SealedObject.toJ (o : SealedObject) : J :=
  .obj (.cons nCiphertext (.ofBytes o.ciphertext) (.cons nAssociatedData (.ofBytes o.associatedData)
    (.cons nOID (.str (uuidText o.oid)) .nil)))

/-- The nil UUID. -/
def nilOid : Oid := ⟨List.replicate 16 0, by simp⟩

/-- Reading a UUID field (`UnmarshalText`). -/
def J.toUuid (P : Prims) (j : J) : Option Oid := j.toStr.bind P.uuidParse

/-- Reading into a zero `SealedObject` (utility.go:112-113). -/
def SealedObject.ofJ (P : Prims) (j : J) : Option SealedObject := do
  let fs ← j.fields
  let c ← field fs nCiphertext none J.toBytes
  let a ← field fs nAssociatedData none J.toBytes
  let o ← field fs nOID nilOid (J.toUuid P)
  return ⟨c, a, o⟩

/-- The associated data of an object ciphertext: ID followed by user data (data/object.go:48-50, 68-70); never nil. -/
def objectAad (oid : Oid) (ad : NBytes) : J := .ofBytes (some (oid.1 ++ ad.bytes))

/-- `Object.Seal` (data/object.go:47-64). -/
def Object.seal (P : Prims) (o : Object) (oid : Oid) (c : Cryptor) : Prog (Bytes × SealedObject) := do
  let (wrappedKey, ciphertext) ← c.encrypt P (.ofBytes o.plaintext) (objectAad oid o.associatedData)
  return (wrappedKey, ⟨some ciphertext, o.associatedData, oid⟩)

/-- `SealedObject.Unseal` (data/object.go:67-82). -/
def SealedObject.unseal (P : Prims) (o : SealedObject) (wrappedKey : NBytes) (c : Cryptor) : Except Err Object :=
  match c.decrypt P J.toBytes (objectAad o.oid o.associatedData) wrappedKey.bytes o.ciphertext.bytes with
  | .error e => .error e
  | .ok plaintext => .ok ⟨plaintext, o.associatedData⟩

/-! ## data/access.go -/

/-- `Access` (data/access.go:26-33). -/
structure Access where
  groups : GoSet
  wrappedDEK : NBytes
  deriving DecidableEq

/-- `SealedAccess` (data/access.go:36-42). -/
structure SealedAccess where
  oid : Oid
  ciphertext : NBytes
  wrappedKey : NBytes
  deriving DecidableEq

/-- JSON of an `Access`. -/
def Access.toJ (a : Access) : J :=
  .obj (.cons nGroups (.ofSet a.groups) (.cons nWrappedDEK (.ofBytes a.wrappedDEK) .nil))

/-- Reading into a zero `Access` (data/access.go:100-101). -/
def Access.ofJ (j : J) : Option Access := do
  let fs ← j.fields
  let g ← field fs nGroups none J.toSet
  let w ← field fs nWrappedDEK none J.toBytes
  return ⟨g, w⟩

/-- JSON of a `SealedAccess` (utility.go:130). -/
def SealedAccess.toJ (a : SealedAccess) : J :=
  .obj (.cons nOID (.str (uuidText a.oid)) (.cons nCiphertext (.ofBytes a.ciphertext)
    (.cons nWrappedKey (.ofBytes a.wrappedKey) .nil)))

/-- Reading into a zero `SealedAccess` (utility.go:164-165). -/
def SealedAccess.ofJ (P : Prims) (j : J) : Option SealedAccess := do
  let fs ← j.fields
  let o ← field fs nOID nilOid (J.toUuid P)
  let c ← field fs nCiphertext none J.toBytes
  let w ← field fs nWrappedKey none J.toBytes
  return ⟨o, c, w⟩

/-- `NewAccess` (data/access.go:45-50). -/
def newAccess (wrappedDEK : Bytes) : Access := ⟨some [], some wrappedDEK⟩

/-- `Access.Seal` (data/access.go:53-66). -/
def Access.seal (P : Prims) (a : Access) (oid : Oid) (c : Cryptor) : Prog SealedAccess := do
  let (wrappedKey, ciphertext) ← c.encrypt P a.toJ (.ofBytes (some oid.1))
  return ⟨oid, some ciphertext, some wrappedKey⟩

/-- The loop of `AddGroups` on a map; writing to a nil map panics (`none`). -/
def addToSet (s : GoSet) : List GoString → Option GoSet
  | [] => some s
  | id :: r => match s with
    | none => none
    | some l => addToSet (some (setInsert l id)) r

/-- `AddGroups` (data/access.go:69-73). -/
def Access.addGroups (a : Access) (ids : List GoString) : Option Access :=
  (addToSet a.groups ids).map fun g => { a with groups := g }

/-- The loop of `RemoveGroups`; deleting from a nil map is a no-op. -/
def removeFromSet (s : GoSet) (ids : List GoString) : GoSet := s.map fun l => ids.foldl setErase l

/-- `RemoveGroups` (data/access.go:76-80). -/
def Access.removeGroups (a : Access) (ids : List GoString) : Access :=
  { a with groups := removeFromSet a.groups ids }

/-- `ContainsGroups` (data/access.go:84-91). -/
def Access.containsGroups (a : Access) (ids : List GoString) : Bool := ids.all a.groups.has

/-- `SealedAccess.Unseal` (data/access.go:99-105). -/
def SealedAccess.unseal (P : Prims) (a : SealedAccess) (c : Cryptor) : Except Err Access :=
  c.decrypt P Access.ofJ (.ofBytes (some a.oid.1)) a.wrappedKey.bytes a.ciphertext.bytes

/-! ## data/token.go -/

/-- `TokenValidity` (data/token.go:28): one hour in nanoseconds. -/
def tokenValidity : Int := 3600000000000

/-- `Token` (data/token.go:32-38). -/
structure Token where
  plaintext : NBytes
  expiryTime : GoTime
  deriving DecidableEq

/-- `SealedToken` (data/token.go:41-47). -/
structure SealedToken where
  expiryTime : GoTime
  ciphertext : NBytes
  wrappedKey : NBytes
  deriving DecidableEq

/-- JSON of a `time.Time`. -/
def J.ofTime (P : Prims) (t : GoTime) : J := .str (P.timeText t)

/-- Reading a `time.Time`; null is a no-op and leaves the zero time. -/
def J.toTime (P : Prims) (zero : GoTime) : J → Option GoTime
  | .null => some zero
  | .str s => P.timeParse s
  | _ => none

/-- `time.Time{}`: year 1, in UTC (location number 0). -/
def zeroTime : GoTime := ⟨-62135596800000000000, 0⟩

/-- JSON of a `SealedToken` (data/token.go:92). -/
def SealedToken.toJ (P : Prims) (t : SealedToken) : J :=
  .obj (.cons nExpiryTime (.ofTime P t.expiryTime) (.cons nCiphertext (.ofBytes t.ciphertext)
    (.cons nWrappedKey (.ofBytes t.wrappedKey) .nil)))

/-- Reading into a zero `SealedToken` (data/token.go:106-107). -/
def SealedToken.ofJ (P : Prims) (j : J) : Option SealedToken := do
  let fs ← j.fields
  let e ← field fs nExpiryTime zeroTime (J.toTime P zeroTime)
  let c ← field fs nCiphertext none J.toBytes
  let w ← field fs nWrappedKey none J.toBytes
  return ⟨e, c, w⟩

/-- `time.Now()`. -/
def timeNow : Prog GoTime := .op .now .ret

/-- `NewToken` (data/token.go:51-54). -/
def newToken (plaintext : NBytes) (validityPeriod : Int) : Prog Token := do
  let now ← timeNow
  return ⟨plaintext, now.add validityPeriod⟩

/-- `Token.Seal` (data/token.go:57-70). -/
def Token.seal (P : Prims) (t : Token) (c : Cryptor) : Prog SealedToken := do
  let (wrappedKey, ciphertext) ← c.encrypt P (.ofBytes t.plaintext) (.ofTime P t.expiryTime)
  return ⟨t.expiryTime, some ciphertext, some wrappedKey⟩

/-- `SealedToken.Unseal` (data/token.go:73-88). -/
def SealedToken.unseal (P : Prims) (t : SealedToken) (c : Cryptor) : Prog Token := do
  let now ← timeNow
  if t.expiryTime.before now then .err .tokenExpired
  else
    let plaintext ← Prog.ofExcept
      (c.decrypt P J.toBytes (.ofTime P t.expiryTime) t.wrappedKey.bytes t.ciphertext.bytes)
    return ⟨plaintext, t.expiryTime⟩

/-- `SealedToken.String` (data/token.go:91-98). -/
def SealedToken.string (P : Prims) (t : SealedToken) : GoString := b64Enc true (t.toJ P).render

/-- `TokenFromString` (data/token.go:101-111). -/
def tokenFromString (P : Prims) (s : GoString) : Except Err SealedToken :=
  match b64Dec true s with
  | none => .error .base64
  | some tokenBytes => match (P.unmarshal tokenBytes).bind (SealedToken.ofJ P) with
    | none => .error .json
    | some t => .ok t

/-! ## data/node.go -/

/-- `Node` (data/node.go:25-28); `nextCounter` is a `uint64`, kept below `2 ^ 64` by the code. -/
structure Node where
  identifier : GoString
  nextCounter : Nat
  deriving DecidableEq

/-- `SealedNode` (data/node.go:40-43). -/
structure SealedNode where
  ciphertext : NBytes
  wrappedKey : NBytes
  deriving DecidableEq

/-- `data.Node{}`. -/
def zeroNode : Node := ⟨[], 0⟩

/-- JSON of a `Node`. -/
def Node.toJ (n : Node) : J := .obj (.cons nIdentifier (.str n.identifier) (.cons nNextCounter (.num n.nextCounter) .nil))

/-- Reading into a zero `Node` (data/node.go:60-61). -/
def Node.ofJ (j : J) : Option Node := do
  let fs ← j.fields
  let i ← field fs nIdentifier [] J.toStr
  let c ← field fs nNextCounter 0 J.toU64
  return ⟨i, c⟩

/-- JSON of a `SealedNode` (index/index.go:349). -/
def SealedNode.toJ (n : SealedNode) : J :=
  .obj (.cons nCiphertext (.ofBytes n.ciphertext) (.cons nWrappedKey (.ofBytes n.wrappedKey) .nil))

/-- Reading into a zero `SealedNode` (index/index.go:383-384). -/
def SealedNode.ofJ (j : J) : Option SealedNode := do
  let fs ← j.fields
  let c ← field fs nCiphertext none J.toBytes
  let w ← field fs nWrappedKey none J.toBytes
  return ⟨c, w⟩

/-- `Node.NextLabel` (data/node.go:31-37); `none` is a panic of `NewKMAC256`. -/
def Node.nextLabel (P : Prims) (n : Node) (t : Tagger) : Option Bytes :=
  t.tag P (.ofBytes (some (uvarint n.nextCounter)))

/-- `Node.Seal` (data/node.go:46-56). -/
def Node.seal (P : Prims) (n : Node) (label : Bytes) (c : Cryptor) : Prog SealedNode := do
  let (wrappedKey, ciphertext) ← c.encrypt P n.toJ (.ofBytes (some label))
  return ⟨some ciphertext, some wrappedKey⟩

/-- `SealedNode.Unseal` (data/node.go:59-65). -/
def SealedNode.unseal (P : Prims) (n : SealedNode) (label : Bytes) (c : Cryptor) : Except Err Node :=
  c.decrypt P Node.ofJ (.ofBytes (some label)) n.wrappedKey.bytes n.ciphertext.bytes

end D1
