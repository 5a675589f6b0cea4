import Verif.Model.D1
/-!
# index/index.go

The unbounded loops take a number of iterations `fuel`; running out of it is `diverge`.  A call terminates exactly
when some `fuel` does not diverge, and the result does not depend on which.
-/
namespace D1

/-- `MasterKeyLength` (index/index.go:34). -/
def masterKeyLength : Nat := 32

/-- `SecureIndex` (index/index.go:51-56). -/
structure SecureIndex where
  idProvider : IdProvider
  indexKey : Bytes

/-- `NewSecureIndex` (index/index.go:59-77). -/
def newSecureIndex (keys : Except Err Keys) (idProvider : IdProvider) : Except Err SecureIndex :=
  match keys with
  | .error e => .error e
  | .ok keys =>
    if keys.iek.length ≠ masterKeyLength then .error .invalidMasterKeyLength else .ok ⟨idProvider, keys.iek⟩

/-- "label" (index/index.go:325). -/
def labelLabel : Bytes := [108, 97, 98, 101, 108]
/-- "id" (index/index.go:326). -/
def labelId : Bytes := [105, 100]

/-- `getTaggerAndCryptor` (index/index.go:324-338). -/
def SecureIndex.getTaggerAndCryptor (P : Prims) (i : SecureIndex) (keyword : GoString) : Prog (Tagger × Cryptor) := do
  let k1 ← Prog.ofPanic (kmacKdf P taggerKeyLength i.indexKey labelLabel [keyword])
  let k2 ← Prog.ofPanic (kmacKdf P encryptionKeyLength i.indexKey labelId [keyword])
  let tagger ← Prog.ofExcept (newKMAC256Tagger k1)
  let cryptor ← Prog.ofExcept (newAESCryptor k2)
  return (tagger, cryptor)

/-- `verifyAccess` (index/index.go:303-319). -/
def SecureIndex.verifyAccess (i : SecureIndex) (token : GoString) : Prog Unit :=
  (i.idProvider token).attempt fun r => match r with
    | .error _ => .err .ixNotAuthenticated
    | .ok identity => if !identity.scopes.contains scopeIndex then .err .ixNotAuthorized else .ret ()

/-- `putSealedNode` (index/index.go:346-369). -/
def putSealedNode (tag : Bytes) (n : SealedNode) (update : Bool) : Prog Unit :=
  let sealedNodeBytes := n.toJ.render
  if update then ioUpdate (onNotFound .nodeNotFound) tag dtNode sealedNodeBytes
  else ioPut (onAlreadyExists .nodeAlreadyExists) tag dtNode sealedNodeBytes

/-- `getSealedNode` (index/index.go:372-389). -/
def getSealedNode (P : Prims) (tag : Bytes) : Prog SealedNode := do
  let sealedNodeBytes ← ioGet (onNotFound .nodeNotFound) tag dtNode
  match (P.unmarshal sealedNodeBytes).bind SealedNode.ofJ with
  | none => .err .json
  | some n => return n

/-- `deleteSealedNode` (index/index.go:392-395). -/
def deleteSealedNode (tag : Bytes) : Prog Unit := ioDelete .io tag dtNode

/-- `getNextNode` (index/index.go:278-299). -/
def getNextNode (P : Prims) (currentNode : Node) (tagger : Tagger) (cryptor : Cryptor) : Prog Node := do
  let nextLabel ← Prog.ofPanic (currentNode.nextLabel P tagger)
  let nextSealedNode ← getSealedNode P nextLabel
  Prog.ofExcept (nextSealedNode.unseal P nextLabel cryptor)

/-- The loop of `getLastNode` (index/index.go:262-274). -/
def getLastNodeLoop (P : Prims) (tagger : Tagger) (cryptor : Cryptor) : Nat → Node → Prog Node
  | 0, _ => .diverge
  | fuel + 1, decryptedNode =>
    (getNextNode P decryptedNode tagger cryptor).attempt fun r => match r with
      | .error .nodeNotFound => .ret decryptedNode
      | .error e => .err e
      | .ok nextDecrypted => getLastNodeLoop P tagger cryptor fuel nextDecrypted

/-- `getLastNode` (index/index.go:255-275). -/
def getLastNode (P : Prims) (fuel : Nat) (tagger : Tagger) (cryptor : Cryptor) : Prog Node :=
  getLastNodeLoop P tagger cryptor fuel zeroNode

/-- `Add` (index/index.go:80-118); `last.NextCounter + 1` wraps around at `2 ^ 64`. -/
def SecureIndex.add (P : Prims) (fuel : Nat) (i : SecureIndex) (token keyword identifier : GoString) : Prog Unit := do
  i.verifyAccess token
  let (tagger, cryptor) ← i.getTaggerAndCryptor P keyword
  let last ← getLastNode P fuel tagger cryptor
  let label ← Prog.ofPanic (last.nextLabel P tagger)
  let newNode : Node := ⟨identifier, (last.nextCounter + 1) % 2 ^ 64⟩
  let sealedNode ← newNode.seal P label cryptor
  putSealedNode label sealedNode false

/-- The loop of `Search` (index/index.go:141-153). -/
def searchLoop (P : Prims) (tagger : Tagger) (cryptor : Cryptor) : Nat → Node → List GoString → Prog (List GoString)
  | 0, _, _ => .diverge
  | fuel + 1, decryptedNode, identifiers =>
    (getNextNode P decryptedNode tagger cryptor).attempt fun r => match r with
      | .error .nodeNotFound => .ret identifiers
      | .error e => .err e
      | .ok next => searchLoop P tagger cryptor fuel next (identifiers ++ [next.identifier])

/-- `Search` (index/index.go:121-156). -/
def SecureIndex.search (P : Prims) (fuel : Nat) (i : SecureIndex) (token keyword : GoString) :
    Prog (List GoString) := do
  i.verifyAccess token
  let (tagger, cryptor) ← i.getTaggerAndCryptor P keyword
  searchLoop P tagger cryptor fuel zeroNode []

/-- `deleteNode` (index/index.go:212-251). -/
def deleteNode (P : Prims) (label : Bytes) (node : Node) (tagger : Tagger) (cryptor : Cryptor) : Prog Unit :=
  (getNextNode P node tagger cryptor).attempt fun r => match r with
    | .error .nodeNotFound => deleteSealedNode label
    | .error e => .err e
    | .ok next => do
      let updatedSealedNode ← next.seal P label cryptor
      putSealedNode label updatedSealedNode true
      let nextLabel ← Prog.ofPanic (node.nextLabel P tagger)
      deleteSealedNode nextLabel

/-- The loop of `Delete` (index/index.go:178-204). -/
def deleteLoop (P : Prims) (tagger : Tagger) (cryptor : Cryptor) (identifier : GoString) : Nat → Node → Prog Unit
  | 0, _ => .diverge
  | fuel + 1, current =>
    (getNextNode P current tagger cryptor).attempt fun r => match r with
      | .error .nodeNotFound => .ret ()
      | .error e => .err e
      | .ok next =>
        if next.identifier = identifier then do
          let label ← Prog.ofPanic (current.nextLabel P tagger)
          deleteNode P label next tagger cryptor
          deleteLoop P tagger cryptor identifier fuel current
        else deleteLoop P tagger cryptor identifier fuel next

/-- `Delete` (index/index.go:159-206). -/
def SecureIndex.delete (P : Prims) (fuel : Nat) (i : SecureIndex) (token keyword identifier : GoString) :
    Prog Unit := do
  i.verifyAccess token
  let (tagger, cryptor) ← i.getTaggerAndCryptor P keyword
  deleteLoop P tagger cryptor identifier fuel zeroNode

end D1
