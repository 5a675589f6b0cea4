import Verif.Model.Id
/-!
# d1.go, utility.go, key/key.go

Logging and contexts are not modelled.  Errors returned by the IO Provider are matched with `errors.Is`, which here is
equality of `IoErr`.
-/
namespace D1

/-! ## IO Provider calls -/

/-- The four methods of `io.Provider` (io/io.go:56-72), with `f` translating errors. -/
def ioPut (f : IoErr → Err) (id : Bytes) (dt : DataType) (d : Bytes) : Prog Unit :=
  .op (.put id dt d) fun r => match r with
    | .ok () => .ret ()
    | .error e => .err (f e)
def ioGet (f : IoErr → Err) (id : Bytes) (dt : DataType) : Prog Bytes :=
  .op (.get id dt) fun r => match r with
    | .ok d => .ret d
    | .error e => .err (f e)
def ioUpdate (f : IoErr → Err) (id : Bytes) (dt : DataType) (d : Bytes) : Prog Unit :=
  .op (.update id dt d) fun r => match r with
    | .ok () => .ret ()
    | .error e => .err (f e)
def ioDelete (f : IoErr → Err) (id : Bytes) (dt : DataType) : Prog Unit :=
  .op (.delete id dt) fun r => match r with
    | .ok () => .ret ()
    | .error e => .err (f e)

/-- `if errors.Is(err, io.ErrNotFound) { return e }; return err`. -/
def onNotFound (e : Err) : IoErr → Err
  | .notFound => e
  | x => .io x

/-- `if errors.Is(err, io.ErrAlreadyExists) { return e }; return err`. -/
def onAlreadyExists (e : Err) : IoErr → Err
  | .alreadyExists => e
  | x => .io x

/-- `io.DataTypeSealedObject`, `io.DataTypeSealedAccess`, `io.DataTypeSealedNode`, `io.DataTypeEnd` (io/io.go:36-41). -/
def dtObject : DataType := 0
def dtAccess : DataType := 1
def dtNode : DataType := 2
def dtEnd : DataType := 3

/-! ## key/key.go -/

/-- `key.Keys` (key/key.go:25-37). -/
structure Keys where
  kek : Bytes
  aek : Bytes
  tek : Bytes
  iek : Bytes

/-! ## d1.go -/

/-- `D1` (d1.go:55-63); the IO Provider is the effects. -/
structure D1 where
  idProvider : IdProvider
  objectCryptor : Cryptor
  accessCryptor : Cryptor
  tokenCryptor : Cryptor

/-- `New` (d1.go:66-99); `keys` is the answer of the Key Provider. -/
def newD1 (keys : Except Err Keys) (idProvider : IdProvider) : Except Err D1 :=
  match keys with
  | .error e => .error e
  | .ok keys => match newAESCryptor keys.kek with
    | .error e => .error e
    | .ok objectCryptor => match newAESCryptor keys.aek with
      | .error e => .error e
      | .ok accessCryptor => match newAESCryptor keys.tek with
        | .error e => .error e
        | .ok tokenCryptor => .ok ⟨idProvider, objectCryptor, accessCryptor, tokenCryptor⟩

/-- `uuid.NewV4` of github.com/gofrs/uuid: 16 random bytes with the version and variant bits set. -/
def mkV4 (b : BytesN 16) : Oid :=
  ⟨(b.1.set 6 ((b.1.getD 6 0 &&& 0x0f) ||| 0x40)).set 8 ((b.1.getD 8 0 &&& 0x3f) ||| 0x80), by simp [b.2]⟩

def newV4 : Prog Oid := do
  let b ← randBytes 16
  return mkV4 b

/-- `verifyAccess` (utility.go:33-49). -/
def D1.verifyAccess (d : D1) (token : GoString) (scope : Scope) : Prog Identity :=
  (d.idProvider token).attempt fun r => match r with
    | .error _ => .err .notAuthenticated
    | .ok identity => if !identity.scopes.contains scope then .err .notAuthorized else .ret identity

/-- `authorizeAccess` (utility.go:59-73). -/
def D1.authorizeAccess (P : Prims) (d : D1) (identity : Identity) (scopes : Scope) (a : SealedAccess) :
    Except Err Access :=
  match a.unseal P d.accessCryptor with
  | .error e => .error e
  | .ok plainAccess =>
    if identity.getIDs.any (fun gid => plainAccess.containsGroups [gid] && (identity.getIDScope gid).contains scopes)
    then .ok plainAccess else .error .notAuthorized

/-- `putSealedObject` (utility.go:77-98). -/
def putSealedObject (o : SealedObject) (update : Bool) : Prog Unit :=
  let objectBytes := o.toJ.render
  if update then ioUpdate (onNotFound .objectNotFound) o.oid.1 dtObject objectBytes
  else ioPut (onAlreadyExists .objectAlreadyExists) o.oid.1 dtObject objectBytes

/-- `getSealedObject` (utility.go:101-119). -/
def getSealedObject (P : Prims) (oid : Oid) : Prog SealedObject := do
  let objectBytes ← ioGet (onNotFound .objectNotFound) oid.1 dtObject
  match (P.unmarshal objectBytes).bind (SealedObject.ofJ P) with
  | none => .err .json
  | some o => return { o with oid := oid }

/-- `deleteSealedObject` (utility.go:122-125). -/
def deleteSealedObject (oid : Oid) : Prog Unit := ioDelete .io oid.1 dtObject

/-- `putSealedAccess` (utility.go:129-150). -/
def putSealedAccess (a : SealedAccess) (update : Bool) : Prog Unit :=
  let accessBytes := a.toJ.render
  if update then ioUpdate (onNotFound .accessNotFound) a.oid.1 dtAccess accessBytes
  else ioPut (onAlreadyExists .accessAlreadyExists) a.oid.1 dtAccess accessBytes

/-- `getSealedAccess` (utility.go:153-171). -/
def getSealedAccess (P : Prims) (oid : Oid) : Prog SealedAccess := do
  let accessBytes ← ioGet (onNotFound .accessNotFound) oid.1 dtAccess
  match (P.unmarshal accessBytes).bind (SealedAccess.ofJ P) with
  | none => .err .json
  | some a => return { a with oid := oid }

/-- `deleteSealedAccess` (utility.go:174-177). -/
def deleteSealedAccess (oid : Oid) : Prog Unit := ioDelete .io oid.1 dtAccess

/-- `Encrypt` (d1.go:119-159). -/
def D1.encrypt (P : Prims) (d : D1) (token : GoString) (object : Object) (groups : List GoString) : Prog Oid := do
  let identity ← d.verifyAccess token scopeEncrypt
  let oid ← newV4
  let (wrappedDEK, sealedObject) ← object.seal P oid d.objectCryptor
  let access ← Prog.ofPanic ((newAccess wrappedDEK).addGroups (groups ++ [identity.id]))
  let sealedAccess ← access.seal P oid d.accessCryptor
  putSealedObject sealedObject false
  putSealedAccess sealedAccess false
  return oid

/-- `Update` (d1.go:169-211). -/
def D1.update (P : Prims) (d : D1) (token : GoString) (oid : Oid) (object : Object) : Prog Unit := do
  let identity ← d.verifyAccess token scopeUpdate
  let access ← getSealedAccess P oid
  let plainAccess ← Prog.ofExcept (d.authorizeAccess P identity scopeUpdate access)
  let (wrappedDEK, sealedObject) ← object.seal P oid d.objectCryptor
  let plainAccess := { plainAccess with wrappedDEK := some wrappedDEK }
  let sealedAccess ← plainAccess.seal P oid d.accessCryptor
  putSealedObject sealedObject true
  putSealedAccess sealedAccess true

/-- `Decrypt` (d1.go:222-249). -/
def D1.decrypt (P : Prims) (d : D1) (token : GoString) (oid : Oid) : Prog Object := do
  let identity ← d.verifyAccess token scopeDecrypt
  let access ← getSealedAccess P oid
  let plainAccess ← Prog.ofExcept (d.authorizeAccess P identity scopeDecrypt access)
  let object ← getSealedObject P oid
  Prog.ofExcept (object.unseal P plainAccess.wrappedDEK d.objectCryptor)

/-- `Delete` (d1.go:258-305). -/
def D1.delete (P : Prims) (d : D1) (token : GoString) (oid : Oid) : Prog Unit := do
  let identity ← d.verifyAccess token scopeDelete
  (getSealedAccess P oid).attempt fun r => match r with
    | .error .accessNotFound => .ret ()
    | .error e => .err e
    | .ok access => do
      let _ ← Prog.ofExcept (d.authorizeAccess P identity scopeDelete access)
      deleteSealedObject oid
      deleteSealedAccess oid

/-- `CreateToken` (d1.go:315-323). -/
def D1.createToken (P : Prims) (d : D1) (plaintext : NBytes) : Prog SealedToken := do
  let token ← newToken plaintext tokenValidity
  token.seal P d.tokenCryptor

/-- `GetTokenContents` (d1.go:327-337). -/
def D1.getTokenContents (P : Prims) (d : D1) (token : SealedToken) : Prog NBytes := do
  let plainToken ← token.unseal P d.tokenCryptor
  return plainToken.plaintext

/-- `GetAccessGroups` (d1.go:353-374). -/
def D1.getAccessGroups (P : Prims) (d : D1) (token : GoString) (oid : Oid) : Prog GoSet := do
  let identity ← d.verifyAccess token scopeGetAccessGroups
  let access ← getSealedAccess P oid
  let plainAccess ← Prog.ofExcept (d.authorizeAccess P identity scopeGetAccessGroups access)
  return plainAccess.groups

/-- `AddGroupsToAccess` (d1.go:383-413). -/
def D1.addGroupsToAccess (P : Prims) (d : D1) (token : GoString) (oid : Oid) (groups : List GoString) :
    Prog Unit := do
  let identity ← d.verifyAccess token scopeModifyAccessGroups
  let access ← getSealedAccess P oid
  let plainAccess ← Prog.ofExcept (d.authorizeAccess P identity scopeModifyAccessGroups access)
  let plainAccess ← Prog.ofPanic (plainAccess.addGroups groups)
  let access ← plainAccess.seal P oid d.accessCryptor
  putSealedAccess access true

/-- `RemoveGroupsFromAccess` (d1.go:422-452). -/
def D1.removeGroupsFromAccess (P : Prims) (d : D1) (token : GoString) (oid : Oid) (groups : List GoString) :
    Prog Unit := do
  let identity ← d.verifyAccess token scopeModifyAccessGroups
  let access ← getSealedAccess P oid
  let plainAccess ← Prog.ofExcept (d.authorizeAccess P identity scopeModifyAccessGroups access)
  let plainAccess := plainAccess.removeGroups groups
  let access ← plainAccess.seal P oid d.accessCryptor
  putSealedAccess access true

/-- `AuthorizeIdentity` (d1.go:462-479). -/
def D1.authorizeIdentity (P : Prims) (d : D1) (token : GoString) (oid : Oid) : Prog Unit := do
  let identity ← d.verifyAccess token scopeGetAccessGroups
  let access ← getSealedAccess P oid
  let _ ← Prog.ofExcept (d.authorizeAccess P identity scopeGetAccessGroups access)
  return ()

end D1
