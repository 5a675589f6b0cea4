import Verif.Model.D1
/-!
# id/standalone.go, id/standalone_user.go, id/standalone_group.go
-/
namespace D1

/-- "SaltAndHash" -/
def nSaltAndHash : GoString := [83, 97, 108, 116, 65, 110, 100, 72, 97, 115, 104]
/-- "Scopes" -/
def nScopes : GoString := [83, 99, 111, 112, 101, 115]
/-- "UID" -/
def nUID : GoString := [85, 73, 68]
/-- "GID" -/
def nGID : GoString := [71, 73, 68]

/-- `DataTypeSealedUser`, `DataTypeSealedGroup` (id/standalone.go:46-49): `iota + io.DataTypeEnd + 1`. -/
def dtUser : DataType := 0 + dtEnd + 1
def dtGroup : DataType := 1 + dtEnd + 1

/-! ## Groups -/

/-- `Group` (id/standalone_group.go:24-26). -/
structure Group where
  scopes : Scope
  deriving DecidableEq

/-- `SealedGroup` (id/standalone_group.go:29-35). -/
structure SealedGroup where
  gid : GoString
  ciphertext : NBytes
  wrappedKey : NBytes
  deriving DecidableEq

def Group.toJ (g : Group) : J := .obj (.cons nScopes (.ofScope g.scopes) .nil)

def Group.ofJ (j : J) : Option Group := do
  let fs ← j.fields
  let s ← field fs nScopes scopeNone J.toScope
  return ⟨s⟩

def SealedGroup.toJ (g : SealedGroup) : J :=
  .obj (.cons nGID (.str g.gid) (.cons nCiphertext (.ofBytes g.ciphertext)
    (.cons nWrappedKey (.ofBytes g.wrappedKey) .nil)))

def SealedGroup.ofJ (j : J) : Option SealedGroup := do
  let fs ← j.fields
  let i ← field fs nGID [] J.toStr
  let c ← field fs nCiphertext none J.toBytes
  let w ← field fs nWrappedKey none J.toBytes
  return ⟨i, c, w⟩

/-- `newGroup` (id/standalone_group.go:38-40). -/
def newGroup (scopes : List Scope) : Group := ⟨scopeUnion scopes⟩

/-- `Group.seal` (id/standalone_group.go:43-50). -/
def Group.seal (P : Prims) (g : Group) (gid : GoString) (c : Cryptor) : Prog SealedGroup := do
  let (wrappedKey, ciphertext) ← c.encrypt P g.toJ (.str gid)
  return ⟨gid, some ciphertext, some wrappedKey⟩

/-- `SealedGroup.unseal` (id/standalone_group.go:53-59). -/
def SealedGroup.unseal (P : Prims) (g : SealedGroup) (c : Cryptor) : Except Err Group :=
  c.decrypt P Group.ofJ (.str g.gid) g.wrappedKey.bytes g.ciphertext.bytes

/-- `SealedGroup.verify` (id/standalone_group.go:62-65). -/
def SealedGroup.verify (P : Prims) (g : SealedGroup) (c : Cryptor) : Bool := (g.unseal P c).toBool

/-! ## Users -/

/-- `User` (id/standalone_user.go:29-37). -/
structure User where
  saltAndHash : NBytes
  scopes : Scope
  groups : GoSet
  deriving DecidableEq

/-- `SealedUser` (id/standalone_user.go:40-46). -/
structure SealedUser where
  uid : GoString
  ciphertext : NBytes
  wrappedKey : NBytes
  deriving DecidableEq

def User.toJ (u : User) : J :=
  .obj (.cons nSaltAndHash (.ofBytes u.saltAndHash) (.cons nScopes (.ofScope u.scopes)
    (.cons nGroups (.ofSet u.groups) .nil)))

def User.ofJ (j : J) : Option User := do
  let fs ← j.fields
  let h ← field fs nSaltAndHash none J.toBytes
  let s ← field fs nScopes scopeNone J.toScope
  let g ← field fs nGroups none J.toSet
  return ⟨h, s, g⟩

def SealedUser.toJ (u : SealedUser) : J :=
  .obj (.cons nUID (.str u.uid) (.cons nCiphertext (.ofBytes u.ciphertext)
    (.cons nWrappedKey (.ofBytes u.wrappedKey) .nil)))

def SealedUser.ofJ (j : J) : Option SealedUser := do
  let fs ← j.fields
  let i ← field fs nUID [] J.toStr
  let c ← field fs nCiphertext none J.toBytes
  let w ← field fs nWrappedKey none J.toBytes
  return ⟨i, c, w⟩

/-- `newUser` (id/standalone_user.go:51-64). -/
def newUser (P : Prims) (scopes : List Scope) : Prog (User × GoString) := do
  let (pwd, saltAndHash) ← generatePassword P
  return (⟨some saltAndHash, scopeUnion scopes, some []⟩, pwd)

/-- `User.authenticate` (id/standalone_user.go:67-72). -/
def User.authenticate (P : Prims) (u : User) (password : GoString) : Prog Unit := do
  let ok ← Prog.ofPanic (comparePassword P password u.saltAndHash.bytes)
  if !ok then .err .idNotAuthenticated else .ret ()

/-- `User.changePassword` (id/standalone_user.go:76-89); returns the updated user as well. -/
def User.changePassword (P : Prims) (u : User) (oldPassword : GoString) : Prog (User × GoString) := do
  u.authenticate P oldPassword
  let (newPwd, newSaltAndHash) ← generatePassword P
  return ({ u with saltAndHash := some newSaltAndHash }, newPwd)

/-- `User.seal` (id/standalone_user.go:92-98). -/
def User.seal (P : Prims) (u : User) (uid : GoString) (c : Cryptor) : Prog SealedUser := do
  let (wrappedKey, ciphertext) ← c.encrypt P u.toJ (.str uid)
  return ⟨uid, some ciphertext, some wrappedKey⟩

/-- `User.addGroups` (id/standalone_user.go:101-105). -/
def User.addGroups (u : User) (gids : List GoString) : Option User :=
  (addToSet u.groups gids).map fun g => { u with groups := g }

/-- `User.removeGroups` (id/standalone_user.go:108-112). -/
def User.removeGroups (u : User) (gids : List GoString) : User := { u with groups := removeFromSet u.groups gids }

/-- `User.containsGroups` (id/standalone_user.go:116-123). -/
def User.containsGroups (u : User) (gids : List GoString) : Bool := gids.all u.groups.has

/-- `SealedUser.unseal` (id/standalone_user.go:131-137). -/
def SealedUser.unseal (P : Prims) (u : SealedUser) (c : Cryptor) : Except Err User :=
  c.decrypt P User.ofJ (.str u.uid) u.wrappedKey.bytes u.ciphertext.bytes

/-- `SealedUser.verify` (id/standalone_user.go:140-143). -/
def SealedUser.verify (P : Prims) (u : SealedUser) (c : Cryptor) : Bool := (u.unseal P c).toBool

/-! ## id/standalone.go -/

/-- `StandaloneConfig` (id/standalone.go:52-56). -/
structure StandaloneConfig where
  uek : Bytes
  gek : Bytes
  tek : Bytes

/-- `Standalone` (id/standalone.go:59-65). -/
structure Standalone where
  userCryptor : Cryptor
  groupCryptor : Cryptor
  tokenCryptor : Cryptor

/-- `NewStandalone` (id/standalone.go:69-89). -/
def newStandalone (config : StandaloneConfig) : Except Err Standalone :=
  match newAESCryptor config.uek with
  | .error e => .error e
  | .ok userCryptor => match newAESCryptor config.gek with
    | .error e => .error e
    | .ok groupCryptor => match newAESCryptor config.tek with
      | .error e => .error e
      | .ok tokenCryptor => .ok ⟨userCryptor, groupCryptor, tokenCryptor⟩

/-- `putUser` (id/standalone.go:332-359). -/
def Standalone.putUser (P : Prims) (s : Standalone) (uid : GoString) (user : User) (update : Bool) : Prog Unit := do
  let sealedUser ← user.seal P uid s.userCryptor
  let b := sealedUser.toJ.render
  if update then ioUpdate (onNotFound .userNotFound) sealedUser.uid dtUser b
  else ioPut (onAlreadyExists .userAlreadyExists) sealedUser.uid dtUser b

/-- `getUser` (id/standalone.go:362-384). -/
def Standalone.getUser (P : Prims) (s : Standalone) (uid : GoString) : Prog User := do
  let userBytes ← ioGet (onNotFound .userNotFound) uid dtUser
  match (P.unmarshal userBytes).bind SealedUser.ofJ with
  | none => .err .json
  | some user => Prog.ofExcept (user.unseal P s.userCryptor)

/-- `putGroup` (id/standalone.go:387-405). -/
def Standalone.putGroup (P : Prims) (s : Standalone) (gid : GoString) (group : Group) : Prog Unit := do
  let sealedGroup ← group.seal P gid s.groupCryptor
  let groupBytes := sealedGroup.toJ.render
  ioPut (onAlreadyExists .groupAlreadyExists) sealedGroup.gid dtGroup groupBytes

/-- `getGroup` (id/standalone.go:408-430). -/
def Standalone.getGroup (P : Prims) (s : Standalone) (gid : GoString) : Prog Group := do
  let groupBytes ← ioGet (onNotFound .groupNotFound) gid dtGroup
  match (P.unmarshal groupBytes).bind SealedGroup.ofJ with
  | none => .err .json
  | some group => Prog.ofExcept (group.unseal P s.groupCryptor)

/-- The loop of `GetIdentity` (id/standalone.go:115-122). -/
def Standalone.fetchGroups (P : Prims) (s : Standalone) : List GoString → Prog (List (GoString × AccessGroup))
  | [] => .ret []
  | gid :: r => do
    let group ← s.getGroup P gid
    let rest ← s.fetchGroups P r
    return (gid, ⟨gid, group.scopes⟩) :: rest

/-- `GetIdentity` (id/standalone.go:91-129). -/
def Standalone.getIdentity (P : Prims) (s : Standalone) (token : GoString) : Prog Identity :=
  match tokenFromString P token with
  | .error _ => .err .idNotAuthenticated
  | .ok sealedToken =>
    (sealedToken.unseal P s.tokenCryptor).attempt fun r => match r with
      | .error _ => .err .idNotAuthenticated
      | .ok plainToken => do
        let id := plainToken.plaintext.bytes
        let user ← s.getUser P id
        let groups ← s.fetchGroups P (user.groups.getD [])
        return ⟨id, user.scopes, groups⟩

/-- `NewUser` (id/standalone.go:132-152). -/
def Standalone.newUser (P : Prims) (s : Standalone) (scopes : List Scope) : Prog (GoString × GoString) := do
  let uid ← newV4
  let uidString := uuidText uid
  let (user, password) ← D1.newUser P scopes
  s.putUser P uidString user false
  return (uidString, password)

/-- Go's `if err != nil { return …, e }`: any error is replaced by `e`. -/
def Prog.mapErr {α : Type} (p : Prog α) (e : Err) : Prog α :=
  p.attempt fun r => match r with
    | .error _ => .err e
    | .ok a => .ret a

/-- `LoginUser` (id/standalone.go:156-183). -/
def Standalone.loginUser (P : Prims) (s : Standalone) (uid password : GoString) : Prog (GoString × Int) := do
  let user ← (s.getUser P uid).mapErr .idNotAuthenticated
  (user.authenticate P password).mapErr .idNotAuthenticated
  let token ← newToken (some uid) tokenValidity
  let sealedToken ← (token.seal P s.tokenCryptor).mapErr .idNotAuthenticated
  let tokenString := sealedToken.string P
  return (tokenString, sealedToken.expiryTime.unix)

/-- `ChangeUserPassword` (id/standalone.go:187-206). -/
def Standalone.changeUserPassword (P : Prims) (s : Standalone) (uid oldPassword : GoString) : Prog GoString := do
  let user ← (s.getUser P uid).mapErr .idNotAuthenticated
  let (user, newPwd) ← (user.changePassword P oldPassword).mapErr .idNotAuthenticated
  s.putUser P uid user true
  return newPwd

/-- The membership check of `AddUserToGroups` and `RemoveUserFromGroups` (id/standalone.go:222-227, 258-263). -/
def checkMembership (identity : Identity) (gids : List GoString) : Prog Unit :=
  if gids.all (fun gid => decide (gid ∈ identity.getIDs)) then .ret () else .err .idNotAuthorized

/-- `AddUserToGroups` (id/standalone.go:210-242). -/
def Standalone.addUserToGroups (P : Prims) (s : Standalone) (token uid : GoString) (gids : List GoString) :
    Prog Unit := do
  let identity ← s.getIdentity P token
  checkMembership identity gids
  let user ← s.getUser P uid
  let user ← Prog.ofPanic (user.addGroups gids)
  s.putUser P uid user true

/-- `RemoveUserFromGroups` (id/standalone.go:246-277). -/
def Standalone.removeUserFromGroups (P : Prims) (s : Standalone) (token uid : GoString) (gids : List GoString) :
    Prog Unit := do
  let identity ← s.getIdentity P token
  checkMembership identity gids
  let user ← s.getUser P uid
  s.putUser P uid (user.removeGroups gids) true

/-- `DeleteUser` (id/standalone.go:280-291). -/
def Standalone.deleteUser (P : Prims) (s : Standalone) (token uid : GoString) : Prog Unit := do
  let _ ← s.getIdentity P token
  ioDelete .io uid dtUser

/-- `NewGroup` (id/standalone.go:294-328). -/
def Standalone.newGroup (P : Prims) (s : Standalone) (token : GoString) (scopes : List Scope) : Prog GoString := do
  let identity ← s.getIdentity P token
  let gid ← newV4
  let gidString := uuidText gid
  s.putGroup P gidString (D1.newGroup scopes)
  let user ← s.getUser P identity.id
  let user ← Prog.ofPanic (user.addGroups [gidString])
  s.putUser P identity.id user true
  return gidString

end D1
