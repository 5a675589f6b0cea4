import Verif.Model.Index
import Verif.Model.Standalone
/-!
# log/log.go and the debug log of every method

The methods again, this time with what they log.  A logger is the list of fields that it adds to every line (`zerolog.Context`).
`log.CopyCtxLogger` (log/log.go:26-29) copies it, so a method works on its own value; `log.Ctx` (log/log.go:32-34) is that value.  `verifyAccess`
adds a field to the logger of its caller, so here it returns it.  How zerolog prints lines is not modelled, and neither is the text of errors.
-/
namespace D1

/-- What a field of a log line holds: `Str` (a text of the program or a value), `Strs`, `Stringer`, `Time`, `Err` of zerolog. -/
inductive LogVal where
  | text (s : GoString)
  | texts (l : List GoString)
  | const (s : String)
  | time (t : GoTime)
  | error (e : Err)
  deriving DecidableEq

/-- The fields of a logger, or those of one line. -/
abbrev Fields := List (String × LogVal)

/-- A line at debug level: the fields of the logger, its own fields, the message. -/
structure Line where
  logger : Fields
  own : Fields
  msg : String
  deriving DecidableEq

/-- A program that also logs. -/
inductive LProg (α : Type) where
  | ret (a : α)
  | err (e : Err)
  | panic
  | diverge
  | op (e : Eff) (k : e.Resp → LProg α)
  | log (l : Line) (k : LProg α)

namespace LProg
variable {α β : Type}

/-- Sequencing, as for `Prog`. -/
def bind : LProg α → (α → LProg β) → LProg β
  | ret a, k => k a
  | err e, _ => err e
  | panic, _ => panic
  | diverge, _ => diverge
  | op e c, k => op e (fun r => (c r).bind k)
  | log l c, k => log l (c.bind k)

instance : Monad LProg where
  pure := LProg.ret
  bind := LProg.bind

/-- Inspecting the error of a call, as for `Prog`. -/
def attempt : LProg α → (Except Err α → LProg β) → LProg β
  | ret a, k => k (.ok a)
  | err e, k => k (.error e)
  | panic, _ => panic
  | diverge, _ => diverge
  | op e c, k => op e (fun r => (c r).attempt k)
  | log l c, k => log l (c.attempt k)

/-- Code that logs nothing. -/
def lift : Prog α → LProg α
  | .ret a => ret a
  | .err e => err e
  | .panic => panic
  | .diverge => diverge
  | .op e c => op e (fun r => lift (c r))

/-- `if err != nil { return …, e }`. -/
def mapErr (p : LProg α) (e : Err) : LProg α :=
  p.attempt fun r => match r with
    | .error _ => .err e
    | .ok a => .ret a

end LProg

/-- Code that logs nothing, used as a program that logs. -/
instance : MonadLift Prog LProg := ⟨LProg.lift⟩

/-- `log.Ctx(ctx).Debug().Msg(msg)`. -/
def Fields.say (lg : Fields) (msg : String) : LProg Unit := .log ⟨lg, [], msg⟩ (.ret ())

/-- `log.Ctx(ctx).Debug().….Msg(msg)` with a field. -/
def Fields.sayWith (lg : Fields) (key : String) (v : LogVal) (msg : String) : LProg Unit := .log ⟨lg, [(key, v)], msg⟩ (.ret ())

/-- `log.WithMethod` (log/log.go:37-41). -/
def Fields.withMethod (lg : Fields) (method : String) : Fields := lg ++ [("method", .const method)]

/-- `log.WithUserID` (log/log.go:44-48). -/
def Fields.withUserID (lg : Fields) (uid : GoString) : Fields := lg ++ [("uid", .text uid)]

/-- `log.WithObjectID` (log/log.go:51-55). -/
def Fields.withObjectID (lg : Fields) (oid : Oid) : Fields := lg ++ [("oid", .text (uuidText oid))]

/-- `Scope.String` (id/scope.go:55-78). -/
def Scope.name (s : Scope) : String :=
  if s = scopeEncrypt then "encrypt"
  else if s = scopeDecrypt then "decrypt"
  else if s = scopeUpdate then "update"
  else if s = scopeDelete then "delete"
  else if s = scopeCreateToken then "create token"
  else if s = scopeGetTokenContents then "get token"
  else if s = scopeGetAccessGroups then "get access"
  else if s = scopeModifyAccessGroups then "modify access"
  else if s = scopeIndex then "index"
  else "unknown"

/-- An Identity Provider that logs, given the logger of the caller. -/
abbrev LIdProvider := Fields → GoString → LProg Identity

/-! ## utility.go and d1.go -/

section
variable (P : Prims) (d : D1) (idp : LIdProvider)

/-- `verifyAccess` (utility.go:33-49); also returns the logger. -/
def D1.verifyAccessL (lg : Fields) (token : GoString) (scope : Scope) : LProg (Identity × Fields) := do
  lg.say "authenticating caller"
  (idp lg token).attempt fun r => match r with
    | .error e => do
      lg.sayWith "error" (.error e) "authentication failed"
      .err .notAuthenticated
    | .ok identity => do
      let lg := lg.withUserID identity.id
      lg.say "authorizing caller"
      if !identity.scopes.contains scope then do
        lg.sayWith "scope" (.const (Scope.name scope)) "scope missing"
        .err .notAuthorized
      else .ret (identity, lg)

/-- `authorizeAccess` (utility.go:59-73). -/
def D1.authorizeAccessL (lg : Fields) (identity : Identity) (scopes : Scope) (a : SealedAccess) : LProg Access := do
  lg.say "authorizing access"
  Prog.ofExcept (d.authorizeAccess P identity scopes a)

/-- `putSealedObject` (utility.go:77-98). -/
def putSealedObjectL (lg : Fields) (o : SealedObject) (update : Bool) : LProg Unit := do
  if update then lg.say "updating stored object" else lg.say "storing new object"
  putSealedObject o update

/-- `getSealedObject` (utility.go:101-119). -/
def getSealedObjectL (lg : Fields) (oid : Oid) : LProg SealedObject := do
  lg.say "getting stored object"
  getSealedObject P oid

/-- `deleteSealedObject` (utility.go:122-125). -/
def deleteSealedObjectL (lg : Fields) (oid : Oid) : LProg Unit := do
  lg.say "deleting stored object"
  deleteSealedObject oid

/-- `putSealedAccess` (utility.go:129-150). -/
def putSealedAccessL (lg : Fields) (a : SealedAccess) (update : Bool) : LProg Unit := do
  if update then lg.say "updating stored access" else lg.say "storing new access"
  putSealedAccess a update

/-- `getSealedAccess` (utility.go:153-171). -/
def getSealedAccessL (lg : Fields) (oid : Oid) : LProg SealedAccess := do
  lg.say "getting stored access"
  getSealedAccess P oid

/-- `deleteSealedAccess` (utility.go:174-177). -/
def deleteSealedAccessL (lg : Fields) (oid : Oid) : LProg Unit := do
  lg.say "deleting stored access"
  deleteSealedAccess oid

/-- `Encrypt` (d1.go:119-159). -/
def D1.encryptL (lg : Fields) (token : GoString) (object : Object) (groups : List GoString) : LProg Oid := do
  let lg := lg.withMethod "encrypt"
  let (identity, lg) ← D1.verifyAccessL idp lg token scopeEncrypt
  let oid ← newV4
  let lg := lg.withObjectID oid
  lg.say "sealing object"
  let (wrappedDEK, sealedObject) ← object.seal P oid d.objectCryptor
  lg.sayWith "groups" (.texts groups) "creating access"
  let access ← Prog.ofPanic ((newAccess wrappedDEK).addGroups (groups ++ [identity.id]))
  lg.say "sealing access"
  let sealedAccess ← access.seal P oid d.accessCryptor
  putSealedObjectL lg sealedObject false
  putSealedAccessL lg sealedAccess false
  return oid

/-- `Update` (d1.go:169-211). -/
def D1.updateL (lg : Fields) (token : GoString) (oid : Oid) (object : Object) : LProg Unit := do
  let lg := (lg.withMethod "update").withObjectID oid
  let (identity, lg) ← D1.verifyAccessL idp lg token scopeUpdate
  let access ← getSealedAccessL P lg oid
  let plainAccess ← d.authorizeAccessL P lg identity scopeUpdate access
  lg.say "sealing object"
  let (wrappedDEK, sealedObject) ← object.seal P oid d.objectCryptor
  lg.say "sealing access"
  let plainAccess := { plainAccess with wrappedDEK := some wrappedDEK }
  let sealedAccess ← plainAccess.seal P oid d.accessCryptor
  putSealedObjectL lg sealedObject true
  putSealedAccessL lg sealedAccess true

/-- `Decrypt` (d1.go:222-249). -/
def D1.decryptL (lg : Fields) (token : GoString) (oid : Oid) : LProg Object := do
  let lg := (lg.withMethod "decrypt").withObjectID oid
  let (identity, lg) ← D1.verifyAccessL idp lg token scopeDecrypt
  let access ← getSealedAccessL P lg oid
  let plainAccess ← d.authorizeAccessL P lg identity scopeDecrypt access
  let object ← getSealedObjectL P lg oid
  lg.say "unsealing object"
  Prog.ofExcept (object.unseal P plainAccess.wrappedDEK d.objectCryptor)

/-- `Delete` (d1.go:258-305). -/
def D1.deleteL (lg : Fields) (token : GoString) (oid : Oid) : LProg Unit := do
  let lg := (lg.withMethod "delete").withObjectID oid
  let (identity, lg) ← D1.verifyAccessL idp lg token scopeDelete
  (getSealedAccessL P lg oid).attempt fun r => match r with
    | .error .accessNotFound => lg.say "object not found"
    | .error e => .err e
    | .ok access => do
      let _ ← d.authorizeAccessL P lg identity scopeDelete access
      deleteSealedObjectL lg oid
      deleteSealedAccessL lg oid

/-- `CreateToken` (d1.go:315-323). -/
def D1.createTokenL (lg : Fields) (plaintext : NBytes) : LProg SealedToken := do
  let lg := lg.withMethod "create token"
  let token ← newToken plaintext tokenValidity
  lg.sayWith "expiry" (.time token.expiryTime) "token created"
  lg.say "sealing token"
  token.seal P d.tokenCryptor

/-- `GetTokenContents` (d1.go:327-337). -/
def D1.getTokenContentsL (lg : Fields) (token : SealedToken) : LProg NBytes := do
  let lg := lg.withMethod "get token contents"
  lg.sayWith "expiry" (.time token.expiryTime) "unsealing token"
  let plainToken ← token.unseal P d.tokenCryptor
  return plainToken.plaintext

/-- `GetAccessGroups` (d1.go:353-374). -/
def D1.getAccessGroupsL (lg : Fields) (token : GoString) (oid : Oid) : LProg GoSet := do
  let lg := (lg.withMethod "get access groups").withObjectID oid
  let (identity, lg) ← D1.verifyAccessL idp lg token scopeGetAccessGroups
  let access ← getSealedAccessL P lg oid
  let plainAccess ← d.authorizeAccessL P lg identity scopeGetAccessGroups access
  return plainAccess.groups

/-- `AddGroupsToAccess` (d1.go:383-413). -/
def D1.addGroupsToAccessL (lg : Fields) (token : GoString) (oid : Oid) (groups : List GoString) : LProg Unit := do
  let lg := (lg.withMethod "add groups to access").withObjectID oid
  let (identity, lg) ← D1.verifyAccessL idp lg token scopeModifyAccessGroups
  let access ← getSealedAccessL P lg oid
  let plainAccess ← d.authorizeAccessL P lg identity scopeModifyAccessGroups access
  lg.sayWith "groups" (.texts groups) "adding groups"
  let plainAccess ← Prog.ofPanic (plainAccess.addGroups groups)
  lg.say "sealing access"
  let access ← plainAccess.seal P oid d.accessCryptor
  putSealedAccessL lg access true

/-- `RemoveGroupsFromAccess` (d1.go:422-452). -/
def D1.removeGroupsFromAccessL (lg : Fields) (token : GoString) (oid : Oid) (groups : List GoString) : LProg Unit := do
  let lg := (lg.withMethod "remove groups from access").withObjectID oid
  let (identity, lg) ← D1.verifyAccessL idp lg token scopeModifyAccessGroups
  let access ← getSealedAccessL P lg oid
  let plainAccess ← d.authorizeAccessL P lg identity scopeModifyAccessGroups access
  lg.sayWith "groups" (.texts groups) "removing groups"
  let plainAccess := plainAccess.removeGroups groups
  lg.say "sealing access"
  let access ← plainAccess.seal P oid d.accessCryptor
  putSealedAccessL lg access true

/-- `AuthorizeIdentity` (d1.go:462-479). -/
def D1.authorizeIdentityL (lg : Fields) (token : GoString) (oid : Oid) : LProg Unit := do
  let lg := (lg.withMethod "authorize identity").withObjectID oid
  let (identity, lg) ← D1.verifyAccessL idp lg token scopeGetAccessGroups
  let access ← getSealedAccessL P lg oid
  let _ ← d.authorizeAccessL P lg identity scopeGetAccessGroups access
  return ()

end

/-! ## id/standalone.go -/

section
variable (P : Prims) (s : Standalone)

/-- `putUser` (id/standalone.go:332-359). -/
def Standalone.putUserL (lg : Fields) (uid : GoString) (user : User) (update : Bool) : LProg Unit := do
  lg.say "sealing user"
  let sealedUser ← user.seal P uid s.userCryptor
  let b := sealedUser.toJ.render
  if update then do
    lg.say "updating stored user"
    ioUpdate (onNotFound .userNotFound) sealedUser.uid dtUser b
  else do
    lg.say "storing new user"
    ioPut (onAlreadyExists .userAlreadyExists) sealedUser.uid dtUser b

/-- `getUser` (id/standalone.go:362-384). -/
def Standalone.getUserL (lg : Fields) (uid : GoString) : LProg User := do
  lg.say "getting stored user"
  let userBytes ← ioGet (onNotFound .userNotFound) uid dtUser
  match (P.unmarshal userBytes).bind SealedUser.ofJ with
  | none => .err .json
  | some user => do
    lg.say "unsealing user"
    Prog.ofExcept (user.unseal P s.userCryptor)

/-- `putGroup` (id/standalone.go:387-405); the first message is the code's. -/
def Standalone.putGroupL (lg : Fields) (gid : GoString) (group : Group) : LProg Unit := do
  lg.say "sealing user"
  let sealedGroup ← group.seal P gid s.groupCryptor
  let groupBytes := sealedGroup.toJ.render
  lg.say "storing new group"
  ioPut (onAlreadyExists .groupAlreadyExists) sealedGroup.gid dtGroup groupBytes

/-- `getGroup` (id/standalone.go:408-430). -/
def Standalone.getGroupL (lg : Fields) (gid : GoString) : LProg Group := do
  lg.say "getting stored group"
  let groupBytes ← ioGet (onNotFound .groupNotFound) gid dtGroup
  match (P.unmarshal groupBytes).bind SealedGroup.ofJ with
  | none => .err .json
  | some group => do
    lg.say "unsealing group"
    Prog.ofExcept (group.unseal P s.groupCryptor)

/-- The loop of `GetIdentity` (id/standalone.go:115-122). -/
def Standalone.fetchGroupsL (lg : Fields) : List GoString → LProg (List (GoString × AccessGroup))
  | [] => .ret []
  | gid :: r => do
    let group ← s.getGroupL P lg gid
    let rest ← Standalone.fetchGroupsL lg r
    return (gid, ⟨gid, group.scopes⟩) :: rest

/-- `GetIdentity` (id/standalone.go:91-129). -/
def Standalone.getIdentityL (lg : Fields) (token : GoString) : LProg Identity :=
  let lg := lg.withMethod "get identity"
  match tokenFromString P token with
  | .error _ => .err .idNotAuthenticated
  | .ok sealedToken => do
    lg.say "unsealing token"
    (LProg.lift (sealedToken.unseal P s.tokenCryptor)).attempt fun r => match r with
      | .error _ => .err .idNotAuthenticated
      | .ok plainToken => do
        let id := plainToken.plaintext.bytes
        let user ← s.getUserL P lg id
        lg.say ("fetching " ++ toString (user.groups.getD []).length ++ " groups")
        let groups ← s.fetchGroupsL P lg (user.groups.getD [])
        return ⟨id, user.scopes, groups⟩

/-- `NewUser` (id/standalone.go:132-152). -/
def Standalone.newUserL (lg : Fields) (scopes : List Scope) : LProg (GoString × GoString) := do
  let lg := lg.withMethod "new user"
  let uid ← newV4
  let uidString := uuidText uid
  lg.say "creating new user"
  let (user, password) ← D1.newUser P scopes
  s.putUserL P lg uidString user false
  return (uidString, password)

/-- `LoginUser` (id/standalone.go:156-183). -/
def Standalone.loginUserL (lg : Fields) (uid password : GoString) : LProg (GoString × Int) := do
  let lg := lg.withMethod "login user"
  let user ← (s.getUserL P lg uid).mapErr .idNotAuthenticated
  lg.say "authenticating"
  (user.authenticate P password).mapErr .idNotAuthenticated
  lg.say "creating token"
  let token ← newToken (some uid) tokenValidity
  let sealedToken ← (token.seal P s.tokenCryptor).mapErr .idNotAuthenticated
  let tokenString := sealedToken.string P
  return (tokenString, sealedToken.expiryTime.unix)

/-- `ChangeUserPassword` (id/standalone.go:187-206). -/
def Standalone.changeUserPasswordL (lg : Fields) (uid oldPassword : GoString) : LProg GoString := do
  let lg := lg.withMethod "change password"
  let user ← (s.getUserL P lg uid).mapErr .idNotAuthenticated
  lg.say "updating password"
  let (user, newPwd) ← (user.changePassword P oldPassword).mapErr .idNotAuthenticated
  s.putUserL P lg uid user true
  return newPwd

/-- `AddUserToGroups` (id/standalone.go:210-242). -/
def Standalone.addUserToGroupsL (lg : Fields) (token uid : GoString) (gids : List GoString) : LProg Unit := do
  let lg := lg.withMethod "add user to group"
  let identity ← s.getIdentityL P lg token
  lg.say ("checking membership of " ++ toString gids.length ++ " groups")
  checkMembership identity gids
  let user ← s.getUserL P lg uid
  lg.say ("adding user to " ++ toString gids.length ++ " groups")
  let user ← Prog.ofPanic (user.addGroups gids)
  s.putUserL P lg uid user true

/-- `RemoveUserFromGroups` (id/standalone.go:246-277). -/
def Standalone.removeUserFromGroupsL (lg : Fields) (token uid : GoString) (gids : List GoString) : LProg Unit := do
  let lg := lg.withMethod "remove user from group"
  let identity ← s.getIdentityL P lg token
  lg.say ("checking membership of " ++ toString gids.length ++ " groups")
  checkMembership identity gids
  let user ← s.getUserL P lg uid
  lg.say ("removing user from " ++ toString gids.length ++ " groups")
  s.putUserL P lg uid (user.removeGroups gids) true

/-- `DeleteUser` (id/standalone.go:280-291). -/
def Standalone.deleteUserL (lg : Fields) (token uid : GoString) : LProg Unit := do
  let lg := lg.withMethod "delete user"
  let _ ← s.getIdentityL P lg token
  lg.say "deleting user"
  ioDelete .io uid dtUser

/-- `NewGroup` (id/standalone.go:294-328). -/
def Standalone.newGroupL (lg : Fields) (token : GoString) (scopes : List Scope) : LProg GoString := do
  let lg := lg.withMethod "new group"
  let identity ← s.getIdentityL P lg token
  let gid ← newV4
  let gidString := uuidText gid
  lg.say "creating new group"
  s.putGroupL P lg gidString (D1.newGroup scopes)
  lg.say "adding caller to group"
  let user ← s.getUserL P lg identity.id
  let user ← Prog.ofPanic (user.addGroups [gidString])
  s.putUserL P lg identity.id user true
  return gidString

end

/-! ## index/index.go -/

section
variable (P : Prims) (i : SecureIndex) (idp : LIdProvider)

/-- `verifyAccess` (index/index.go:303-319); also returns the logger. -/
def SecureIndex.verifyAccessL (lg : Fields) (token : GoString) : LProg Fields := do
  lg.say "authenticating caller"
  (idp lg token).attempt fun r => match r with
    | .error e => do
      lg.sayWith "error" (.error e) "authentication failed"
      .err .ixNotAuthenticated
    | .ok identity => do
      let lg := lg.withUserID identity.id
      lg.say "authorizing caller"
      if !identity.scopes.contains scopeIndex then do
        lg.sayWith "scope" (.const (Scope.name scopeIndex)) "scope missing"
        .err .ixNotAuthorized
      else .ret lg

/-- `putSealedNode` (index/index.go:346-369). -/
def putSealedNodeL (lg : Fields) (tag : Bytes) (n : SealedNode) (update : Bool) : LProg Unit := do
  lg.say "storing node"
  if update then lg.say "updating stored node" else lg.say "creating new node"
  putSealedNode tag n update

/-- `getSealedNode` (index/index.go:372-389). -/
def getSealedNodeL (lg : Fields) (tag : Bytes) : LProg SealedNode := do
  lg.say "getting stored node"
  getSealedNode P tag

/-- `deleteSealedNode` (index/index.go:392-395). -/
def deleteSealedNodeL (lg : Fields) (tag : Bytes) : LProg Unit := do
  lg.say "deleting stored node"
  deleteSealedNode tag

/-- `getNextNode` (index/index.go:278-299). -/
def getNextNodeL (lg : Fields) (currentNode : Node) (tagger : Tagger) (cryptor : Cryptor) : LProg Node := do
  lg.say "getting next node"
  let nextLabel ← Prog.ofPanic (currentNode.nextLabel P tagger)
  let nextSealedNode ← getSealedNodeL P lg nextLabel
  Prog.ofExcept (nextSealedNode.unseal P nextLabel cryptor)

/-- The loop of `getLastNode` (index/index.go:262-274). -/
def getLastNodeLoopL (lg : Fields) (tagger : Tagger) (cryptor : Cryptor) : Nat → Node → LProg Node
  | 0, _ => .diverge
  | fuel + 1, decryptedNode =>
    (getNextNodeL P lg decryptedNode tagger cryptor).attempt fun r => match r with
      | .error .nodeNotFound => .ret decryptedNode
      | .error e => .err e
      | .ok nextDecrypted => getLastNodeLoopL lg tagger cryptor fuel nextDecrypted

/-- `getLastNode` (index/index.go:255-275). -/
def getLastNodeL (lg : Fields) (fuel : Nat) (tagger : Tagger) (cryptor : Cryptor) : LProg Node := do
  lg.say "getting last node"
  getLastNodeLoopL P lg tagger cryptor fuel zeroNode

/-- `Add` (index/index.go:80-118). -/
def SecureIndex.addL (lg : Fields) (fuel : Nat) (token keyword identifier : GoString) : LProg Unit := do
  let lg := lg.withMethod "add"
  let lg ← SecureIndex.verifyAccessL idp lg token
  let (tagger, cryptor) ← i.getTaggerAndCryptor P keyword
  let last ← getLastNodeL P lg fuel tagger cryptor
  lg.say "adding new node"
  let label ← Prog.ofPanic (last.nextLabel P tagger)
  let newNode : Node := ⟨identifier, (last.nextCounter + 1) % 2 ^ 64⟩
  let sealedNode ← newNode.seal P label cryptor
  putSealedNodeL lg label sealedNode false

/-- The loop of `Search` (index/index.go:141-153). -/
def searchLoopL (lg : Fields) (tagger : Tagger) (cryptor : Cryptor) : Nat → Node → List GoString → LProg (List GoString)
  | 0, _, _ => .diverge
  | fuel + 1, decryptedNode, identifiers =>
    (getNextNodeL P lg decryptedNode tagger cryptor).attempt fun r => match r with
      | .error .nodeNotFound => .ret identifiers
      | .error e => .err e
      | .ok next => searchLoopL lg tagger cryptor fuel next (identifiers ++ [next.identifier])

/-- `Search` (index/index.go:121-156). -/
def SecureIndex.searchL (lg : Fields) (fuel : Nat) (token keyword : GoString) : LProg (List GoString) := do
  let lg := lg.withMethod "search"
  let lg ← SecureIndex.verifyAccessL idp lg token
  let (tagger, cryptor) ← i.getTaggerAndCryptor P keyword
  lg.say "searching the index"
  searchLoopL P lg tagger cryptor fuel zeroNode []

/-- `deleteNode` (index/index.go:212-251). -/
def deleteNodeL (lg : Fields) (label : Bytes) (node : Node) (tagger : Tagger) (cryptor : Cryptor) : LProg Unit := do
  lg.say "deleting node"
  (getNextNodeL P lg node tagger cryptor).attempt fun r => match r with
    | .error .nodeNotFound => do
      lg.say "last node, deleting"
      deleteSealedNodeL lg label
    | .error e => .err e
    | .ok next => do
      lg.say "overwriting with next node"
      let updatedSealedNode ← next.seal P label cryptor
      putSealedNodeL lg label updatedSealedNode true
      lg.say "deleting next node"
      let nextLabel ← Prog.ofPanic (node.nextLabel P tagger)
      deleteSealedNodeL lg nextLabel

/-- The loop of `Delete` (index/index.go:178-204). -/
def deleteLoopL (lg : Fields) (tagger : Tagger) (cryptor : Cryptor) (identifier : GoString) : Nat → Node → LProg Unit
  | 0, _ => .diverge
  | fuel + 1, current =>
    (getNextNodeL P lg current tagger cryptor).attempt fun r => match r with
      | .error .nodeNotFound => .ret ()
      | .error e => .err e
      | .ok next =>
        if next.identifier = identifier then do
          let label ← Prog.ofPanic (current.nextLabel P tagger)
          deleteNodeL P lg label next tagger cryptor
          deleteLoopL lg tagger cryptor identifier fuel current
        else deleteLoopL lg tagger cryptor identifier fuel next

/-- `Delete` (index/index.go:159-206). -/
def SecureIndex.deleteL (lg : Fields) (fuel : Nat) (token keyword identifier : GoString) : LProg Unit := do
  let lg := lg.withMethod "delete"
  let lg ← SecureIndex.verifyAccessL idp lg token
  let (tagger, cryptor) ← i.getTaggerAndCryptor P keyword
  lg.say "deleting entries from index"
  deleteLoopL P lg tagger cryptor identifier fuel zeroNode

end

/-! ## The constructors -/

/-- `New` (d1.go:66-99). -/
def newD1L (lg : Fields) (keys : Except Err Keys) (idProvider : IdProvider) : LProg D1 := do
  lg.say "getting keys"
  match keys with
  | .error e => .err e
  | .ok keys => do
    lg.say "creating object cryptor"
    let objectCryptor ← Prog.ofExcept (newAESCryptor keys.kek)
    lg.say "creating access cryptor"
    let accessCryptor ← Prog.ofExcept (newAESCryptor keys.aek)
    lg.say "creating token cryptor"
    let tokenCryptor ← Prog.ofExcept (newAESCryptor keys.tek)
    return ⟨idProvider, objectCryptor, accessCryptor, tokenCryptor⟩

/-- `NewSecureIndex` (index/index.go:59-77). -/
def newSecureIndexL (lg : Fields) (keys : Except Err Keys) (idProvider : IdProvider) : LProg SecureIndex := do
  lg.say "getting keys"
  Prog.ofExcept (newSecureIndex keys idProvider)

/-- `Static.GetKeys` (key/static.go:34-36). -/
def staticGetKeys (keys : Keys) : Except Err Keys := .ok keys

end D1
