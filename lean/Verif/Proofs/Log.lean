import Verif.Model.Log
import Verif.Proofs.Yields
import Verif.Proofs.D1Run
import Verif.Proofs.DirRun
import Verif.Props.Index
/-!
# Programs that log
-/
namespace D1
open Spec Prog

namespace LProg
variable {α β γ : Type}

/-- The program without its log lines. -/
def erase : LProg α → Prog α
  | ret a => .ret a
  | err e => .err e
  | panic => .panic
  | diverge => .diverge
  | op e k => .op e fun r => (k r).erase
  | log _ k => k.erase

@[simp] theorem pure_eq (a : α) : (pure a : LProg α) = .ret a := rfl
@[simp] theorem bind_eq (p : LProg α) (k : α → LProg β) : (p >>= k) = p.bind k := rfl
@[simp] theorem liftM_eq (p : Prog α) : (liftM p : LProg α) = lift p := rfl

@[simp] theorem erase_ret (a : α) : (ret a).erase = .ret a := rfl
@[simp] theorem erase_err (e : Err) : (err e : LProg α).erase = .err e := rfl
@[simp] theorem erase_panic : (panic : LProg α).erase = .panic := rfl
@[simp] theorem erase_diverge : (diverge : LProg α).erase = .diverge := rfl
@[simp] theorem erase_log (l : Line) (k : LProg α) : (log l k).erase = k.erase := rfl

@[simp] theorem erase_bind (p : LProg α) (k : α → LProg β) : (p.bind k).erase = p.erase.bind fun a => (k a).erase := by
  induction p with
  | op e c ih => simp only [bind, erase, Prog.bind, ih]
  | log l c ih => simp only [bind, erase, ih]
  | _ => rfl

@[simp] theorem erase_attempt (p : LProg α) (k : Except Err α → LProg β) : (p.attempt k).erase = p.erase.attempt fun a => (k a).erase := by
  induction p with
  | op e c ih => simp only [attempt, erase, Prog.attempt, ih]
  | log l c ih => simp only [attempt, erase, ih]
  | _ => rfl

@[simp] theorem erase_lift (p : Prog α) : (lift p).erase = p := by
  induction p with
  | op e c ih => simp only [lift, erase, ih]
  | _ => rfl

@[simp] theorem erase_mapErr (p : LProg α) (e : Err) : (p.mapErr e).erase = p.erase.mapErr e := by
  rw [mapErr, erase_attempt, Prog.mapErr]
  congr 1
  funext r
  cases r <;> rfl

@[simp] theorem erase_ite (c : Prop) [Decidable c] (p q : LProg α) : (if c then p else q).erase = if c then p.erase else q.erase := by
  split <;> rfl

end LProg

@[simp] theorem erase_say (lg : Fields) (m : String) : (lg.say m).erase = .ret () := rfl
@[simp] theorem erase_sayWith (lg : Fields) (k : String) (v : LogVal) (m : String) : (lg.sayWith k v m).erase = .ret () := rfl

section
variable {P : Prims} {d : D1} {idp : LIdProvider} {idp0 : IdProvider}

/-- The logging Identity Provider is the one of the model, with logging. -/
def LogsAs (idp : LIdProvider) (idp0 : IdProvider) : Prop := ∀ lg t, (idp lg t).erase = idp0 t

theorem erase_verifyAccess (h : LogsAs idp d.idProvider) (lg : Fields) (t : GoString) (s : Scope) :
    (D1.verifyAccessL idp lg t s).erase = (d.verifyAccess t s).bind fun i => .ret (i, lg.withUserID i.id) := by
  simp only [D1.verifyAccessL, LProg.bind_eq, LProg.erase_bind, erase_say, ret_bind, LProg.erase_attempt, h lg t, D1.verifyAccess]
  induction d.idProvider t with
  | op e k ih => simp only [op_attempt, op_bind, ih]
  | ret i =>
    simp only [ret_attempt, LProg.bind_eq, LProg.erase_bind, erase_say, ret_bind, LProg.erase_ite, erase_sayWith, LProg.erase_err, LProg.erase_ret]
    split <;> rfl
  | _ => rfl

@[simp] theorem erase_authorizeAccess (lg : Fields) (i : Identity) (s : Scope) (a : SealedAccess) :
    (d.authorizeAccessL P lg i s a).erase = ofExcept (d.authorizeAccess P i s a) := by
  simp [D1.authorizeAccessL]
@[simp] theorem erase_putSealedObject (lg : Fields) (o : SealedObject) (u : Bool) : (putSealedObjectL lg o u).erase = putSealedObject o u := by
  simp [putSealedObjectL]
@[simp] theorem erase_putSealedAccess (lg : Fields) (a : SealedAccess) (u : Bool) : (putSealedAccessL lg a u).erase = putSealedAccess a u := by
  simp [putSealedAccessL]
@[simp] theorem erase_getSealedObject (lg : Fields) (o : Oid) : (getSealedObjectL P lg o).erase = getSealedObject P o := by
  simp [getSealedObjectL]
@[simp] theorem erase_getSealedAccess (lg : Fields) (o : Oid) : (getSealedAccessL P lg o).erase = getSealedAccess P o := by
  simp [getSealedAccessL]
@[simp] theorem erase_deleteSealedObject (lg : Fields) (o : Oid) : (deleteSealedObjectL lg o).erase = deleteSealedObject o := by
  simp [deleteSealedObjectL]
@[simp] theorem erase_deleteSealedAccess (lg : Fields) (o : Oid) : (deleteSealedAccessL lg o).erase = deleteSealedAccess o := by
  simp [deleteSealedAccessL]

/-- The calls on D1, with logging. -/
def callProgL (P : Prims) (d : D1) (idp : LIdProvider) (lg : Fields) : Call → LProg Res
  | .encrypt t o gs => (d.encryptL P idp lg t o gs).bind fun oid => .ret (.oid oid)
  | .update t oid o => (d.updateL P idp lg t oid o).bind fun _ => .ret .unit
  | .decrypt t oid => (d.decryptL P idp lg t oid).bind fun o => .ret (.object o)
  | .delete t oid => (d.deleteL P idp lg t oid).bind fun _ => .ret .unit
  | .getGroups t oid => (d.getAccessGroupsL P idp lg t oid).bind fun g => .ret (.groups g.has)
  | .addGroups t oid gs => (d.addGroupsToAccessL P idp lg t oid gs).bind fun _ => .ret .unit
  | .removeGroups t oid gs => (d.removeGroupsFromAccessL P idp lg t oid gs).bind fun _ => .ret .unit
  | .authorize t oid => (d.authorizeIdentityL P idp lg t oid).bind fun _ => .ret .unit

theorem erase_call (h : LogsAs idp d.idProvider) (lg : Fields) (c : Call) : (callProgL P d idp lg c).erase = callProg P d c := by
  cases c with
  | delete t oid =>
    simp only [callProgL, callProg, D1.deleteL, D1.delete, LProg.bind_eq, LProg.erase_bind, erase_verifyAccess h, Prog.bind_assoc, ret_bind, Prog.bind_eq,
      LProg.erase_attempt, erase_getSealedAccess, LProg.erase_ret]
    congr 1
    funext i
    congr 2
    funext r
    rcases r with e | a
    · cases e <;> rfl
    · simp
  | _ => simp [callProgL, callProg, D1.encryptL, D1.encrypt, D1.updateL, D1.update, D1.decryptL, D1.decrypt, D1.getAccessGroupsL, D1.getAccessGroups,
      D1.addGroupsToAccessL, D1.addGroupsToAccess, D1.removeGroupsFromAccessL, D1.removeGroupsFromAccess, D1.authorizeIdentityL, D1.authorizeIdentity,
      erase_verifyAccess h, Prog.bind_assoc]

theorem erase_createToken (lg : Fields) (p : NBytes) : (d.createTokenL P lg p).erase = d.createToken P p := by
  simp [D1.createTokenL, D1.createToken]

theorem erase_getTokenContents (lg : Fields) (t : SealedToken) : (d.getTokenContentsL P lg t).erase = d.getTokenContents P t := by
  simp [D1.getTokenContentsL, D1.getTokenContents]

theorem erase_newD1 (lg : Fields) (keys : Except Err Keys) (idp0 : IdProvider) : (newD1L lg keys idp0).erase = ofExcept (newD1 keys idp0) := by
  simp only [newD1L, newD1]
  cases keys with
  | error e => rfl
  | ok k =>
    simp only [LProg.bind_eq, LProg.erase_bind, erase_say, ret_bind, LProg.liftM_eq, LProg.erase_lift, LProg.pure_eq, LProg.erase_ret]
    cases newAESCryptor k.kek with
    | error e => rfl
    | ok a => cases newAESCryptor k.aek with
      | error e => rfl
      | ok b => cases newAESCryptor k.tek <;> rfl

theorem erase_newSecureIndex (lg : Fields) (keys : Except Err Keys) (idp0 : IdProvider) :
    (newSecureIndexL lg keys idp0).erase = ofExcept (newSecureIndex keys idp0) := by simp [newSecureIndexL]

variable {s : Standalone}

@[simp] theorem erase_putUser (lg : Fields) (u : GoString) (x : User) (b : Bool) : (s.putUserL P lg u x b).erase = s.putUser P u x b := by
  simp [Standalone.putUserL, Standalone.putUser]
@[simp] theorem erase_getUser (lg : Fields) (u : GoString) : (s.getUserL P lg u).erase = s.getUser P u := by
  simp only [Standalone.getUserL, Standalone.getUser, LProg.bind_eq, LProg.erase_bind, erase_say, ret_bind, LProg.liftM_eq, LProg.erase_lift, Prog.bind_eq]
  congr 1
  funext b
  cases (P.unmarshal b).bind SealedUser.ofJ <;> simp
@[simp] theorem erase_putGroup (lg : Fields) (u : GoString) (x : Group) : (s.putGroupL P lg u x).erase = s.putGroup P u x := by
  simp [Standalone.putGroupL, Standalone.putGroup]
@[simp] theorem erase_getGroup (lg : Fields) (u : GoString) : (s.getGroupL P lg u).erase = s.getGroup P u := by
  simp only [Standalone.getGroupL, Standalone.getGroup, LProg.bind_eq, LProg.erase_bind, erase_say, ret_bind, LProg.liftM_eq, LProg.erase_lift, Prog.bind_eq]
  congr 1
  funext b
  cases (P.unmarshal b).bind SealedGroup.ofJ <;> simp
@[simp] theorem erase_fetchGroups (lg : Fields) (l : List GoString) : (s.fetchGroupsL P lg l).erase = s.fetchGroups P l := by
  induction l with
  | nil => rfl
  | cons g r ih => simp [Standalone.fetchGroupsL, Standalone.fetchGroups, ih]

/-- The Standalone provider logs as it answers. -/
@[simp] theorem erase_getIdentity (lg : Fields) (t : GoString) : (s.getIdentityL P lg t).erase = s.getIdentity P t := by
  simp only [Standalone.getIdentityL, Standalone.getIdentity]
  cases tokenFromString P t with
  | error e => rfl
  | ok st =>
    simp only [LProg.bind_eq, LProg.erase_bind, erase_say, ret_bind, LProg.erase_attempt, LProg.erase_lift]
    congr 1
    funext r
    cases r <;> simp

/-- The calls on the Standalone provider, with logging. -/
def dirProgL (P : Prims) (s : Standalone) (lg : Fields) : DirCall → LProg DirRes
  | .newUser sc => (s.newUserL P lg sc).bind fun r => .ret (.user r.1 r.2)
  | .loginUser u p => (s.loginUserL P lg u p).bind fun r => .ret (.token (tokenUser P s.tokenCryptor r.1) r.2)
  | .changePassword u p => (s.changeUserPasswordL P lg u p).bind fun r => .ret (.password r)
  | .newGroup t sc => (s.newGroupL P lg t sc).bind fun g => .ret (.group g)
  | .addUser t u gs => (s.addUserToGroupsL P lg t u gs).bind fun _ => .ret .unit
  | .removeUser t u gs => (s.removeUserFromGroupsL P lg t u gs).bind fun _ => .ret .unit
  | .deleteUser t u => (s.deleteUserL P lg t u).bind fun _ => .ret .unit
  | .getIdentity t => (s.getIdentityL P lg t).bind fun i => .ret (.identity i.id i.scopes fun g => (lookupGroup i.groups g).map (·.scopes))

theorem erase_dir (lg : Fields) (c : DirCall) : (dirProgL P s lg c).erase = dirProg P s c := by
  cases c <;> simp [dirProgL, dirProg, Standalone.newUserL, Standalone.newUser, Standalone.loginUserL, Standalone.loginUser, Standalone.changeUserPasswordL,
    Standalone.changeUserPassword, Standalone.newGroupL, Standalone.newGroup, Standalone.addUserToGroupsL, Standalone.addUserToGroups,
    Standalone.removeUserFromGroupsL, Standalone.removeUserFromGroups, Standalone.deleteUserL, Standalone.deleteUser]

variable {i : SecureIndex}

theorem erase_ixVerifyAccess (h : LogsAs idp i.idProvider) (lg : Fields) (t : GoString) :
    ∀ {β : Type} (k : Fields → LProg β) (k0 : Prog β), (∀ lg, (k lg).erase = k0) →
      ((SecureIndex.verifyAccessL idp lg t).bind k).erase = (i.verifyAccess t).bind fun _ => k0 := by
  intro β k k0 hk
  simp only [SecureIndex.verifyAccessL, LProg.bind_eq, LProg.erase_bind, erase_say, ret_bind, LProg.erase_attempt, h lg t, SecureIndex.verifyAccess, hk]
  induction i.idProvider t with
  | op e c ih => simp only [op_attempt, op_bind, ih]
  | ret x =>
    simp only [ret_attempt, LProg.bind_eq, LProg.erase_bind, erase_say, ret_bind, LProg.erase_ite, erase_sayWith, LProg.erase_err, LProg.erase_ret]
    split <;> rfl
  | _ => rfl

@[simp] theorem erase_putSealedNode (lg : Fields) (t : Bytes) (n : SealedNode) (u : Bool) : (putSealedNodeL lg t n u).erase = putSealedNode t n u := by
  simp [putSealedNodeL]
@[simp] theorem erase_getSealedNode (lg : Fields) (t : Bytes) : (getSealedNodeL P lg t).erase = getSealedNode P t := by
  simp [getSealedNodeL]
@[simp] theorem erase_deleteSealedNode (lg : Fields) (t : Bytes) : (deleteSealedNodeL lg t).erase = deleteSealedNode t := by
  simp [deleteSealedNodeL]
@[simp] theorem erase_getNextNode (lg : Fields) (n : Node) (tg : Tagger) (cr : Cryptor) : (getNextNodeL P lg n tg cr).erase = getNextNode P n tg cr := by
  simp [getNextNodeL, getNextNode]
@[simp] theorem erase_getLastNode (lg : Fields) (fuel : Nat) (tg : Tagger) (cr : Cryptor) : (getLastNodeL P lg fuel tg cr).erase = getLastNode P fuel tg cr := by
  have : ∀ fuel n, (getLastNodeLoopL P lg tg cr fuel n).erase = getLastNodeLoop P tg cr fuel n := by
    intro fuel
    induction fuel with
    | zero => intro n; rfl
    | succ f ih =>
      intro n
      rw [getLastNodeLoopL, getLastNodeLoop, LProg.erase_attempt, erase_getNextNode]
      congr 1
      funext r
      rcases r with e | a
      · cases e <;> rfl
      · exact ih a
  simp [getLastNodeL, getLastNode, this]
@[simp] theorem erase_searchLoop (lg : Fields) (tg : Tagger) (cr : Cryptor) (fuel : Nat) : ∀ n acc,
    (searchLoopL P lg tg cr fuel n acc).erase = searchLoop P tg cr fuel n acc := by
  induction fuel with
  | zero => intro n acc; rfl
  | succ f ih =>
    intro n acc
    rw [searchLoopL, searchLoop, LProg.erase_attempt, erase_getNextNode]
    congr 1
    funext r
    rcases r with e | a
    · cases e <;> rfl
    · exact ih a _
@[simp] theorem erase_deleteNode (lg : Fields) (l : Bytes) (n : Node) (tg : Tagger) (cr : Cryptor) :
    (deleteNodeL P lg l n tg cr).erase = deleteNode P l n tg cr := by
  simp only [deleteNodeL, deleteNode, LProg.bind_eq, LProg.erase_bind, erase_say, ret_bind, LProg.erase_attempt, erase_getNextNode]
  congr 1
  funext r
  rcases r with e | a
  · cases e <;> simp
  · simp
@[simp] theorem erase_deleteLoop (lg : Fields) (tg : Tagger) (cr : Cryptor) (x : GoString) (fuel : Nat) : ∀ n,
    (deleteLoopL P lg tg cr x fuel n).erase = deleteLoop P tg cr x fuel n := by
  induction fuel with
  | zero => intro n; rfl
  | succ f ih =>
    intro n
    rw [deleteLoopL, deleteLoop, LProg.erase_attempt, erase_getNextNode]
    congr 1
    funext r
    rcases r with e | a
    · cases e <;> rfl
    · simp [ih]

/-- The calls on the index, with logging. -/
def ixProgL (P : Prims) (i : SecureIndex) (idp : LIdProvider) (lg : Fields) (fuel : Nat) : IxCall → LProg IxRes
  | .add t kw id => (i.addL P idp lg fuel t kw id).bind fun _ => .ret .unit
  | .search t kw => (i.searchL P idp lg fuel t kw).bind fun l => .ret (.ids l)
  | .delete t kw id => (i.deleteL P idp lg fuel t kw id).bind fun _ => .ret .unit

theorem erase_ix (h : LogsAs idp i.idProvider) (lg : Fields) (fuel : Nat) (c : IxCall) : (ixProgL P i idp lg fuel c).erase = ixProg P i fuel c := by
  cases c with
  | add t kw id =>
    refine (LProg.erase_bind _ _).trans (congrArg (fun p => Prog.bind p _) ?_)
    refine erase_ixVerifyAccess h _ t _ _ fun lg => ?_
    simp
  | search t kw =>
    refine (LProg.erase_bind _ _).trans (congrArg (fun p => Prog.bind p _) ?_)
    refine erase_ixVerifyAccess h _ t _ _ fun lg => ?_
    simp
  | delete t kw id =>
    refine (LProg.erase_bind _ _).trans (congrArg (fun p => Prog.bind p _) ?_)
    refine erase_ixVerifyAccess h _ t _ _ fun lg => ?_
    simp

end
end D1
