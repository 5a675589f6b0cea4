import Verif.Spec.Vault
import Verif.Spec.Directory
import Verif.Spec.Index
/-!
# Specification: the whole library as one machine

Users with passwords, groups, sessions, objects with access lists, an index and tokens, without keys, ciphertexts, hashes or storage.  Inputs of a call
from outside are the clock and the names that are made up: IDs, passwords, token texts.
-/
namespace D1.Spec

structure LibUser where
  password : GoString
  scopes : Scope
  groups : List GoString

/-- A session begins with a login.  Whoever presents the text is the user until the session expires. -/
structure Session where
  text : GoString
  uid : GoString
  expires : Int

/-- A token made by `CreateToken`. -/
structure Issued where
  token : SealedToken
  contents : NBytes
  expires : Int

structure Library where
  users : GoString → Option LibUser
  groups : GoString → Option Scope
  sessions : List Session
  objects : Vault
  index : Index
  tokens : List Issued

inductive LibCall where
  | dir (c : DirCall)
  | d1 (c : Call)
  | index (c : IxCall)
  | createToken (contents : NBytes)
  | tokenContents (token : SealedToken)

/-- What a caller sees. -/
inductive LibRes where
  | dir (r : DirRes)
  | session (text : GoString) (expires : Int)
  | d1 (r : Res)
  | index (r : IxRes)
  | token (t : SealedToken)
  | contents (b : NBytes)

/-- Inputs from outside: the time at the beginning of the call and the time at which it makes a token, and the names it makes up. -/
structure LibIn where
  now : Int
  issued : Int
  newId : GoString
  fresh : Oid
  password : GoString
  text : GoString
  token : SealedToken

/-- Who presents this text. -/
def Library.who (l : Library) (now : Int) (text : GoString) : Option GoString :=
  match l.sessions.find? fun s => s.text = text with
  | some s => if now ≤ s.expires then some s.uid else none
  | none => none

/-- The user must exist, and all its groups. -/
def Library.identify (l : Library) (now : Int) (text : GoString) : Except Err (GoString × LibUser) :=
  match l.who now text with
  | none => .error .idNotAuthenticated
  | some uid => match l.users uid with
    | none => .error .userNotFound
    | some u => if u.groups.all fun g => (l.groups g).isSome then .ok (uid, u) else .error .groupNotFound

/-- The identity that goes with a text. -/
def Library.identity (l : Library) (now : Int) (text : GoString) : Option Identity := match l.identify now text with
  | .ok (uid, u) => some ⟨uid, u.scopes, u.groups.map fun g => (g, ⟨g, (l.groups g).getD 0⟩)⟩
  | .error _ => none

def Library.setUser (l : Library) (uid : GoString) (u : Option LibUser) : Library :=
  { l with users := fun x => if x = uid then u else l.users x }

def Library.setGroup (l : Library) (gid : GoString) (s : Scope) : Library :=
  { l with groups := fun x => if x = gid then some s else l.groups x }

/-- A call by an identified caller. -/
def Library.asCaller (l : Library) (now : Int) (text : GoString) (f : GoString → LibUser → Except Err LibRes × Library) : Except Err LibRes × Library :=
  match l.identify now text with
  | .error e => (.error e, l)
  | .ok (me, u) => f me u

/-- One call of the Standalone provider. -/
def libDir (l : Library) (i : LibIn) : DirCall → Except Err LibRes × Library
  | .newUser scopes => match l.users i.newId with
    | some _ => (.error .userAlreadyExists, l)
    | none => (.ok (.dir (.user i.newId i.password)), l.setUser i.newId (some ⟨i.password, allScopes scopes, []⟩))
  | .loginUser uid password => match l.users uid with
    | none => (.error .idNotAuthenticated, l)
    | some u => if u.password = password
      then (.ok (.session i.text ((i.issued + hour) / 1000000000)), { l with sessions := ⟨i.text, uid, i.issued + hour⟩ :: l.sessions })
      else (.error .idNotAuthenticated, l)
  | .changePassword uid password => match l.users uid with
    | none => (.error .idNotAuthenticated, l)
    | some u => if u.password = password then (.ok (.dir (.password i.password)), l.setUser uid (some { u with password := i.password }))
      else (.error .idNotAuthenticated, l)
  | .newGroup text scopes => l.asCaller i.now text fun me u => match l.groups i.newId with
    | some _ => (.error .groupAlreadyExists, l)
    | none => (.ok (.dir (.group i.newId)),
        (l.setGroup i.newId (allScopes scopes)).setUser me (some { u with groups := addAll u.groups [i.newId] }))
  | .addUser text uid gids => l.asCaller i.now text fun me u =>
    if gids.all (fun g => decide (g = me ∨ g ∈ u.groups)) then match l.users uid with
      | none => (.error .userNotFound, l)
      | some v => (.ok (.dir .unit), l.setUser uid (some { v with groups := addAll v.groups gids }))
    else (.error .idNotAuthorized, l)
  | .removeUser text uid gids => l.asCaller i.now text fun me u =>
    if gids.all (fun g => decide (g = me ∨ g ∈ u.groups)) then match l.users uid with
      | none => (.error .userNotFound, l)
      | some v => (.ok (.dir .unit), l.setUser uid (some { v with groups := v.groups.filter fun g => !gids.contains g }))
    else (.error .idNotAuthorized, l)
  | .deleteUser text uid => l.asCaller i.now text fun _ _ => (.ok (.dir .unit), l.setUser uid none)
  | .getIdentity text => l.asCaller i.now text fun me u =>
    (.ok (.dir (.identity me u.scopes fun g => if g ∈ u.groups then l.groups g else none)), l)

/-- One call of the library.  `norm` is what happens to group names and identifiers when they are recorded. -/
def libStep (norm : GoString → GoString) (l : Library) (i : LibIn) : LibCall → Except Err LibRes × Library
  | .dir c => libDir l i c
  | .d1 c => ((step norm l.objects (l.identity i.now c.token) i.fresh c).1.map .d1,
      { l with objects := (step norm l.objects (l.identity i.now c.token) i.fresh c).2 })
  | .index c => ((ixStep norm l.index (l.identity i.now c.token) c).1.map .index,
      { l with index := (ixStep norm l.index (l.identity i.now c.token) c).2 })
  | .createToken contents => (.ok (.token i.token), { l with tokens := ⟨i.token, contents, i.issued + hour⟩ :: l.tokens })
  | .tokenContents token => (match l.tokens.find? fun x => x.token = token with
    | some x => if i.now ≤ x.expires then .ok (.contents x.contents) else .error .tokenExpired
    | none => .error .tokenExpired, l)

/-- A program that uses the library: it makes calls one after the other and decides from the results what to do next. -/
inductive Client (α : Type) where
  | done (a : α)
  | call (c : LibCall) (k : Except Err LibRes → Client α)

/-- What a client comes to, and the library afterwards.  `ins n` are the inputs of its `n`th call. -/
def Client.play {α : Type} (norm : GoString → GoString) : Client α → Library → (Nat → LibIn) → α × Library
  | .done a, l, _ => (a, l)
  | .call c k, l, ins => (k (libStep norm l (ins 0) c).1).play norm (libStep norm l (ins 0) c).2 fun n => ins (n + 1)

/-- The text that a call presents. -/
def LibCall.text : LibCall → Option GoString
  | .dir (.newUser _) | .dir (.loginUser ..) | .dir (.changePassword ..) | .createToken _ | .tokenContents _ => none
  | .dir c => some c.token
  | .d1 c => some c.token
  | .index c => some c.token

/-- The call presents only what calls have returned, and the right password. -/
def CallKnown (l : Library) (c : LibCall) : Prop :=
  (∀ t, c.text = some t → ∃ e ∈ l.sessions, e.text = t) ∧ (∀ t, c = .tokenContents t → ∃ e ∈ l.tokens, e.token = t) ∧
    ∀ uid p u, c = .dir (.loginUser uid p) ∨ c = .dir (.changePassword uid p) → l.users uid = some u → p = u.password

/-- All calls of the client do. -/
def Client.Careful {α : Type} (norm : GoString → GoString) : Client α → Library → (Nat → LibIn) → Prop
  | .done _, _, _ => True
  | .call c k, l, ins => CallKnown l c ∧ (k (libStep norm l (ins 0) c).1).Careful norm (libStep norm l (ins 0) c).2 fun n => ins (n + 1)

/-- At the beginning. -/
def emptyLibrary : Library := ⟨fun _ => none, fun _ => none, [], fun _ => none, fun _ => [], []⟩

end D1.Spec
