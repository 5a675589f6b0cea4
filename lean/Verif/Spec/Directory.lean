import Verif.Model.Id
/-!
# Specification: a directory of users and groups

What the documentation of id/standalone.go promises, without keys, ciphertexts or storage.  What a token string says (`who`), the
clock, and the drawn IDs and passwords are inputs of each call.
-/
namespace D1.Spec

/-- A user: which passwords are accepted, its own scopes, and the set of groups it is in. -/
structure DirUser where
  accepts : GoString → Bool
  scopes : Scope
  groups : List GoString

structure Dir where
  users : GoString → Option DirUser
  groups : GoString → Option Scope

inductive DirCall where
  | newUser (scopes : List Scope)
  | loginUser (uid password : GoString)
  | changePassword (uid password : GoString)
  | newGroup (token : GoString) (scopes : List Scope)
  | addUser (token uid : GoString) (gids : List GoString)
  | removeUser (token uid : GoString) (gids : List GoString)
  | deleteUser (token uid : GoString)
  | getIdentity (token : GoString)

/-- What a caller sees.  A token is known by what it says at each instant. -/
inductive DirRes where
  | user (uid password : GoString)
  | token (says : Int → Option GoString) (expiry : Int)
  | password (p : GoString)
  | group (gid : GoString)
  | unit
  | identity (id : GoString) (scopes : Scope) (groups : GoString → Option Scope)

/-- The inputs of a call that come from outside: what the token says, the instant at which a new token is made, and the drawn ID
and password. -/
structure DirIn where
  who : Option GoString
  now : Int
  newId : GoString
  password : GoString
  accepts : GoString → Bool

/-- All scopes of a list. -/
def allScopes (l : List Scope) : Scope := l.foldr (fun s r => s ||| r) 0

def Dir.setUser (d : Dir) (uid : GoString) (u : Option DirUser) : Dir :=
  { d with users := fun x => if x = uid then u else d.users x }

def Dir.setGroup (d : Dir) (gid : GoString) (s : Scope) : Dir :=
  { d with groups := fun x => if x = gid then some s else d.groups x }

/-- The caller: it must present a valid token, exist, and all its groups must exist. -/
def Dir.identify (d : Dir) : Option GoString → Except Err (GoString × DirUser)
  | none => .error .idNotAuthenticated
  | some uid => match d.users uid with
    | none => .error .userNotFound
    | some u => if u.groups.all fun g => (d.groups g).isSome then .ok (uid, u) else .error .groupNotFound

/-- A call by an identified caller. -/
def Dir.asCaller (d : Dir) (who : Option GoString) (f : GoString → DirUser → Except Err DirRes × Dir) : Except Err DirRes × Dir :=
  match d.identify who with
  | .error e => (.error e, d)
  | .ok (me, u) => f me u

/-- The groups a user is in, with their scopes. -/
def Dir.memberships (d : Dir) (u : DirUser) (g : GoString) : Option Scope := if g ∈ u.groups then d.groups g else none

/-- Add to a set. -/
def addAll (set : List GoString) (new : List GoString) : List GoString :=
  new.foldl (fun l g => if g ∈ l then l else l ++ [g]) set

/-- One hour. -/
def hour : Int := 3600 * 1000000000

/-- One call. -/
def dirStep (d : Dir) (inp : DirIn) : DirCall → Except Err DirRes × Dir
  | .newUser scopes => match d.users inp.newId with
    | some _ => (.error .userAlreadyExists, d)
    | none => (.ok (.user inp.newId inp.password), d.setUser inp.newId (some ⟨inp.accepts, allScopes scopes, []⟩))
  | .loginUser uid password => match d.users uid with
    | none => (.error .idNotAuthenticated, d)
    | some u => if u.accepts password
      then (.ok (.token (fun now => if now ≤ inp.now + hour then some uid else none) ((inp.now + hour) / 1000000000)), d)
      else (.error .idNotAuthenticated, d)
  | .changePassword uid password => match d.users uid with
    | none => (.error .idNotAuthenticated, d)
    | some u => if u.accepts password then (.ok (.password inp.password), d.setUser uid (some { u with accepts := inp.accepts }))
      else (.error .idNotAuthenticated, d)
  | .newGroup _ scopes => d.asCaller inp.who fun me u => match d.groups inp.newId with
    | some _ => (.error .groupAlreadyExists, d)
    | none => (.ok (.group inp.newId),
        (d.setGroup inp.newId (allScopes scopes)).setUser me (some { u with groups := addAll u.groups [inp.newId] }))
  | .addUser _ uid gids => d.asCaller inp.who fun me u =>
    if gids.all (fun g => decide (g = me ∨ g ∈ u.groups)) then match d.users uid with
      | none => (.error .userNotFound, d)
      | some v => (.ok .unit, d.setUser uid (some { v with groups := addAll v.groups gids }))
    else (.error .idNotAuthorized, d)
  | .removeUser _ uid gids => d.asCaller inp.who fun me u =>
    if gids.all (fun g => decide (g = me ∨ g ∈ u.groups)) then match d.users uid with
      | none => (.error .userNotFound, d)
      | some v => (.ok .unit, d.setUser uid (some { v with groups := v.groups.filter fun g => !gids.contains g }))
    else (.error .idNotAuthorized, d)
  | .deleteUser _ uid => d.asCaller inp.who fun _ _ => (.ok .unit, d.setUser uid none)
  | .getIdentity _ => d.asCaller inp.who fun me u => (.ok (.identity me u.scopes (d.memberships u)), d)

/-- The token a call presents. -/
def DirCall.token : DirCall → GoString
  | .newUser _ | .loginUser .. | .changePassword .. => []
  | .newGroup t _ | .addUser t .. | .removeUser t .. | .deleteUser t _ | .getIdentity t => t

/-- The results of a sequence of calls. -/
def dirHist : Dir → List (DirIn × DirCall) → List (Except Err DirRes)
  | _, [] => []
  | d, (inp, c) :: r => (dirStep d inp c).1 :: dirHist (dirStep d inp c).2 r

end D1.Spec
