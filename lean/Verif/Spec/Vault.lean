import Verif.Model.D1
/-!
# Specification: an access-controlled map from object IDs to objects

What the documentation of d1.go promises, without keys, ciphertexts or storage.  A caller is what the Identity Provider
says about the token (`none`: rejected).  An access list is a set of IDs.  `norm` is what happens to an ID when it is
recorded in an access list: the identity function in the intended reading.
-/
namespace D1.Spec

/-- One object: its contents and who is on its access list. -/
structure Entry where
  object : Object
  members : GoString → Bool

abbrev Vault := Oid → Option Entry

/-- What a caller sees. -/
inductive Res where
  | oid (o : Oid)
  | unit
  | object (o : Object)
  | groups (members : GoString → Bool)

inductive Call where
  | encrypt (token : GoString) (object : Object) (groups : List GoString)
  | update (token : GoString) (oid : Oid) (object : Object)
  | decrypt (token : GoString) (oid : Oid)
  | delete (token : GoString) (oid : Oid)
  | getGroups (token : GoString) (oid : Oid)
  | addGroups (token : GoString) (oid : Oid) (groups : List GoString)
  | removeGroups (token : GoString) (oid : Oid) (groups : List GoString)
  | authorize (token : GoString) (oid : Oid)

def Call.token : Call → GoString
  | .encrypt t .. | .update t .. | .decrypt t _ | .delete t _ | .getGroups t _ | .addGroups t .. | .removeGroups t .. |
    .authorize t _ => t

/-- The object a call is about. -/
def Call.onOid : Call → Option Oid
  | .encrypt .. => none
  | .update _ o _ | .decrypt _ o | .delete _ o | .getGroups _ o | .addGroups _ o _ | .removeGroups _ o _ | .authorize _ o => some o

/-- Every bit of `s` is set in `t`. -/
def scopeIn (s t : Scope) : Bool := decide (∀ i : Fin 64, s.getLsbD i = true → t.getLsbD i = true)

/-- The caller itself or one of its groups is on the list and holds the scope. -/
def allowed (i : Identity) (s : Scope) (members : GoString → Bool) : Bool :=
  (members i.id && scopeIn s i.scopes) ||
    i.groups.any fun g => g.1 != i.id && members g.1 && scopeIn s g.2.scopes

def Vault.set (v : Vault) (o : Oid) (e : Option Entry) : Vault := fun o' => if o' = o then e else v o'

/-- The caller must be known and hold the scope itself. -/
def authenticate (who : Option Identity) (s : Scope) : Except Err Identity := match who with
  | none => .error .notAuthenticated
  | some i => if scopeIn s i.scopes then .ok i else .error .notAuthorized

/-- Calls on an existing object: the caller must be authenticated, the object must exist, and the caller must be allowed. -/
def guarded (v : Vault) (who : Option Identity) (s : Scope) (oid : Oid) (f : Entry → Res × Vault) : Except Err Res × Vault :=
  match authenticate who s with
  | .error e => (.error e, v)
  | .ok i => match v oid with
    | none => (.error .accessNotFound, v)
    | some e => if allowed i s e.members then (.ok (f e).1, (f e).2) else (.error .notAuthorized, v)

/-- One call. `fresh` is the ID drawn by `Encrypt`. -/
def step (norm : GoString → GoString) (v : Vault) (who : Option Identity) (fresh : Oid) : Call → Except Err Res × Vault
  | .encrypt _ object groups => match authenticate who scopeEncrypt with
    | .error e => (.error e, v)
    | .ok i => match v fresh with
      | some _ => (.error .objectAlreadyExists, v)
      | none => (.ok (.oid fresh), v.set fresh (some ⟨object, fun x => (groups ++ [i.id]).any fun g => norm g == x⟩))
  | .update _ oid object => guarded v who scopeUpdate oid fun e => (.unit, v.set oid (some { e with object := object }))
  | .decrypt _ oid => guarded v who scopeDecrypt oid fun e => (.object e.object, v)
  | .delete _ oid => match authenticate who scopeDelete with
    | .error e => (.error e, v)
    | .ok i => match v oid with
      | none => (.ok .unit, v)
      | some e => if allowed i scopeDelete e.members then (.ok .unit, v.set oid none) else (.error .notAuthorized, v)
  | .getGroups _ oid => guarded v who scopeGetAccessGroups oid fun e => (.groups e.members, v)
  | .addGroups _ oid groups => guarded v who scopeModifyAccessGroups oid fun e =>
      (.unit, v.set oid (some { e with members := fun x => e.members x || groups.any fun g => norm g == x }))
  | .removeGroups _ oid groups => guarded v who scopeModifyAccessGroups oid fun e =>
      (.unit, v.set oid (some { e with members := fun x => e.members x && !groups.contains x }))
  | .authorize _ oid => guarded v who scopeGetAccessGroups oid fun _ => (.unit, v)

/-- The results of a sequence of calls, with what the Identity Provider said and the ID drawn at each. -/
def hist (norm : GoString → GoString) : Vault → List ((Option Identity × Oid) × Call) → List (Except Err Res)
  | _, [] => []
  | v, ((who, fresh), c) :: r => (step norm v who fresh c).1 :: hist norm (step norm v who fresh c).2 r

end D1.Spec
