import Verif.Model.Data
/-!
# id/scope.go, id/id.go
-/
namespace D1

/-- `Scope` (id/scope.go:18). -/
abbrev Scope := BitVec 64

/-- `ScopeNone` (id/scope.go:20). -/
def scopeNone : Scope := 0
/-! The scopes of id/scope.go:24-35: bit `iota` each. -/
def scopeEncrypt : Scope := 1 <<< 0
def scopeDecrypt : Scope := 1 <<< 1
def scopeUpdate : Scope := 1 <<< 2
def scopeDelete : Scope := 1 <<< 3
def scopeCreateToken : Scope := 1 <<< 4
def scopeGetTokenContents : Scope := 1 <<< 5
def scopeGetAccessGroups : Scope := 1 <<< 6
def scopeModifyAccessGroups : Scope := 1 <<< 7
def scopeIndex : Scope := 1 <<< 8
def scopeEnd : Scope := 1 <<< 9
/-- `ScopeAll` (id/scope.go:22). -/
def scopeAll : Scope := scopeEnd - 1

/-- `ScopeUnion` (id/scope.go:38-44). -/
def scopeUnion (scopes : List Scope) : Scope := scopes.foldl (fun r s => r ||| s) scopeNone

/-- `Scope.Contains` (id/scope.go:47-49). -/
def Scope.contains (s scope : Scope) : Bool := (s &&& scope) == scope

/-- `AccessGroup` (id/id.go:24-27). -/
structure AccessGroup where
  id : GoString
  scopes : Scope
  deriving DecidableEq

/-- `Identity` (id/id.go:31-35).  The map is a list of entries in iteration order; a lookup takes the first entry with
the key. -/
structure Identity where
  id : GoString
  scopes : Scope
  groups : List (GoString × AccessGroup)
  deriving DecidableEq

/-- Lookup in `Identity.Groups`. -/
def lookupGroup : List (GoString × AccessGroup) → GoString → Option AccessGroup
  | [], _ => none
  | (k, g) :: r, x => if k = x then some g else lookupGroup r x

/-- `GetIDs` (id/id.go:38-45), as the list of distinct keys. -/
def Identity.getIDs (i : Identity) : List GoString := (i.groups.map Prod.fst).foldl setInsert [i.id]

/-- `GetIDScope` (id/id.go:48-56). -/
def Identity.getIDScope (i : Identity) (x : GoString) : Scope :=
  if x = i.id then i.scopes
  else match lookupGroup i.groups x with
    | some g => g.scopes
    | none => scopeNone

/-- `id.Provider.GetIdentity` (id/id.go:58-60): any program. -/
abbrev IdProvider := GoString → Prog Identity

/-- `json` reading and writing of a `Scope` (a `uint64`). -/
def J.ofScope (s : Scope) : J := .num s.toNat
def J.toScope (j : J) : Option Scope := j.toU64.map (BitVec.ofNat 64)

end D1
