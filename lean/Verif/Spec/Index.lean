import Verif.Spec.Vault
/-!
# Specification: an index from keywords to lists of identifiers

What the documentation of index/index.go promises, without keys, ciphertexts, labels or storage.  `norm` is what happens to an
identifier when it is recorded: the identity function in the intended reading.
-/
namespace D1.Spec

/-- The identifiers of each keyword, in the order in which they were added. -/
abbrev Index := GoString → List GoString

inductive IxCall where
  | add (token keyword identifier : GoString)
  | search (token keyword : GoString)
  | delete (token keyword identifier : GoString)

def IxCall.token : IxCall → GoString
  | .add t .. | .search t _ | .delete t .. => t

def IxCall.keyword : IxCall → GoString
  | .add _ k _ | .search _ k | .delete _ k _ => k

/-- What a caller sees. -/
inductive IxRes where
  | unit
  | ids (l : List GoString)
  deriving DecidableEq

def Index.set (x : Index) (kw : GoString) (l : List GoString) : Index := fun k => if k = kw then l else x k

/-- What an admitted call does. -/
def ixEffect (norm : GoString → GoString) (x : Index) : IxCall → IxRes × Index
  | .add _ kw id => (.unit, x.set kw (x kw ++ [norm id]))
  | .search _ kw => (.ids (x kw), x)
  | .delete _ kw id => (.unit, x.set kw ((x kw).filter (· ≠ id)))

/-- One call: the caller must be known and hold the Index scope. -/
def ixStep (norm : GoString → GoString) (x : Index) (who : Option Identity) (c : IxCall) : Except Err IxRes × Index :=
  match who with
  | none => (.error .ixNotAuthenticated, x)
  | some i => if scopeIn scopeIndex i.scopes then (.ok (ixEffect norm x c).1, (ixEffect norm x c).2) else (.error .ixNotAuthorized, x)

/-- The results of a sequence of calls, with what the Identity Provider said at each. -/
def ixHist (norm : GoString → GoString) : Index → List (Option Identity × IxCall) → List (Except Err IxRes)
  | _, [] => []
  | x, (who, c) :: r => (ixStep norm x who c).1 :: ixHist norm (ixStep norm x who c).2 r

/-- `Thin id l l'`: `l'` is `l` with some occurrences of `id` removed. -/
inductive Thin (id : GoString) : List GoString → List GoString → Prop
  | nil : Thin id [] []
  | keep (x : GoString) {l l' : List GoString} : Thin id l l' → Thin id (x :: l) (x :: l')
  | drop {l l' : List GoString} : Thin id l l' → Thin id (id :: l) l'

end D1.Spec
