import Verif.Model.Prog
/-!
# Specification: a plain map as an IO Provider

The documentation of `io.Provider` (io/io.go:55-72) read as operations on a finite map from (ID, data type) to data.
-/
namespace D1.Spec

/-- A call of an IO Provider. -/
inductive IoCall where
  | put (id : Bytes) (dt : DataType) (data : Bytes)
  | get (id : Bytes) (dt : DataType)
  | update (id : Bytes) (dt : DataType) (data : Bytes)
  | delete (id : Bytes) (dt : DataType)
  deriving DecidableEq

/-- What the caller sees. -/
inductive IoResult where
  | done
  | data (d : Bytes)
  | error (e : IoErr)
  deriving DecidableEq

/-- A finite map as a list of bindings; the newest binding of a key counts. -/
abbrev AList := List ((Bytes × DataType) × Option Bytes)

def AList.find (m : AList) (id : Bytes) (dt : DataType) : Option Bytes := match m with
  | [] => none
  | ((i, t), v) :: r => if i = id ∧ t = dt then v else AList.find r id dt

/-- One call on the map. -/
def mapStep (m : AList) : IoCall → IoResult × AList
  | .put id dt d => if (m.find id dt).isSome then (.error .alreadyExists, m) else (.done, ((id, dt), some d) :: m)
  | .get id dt => match m.find id dt with
    | some d => (.data d, m)
    | none => (.error .notFound, m)
  | .update id dt d => if (m.find id dt).isSome then (.done, ((id, dt), some d) :: m) else (.error .notFound, m)
  | .delete id dt => (.done, ((id, dt), none) :: m)

/-- The results of a sequence of calls. -/
def mapHist (m : AList) : List IoCall → List IoResult
  | [] => []
  | c :: r => (mapStep m c).1 :: mapHist (mapStep m c).2 r

end D1.Spec
