import Verif.Model.Prog
/-!
# Concurrent calls

Several calls in progress, in one process or in several, share the IO Provider.  Every single IO call is atomic; between two IO calls of
one call, the others can make any number of theirs.  What a call computes between two IO calls touches no shared memory: the fields of
`D1`, `SecureIndex` and `Standalone` are set by their constructors only (d1.go:60-86, index/index.go:59-77, id/standalone.go:95-114), so it
is attached to the IO call before it.
-/
namespace D1
open Prog

/-- How a program that has ended ended. -/
def Prog.outcome {α : Type} : Prog α → Option (Outcome α)
  | ret a => some (.ok a)
  | err e => some (.err e)
  | panic => some .panic
  | diverge => some .diverge
  | op _ _ => none

/-- Run calls concurrently.  The schedule says whose effect is next; entries that name nobody, or a call that has ended, change nothing. A
caller that is never scheduled again has crashed. -/
def sched {α : Type} (env : Env) : List Nat → World → List (Prog α) → World × List (Prog α)
  | [], w, ps => (w, ps)
  | j :: r, w, ps => match ps[j]? with
    | some (.op e k) => sched env r (w.exec env e).2 (ps.set j (k (w.exec env e).1))
    | _ => sched env r w ps

/-- The calls that end, in the order in which they end. -/
def commits {α : Type} (env : Env) : List Nat → World → List (Prog α) → List (Nat × Outcome α)
  | [], _, _ => []
  | j :: r, w, ps => match ps[j]? with
    | some (.op e k) =>
      let rest := commits env r (w.exec env e).2 (ps.set j (k (w.exec env e).1))
      match (k (w.exec env e).1).outcome with
      | some o => (j, o) :: rest
      | none => rest
    | _ => commits env r w ps

end D1
