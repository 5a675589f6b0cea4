import Verif.Model.Sched
/-!
# Calls against a provider of any kind

`Runs step` runs calls concurrently against a shared state that answers every effect as `step` allows.  `ReplayStep` is an IO Provider that
keeps everything it was ever given and answers as it likes, except that a record it returns was once written under that very ID and type.
-/
namespace D1

/-- Concurrent calls `ps` in the shared state `s`: some of them make some of their effects, in any order.  `cs` lists the calls that end. -/
inductive Runs {S α : Type} (step : S → (e : Eff) → e.Resp → S → Prop) :
    S → List (Prog α) → List (Nat × Outcome α) → S → List (Prog α) → Prop
  | done (s : S) (ps : List (Prog α)) : Runs step s ps [] s ps
  | goes {s s' s'' : S} {ps ps' : List (Prog α)} {cs : List (Nat × Outcome α)} {j : Nat} {e : Eff} {k : e.Resp → Prog α} {r : e.Resp} :
      ps[j]? = some (.op e k) → step s e r s' → (k r).outcome = none → Runs step s' (ps.set j (k r)) cs s'' ps' → Runs step s ps cs s'' ps'
  | ends {s s' s'' : S} {ps ps' : List (Prog α)} {cs : List (Nat × Outcome α)} {j : Nat} {e : Eff} {k : e.Resp → Prog α} {r : e.Resp}
      {o : Outcome α} :
      ps[j]? = some (.op e k) → step s e r s' → (k r).outcome = some o → Runs step s' (ps.set j (k r)) cs s'' ps' →
      Runs step s ps ((j, o) :: cs) s'' ps'

/-- The records that were ever written under an ID and a data type. -/
abbrev Hist := Bytes → DataType → Bytes → Prop

def Hist.add (h : Hist) (id : Bytes) (dt : DataType) (d : Bytes) : Hist := fun id' dt' d' => h id' dt' d' ∨ id' = id ∧ dt' = dt ∧ d' = d

/-- A replaying provider: it may fail, lose writes and deletions, and answer a read with any record ever written for it. -/
def ReplayStep (h : Hist) : (e : Eff) → e.Resp → Hist → Prop
  | .put id dt d, _, h' => h' = h.add id dt d
  | .update id dt d, _, h' => h' = h.add id dt d
  | .get id dt, r, h' => h' = h ∧ ∀ d, r = .ok d → h id dt d
  | .delete _ _, _, h' => h' = h
  | .rand _, _, h' => h' = h
  | .now, _, h' => h' = h

end D1
