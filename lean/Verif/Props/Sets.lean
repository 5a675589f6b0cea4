import Verif.Proofs.Data
import Verif.Model.Standalone
/-!
# C77: the group list of a user, and an access list, are sets
-/
namespace D1

/-- Add group IDs, or remove them. -/
inductive Edit where
  | add (ids : List GoString)
  | remove (ids : List GoString)

def Edit.names : Edit → List GoString
  | .add ids | .remove ids => ids

def Edit.adds : Edit → Bool
  | .add _ => true
  | .remove _ => false

/-- What the last edit that names `x` does with it; none if no edit names it. -/
def lastWord (x : GoString) : List Edit → Option Bool
  | [] => none
  | e :: r => match lastWord x r with
    | some b => some b
    | none => if x ∈ e.names then some e.adds else none

/-- `addGroups` and `removeGroups` on a user, one after the other; `none` is a panic. -/
def User.edit (u : User) : List Edit → Option User
  | [] => some u
  | .add ids :: r => (u.addGroups ids).bind (·.edit r)
  | .remove ids :: r => (u.removeGroups ids).edit r

/-- The same on an access list. -/
def Access.edit (a : Access) : List Edit → Option Access
  | [] => some a
  | .add ids :: r => (a.addGroups ids).bind (·.edit r)
  | .remove ids :: r => (a.removeGroups ids).edit r

theorem addToSet_list (l ids : List GoString) : addToSet (some l) ids = some (some (ids.foldl setInsert l)) := by
  induction ids generalizing l with
  | nil => rfl
  | cons a r ih => exact ih _

theorem lastWord_cons (x : GoString) (e : Edit) (r : List Edit) (b : Bool) :
    (lastWord x (e :: r)).getD b = (lastWord x r).getD (if x ∈ e.names then e.adds else b) := by
  simp only [lastWord]
  cases lastWord x r with
  | some c => rfl
  | none => by_cases h : x ∈ e.names <;> simp [h]

/-- C77: the edits of a user's group list never panic and leave everything else as it is; afterwards `containsGroups` says of any group
IDs whether for each of them the last edit naming it added it (or none names it and it was there before). -/
theorem C77_user (es : List Edit) (u : User) {l : List GoString} (hu : u.groups = some l) :
    ∃ u' l', u.edit es = some u' ∧ u'.groups = some l' ∧ { u' with groups := u.groups } = u ∧
      ∀ xs, u'.containsGroups xs = true ↔ ∀ x ∈ xs, (lastWord x es).getD (decide (x ∈ l)) = true := by
  induction es generalizing u l with
  | nil => exact ⟨u, l, rfl, hu, rfl, fun xs => by simp [User.containsGroups, hu, GoSet.has, lastWord]⟩
  | cons e r ih =>
    cases e with
    | add ids =>
      obtain ⟨u', l', h1, h2, h3, h4⟩ := ih { u with groups := some (ids.foldl setInsert l) } rfl
      refine ⟨u', l', ?_, h2, ?_, fun xs => ?_⟩
      · rw [User.edit, User.addGroups, hu, addToSet_list]; exact h1
      · have := congrArg (fun v : User => { v with groups := u.groups }) h3
        exact this
      · rw [h4]
        refine forall_congr' fun x => imp_congr_right fun _ => ?_
        rw [lastWord_cons]
        by_cases hx : x ∈ ids <;> simp [hx, Edit.names, Edit.adds, mem_foldl_setInsert]
    | remove ids =>
      obtain ⟨u', l', h1, h2, h3, h4⟩ := ih { u with groups := some (ids.foldl setErase l) } rfl
      refine ⟨u', l', ?_, h2, ?_, fun xs => ?_⟩
      · rw [User.edit, User.removeGroups, hu]; exact h1
      · have := congrArg (fun v : User => { v with groups := u.groups }) h3
        exact this
      · rw [h4]
        refine forall_congr' fun x => imp_congr_right fun _ => ?_
        rw [lastWord_cons]
        by_cases hx : x ∈ ids <;> simp [hx, Edit.names, Edit.adds, mem_foldl_setErase]

/-- C77: the same for an access list. -/
theorem C77_access (es : List Edit) (a : Access) {l : List GoString} (hu : a.groups = some l) :
    ∃ a' l', a.edit es = some a' ∧ a'.groups = some l' ∧ { a' with groups := a.groups } = a ∧
      ∀ xs, a'.containsGroups xs = true ↔ ∀ x ∈ xs, (lastWord x es).getD (decide (x ∈ l)) = true := by
  induction es generalizing a l with
  | nil => exact ⟨a, l, rfl, hu, rfl, fun xs => by simp [Access.containsGroups, hu, GoSet.has, lastWord]⟩
  | cons e r ih =>
    cases e with
    | add ids =>
      obtain ⟨u', l', h1, h2, h3, h4⟩ := ih { a with groups := some (ids.foldl setInsert l) } rfl
      refine ⟨u', l', ?_, h2, ?_, fun xs => ?_⟩
      · rw [Access.edit, Access.addGroups, hu, addToSet_list]; exact h1
      · have := congrArg (fun v : Access => { v with groups := a.groups }) h3
        exact this
      · rw [h4]
        refine forall_congr' fun x => imp_congr_right fun _ => ?_
        rw [lastWord_cons]
        by_cases hx : x ∈ ids <;> simp [hx, Edit.names, Edit.adds, mem_foldl_setInsert]
    | remove ids =>
      obtain ⟨u', l', h1, h2, h3, h4⟩ := ih { a with groups := some (ids.foldl setErase l) } rfl
      refine ⟨u', l', ?_, h2, ?_, fun xs => ?_⟩
      · rw [Access.edit, Access.removeGroups, hu]; exact h1
      · have := congrArg (fun v : Access => { v with groups := a.groups }) h3
        exact this
      · rw [h4]
        refine forall_congr' fun x => imp_congr_right fun _ => ?_
        rw [lastWord_cons]
        by_cases hx : x ∈ ids <;> simp [hx, Edit.names, Edit.adds, mem_foldl_setErase]

/-- Adding, removing and adding again, on a list that is not empty. -/
example : lastWord [1] [.add [[1], [2]], .remove [[2], [3]], .add [[3]]] = some true ∧
    lastWord [2] [.add [[1], [2]], .remove [[2], [3]], .add [[3]]] = some false ∧
    (((⟨some [[2], [4]], none⟩ : Access).edit [.add [[1], [2]], .remove [[2], [3]], .add [[3]]]).map fun a =>
      (a.containsGroups [[1], [3], [4]], a.containsGroups [[1], [2]])) = some (true, false) := by decide

end D1
