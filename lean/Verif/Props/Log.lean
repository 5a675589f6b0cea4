import Verif.Proofs.Log
import Verif.Props.Guard
/-!
# The debug log: C82

Logging changes nothing else, and every log follows a script in which only the user ID, the object ID, the groups given by the caller, a missing
scope, an expiry time, an error and numbers of groups vary.
-/
namespace D1
open Spec Prog

/-- Against a provider, clock and random source that answer in any way at all, the program can perform `tr`, log `ls` and end with the outcome. -/
inductive LYields {α : Type} : LProg α → List Event → List Line → Outcome α → Prop
  | ret (a : α) : LYields (.ret a) [] [] (.ok a)
  | err (e : Err) : LYields (.err e) [] [] (.err e)
  | panic : LYields .panic [] [] .panic
  | diverge : LYields .diverge [] [] .diverge
  | op (e : Eff) (k : e.Resp → LProg α) (r : e.Resp) (tr : List Event) (ls : List Line) (o : Outcome α) :
      LYields (k r) tr ls o → LYields (.op e k) (⟨e, r⟩ :: tr) ls o
  | log (l : Line) (k : LProg α) (tr : List Event) (ls : List Line) (o : Outcome α) : LYields k tr ls o → LYields (.log l k) tr (l :: ls) o

section
variable {α β : Type}

theorem LYields.erase {p : LProg α} {tr : List Event} {ls : List Line} {o : Outcome α} (h : LYields p tr ls o) : Yields p.erase tr o := by
  induction h with
  | ret a => exact .ret a
  | err e => exact .err e
  | panic => exact .panic
  | diverge => exact .diverge
  | op e k r tr ls o _ ih => exact .op _ _ _ _ _ ih
  | log l k tr ls o _ ih => exact ih

/-- Every execution has a log, and only one. -/
theorem LYields.exists {p : LProg α} {tr : List Event} {o : Outcome α} (h : Yields p.erase tr o) : ∃! ls, LYields p tr ls o := by
  induction p generalizing tr with
  | ret a =>
    cases h
    exact ⟨[], .ret a, fun ls h => by cases h; rfl⟩
  | err e =>
    cases h
    exact ⟨[], .err e, fun ls h => by cases h; rfl⟩
  | panic =>
    cases h
    exact ⟨[], .panic, fun ls h => by cases h; rfl⟩
  | diverge =>
    cases h
    exact ⟨[], .diverge, fun ls h => by cases h; rfl⟩
  | op e k ih =>
    obtain ⟨r, tr', rfl, h3⟩ := yields_op.mp (show Yields (.op e fun r => (k r).erase) tr o from h)
    obtain ⟨ls, h1, h2⟩ := ih r h3
    exact ⟨ls, .op _ _ _ _ _ _ h1, fun ls' h' => by cases h' with | op _ _ _ _ _ _ h' => exact h2 ls' h'⟩
  | log l k ih =>
    obtain ⟨ls, h1, h2⟩ := ih h
    exact ⟨l :: ls, .log _ _ _ _ _ h1, fun ls' h' => by cases h' with | log _ _ _ _ _ h' => rw [h2 _ h']⟩

theorem lyields_attempt {p : LProg α} {k : Except Err α → LProg β} {tr : List Event} {ls : List Line} {o : Outcome β} (h : LYields (p.attempt k) tr ls o) :
    (∃ tr1 tr2 l1 l2 a, tr = tr1 ++ tr2 ∧ ls = l1 ++ l2 ∧ LYields p tr1 l1 (.ok a) ∧ LYields (k (.ok a)) tr2 l2 o) ∨
    (∃ tr1 tr2 l1 l2 e, tr = tr1 ++ tr2 ∧ ls = l1 ++ l2 ∧ LYields p tr1 l1 (.err e) ∧ LYields (k (.error e)) tr2 l2 o) ∨
    (LYields p tr ls .panic ∧ o = .panic) ∨ (LYields p tr ls .diverge ∧ o = .diverge) := by
  induction p generalizing tr ls with
  | ret a => exact .inl ⟨[], tr, [], ls, a, rfl, rfl, .ret a, h⟩
  | err e => exact .inr (.inl ⟨[], tr, [], ls, e, rfl, rfl, .err e, h⟩)
  | panic => cases h; exact .inr (.inr (.inl ⟨.panic, rfl⟩))
  | diverge => cases h; exact .inr (.inr (.inr ⟨.diverge, rfl⟩))
  | op e c ih =>
    cases h with
    | op _ _ r tr ls _ h =>
      rcases ih r h with ⟨tr1, tr2, l1, l2, a, rfl, rfl, h1, h2⟩ | ⟨tr1, tr2, l1, l2, a, rfl, rfl, h1, h2⟩ | ⟨h1, h2⟩ | ⟨h1, h2⟩
      · exact .inl ⟨_ :: tr1, tr2, l1, l2, a, rfl, rfl, .op _ _ r _ _ _ h1, h2⟩
      · exact .inr (.inl ⟨_ :: tr1, tr2, l1, l2, a, rfl, rfl, .op _ _ r _ _ _ h1, h2⟩)
      · exact .inr (.inr (.inl ⟨.op _ _ r _ _ _ h1, h2⟩))
      · exact .inr (.inr (.inr ⟨.op _ _ r _ _ _ h1, h2⟩))
  | log l c ih =>
    cases h with
    | log _ _ tr ls _ h =>
      rcases ih h with ⟨tr1, tr2, l1, l2, a, rfl, rfl, h1, h2⟩ | ⟨tr1, tr2, l1, l2, a, rfl, rfl, h1, h2⟩ | ⟨h1, h2⟩ | ⟨h1, h2⟩
      · exact .inl ⟨tr1, tr2, l :: l1, l2, a, rfl, rfl, .log _ _ _ _ _ h1, h2⟩
      · exact .inr (.inl ⟨tr1, tr2, l :: l1, l2, a, rfl, rfl, .log _ _ _ _ _ h1, h2⟩)
      · exact .inr (.inr (.inl ⟨.log _ _ _ _ _ h1, h2⟩))
      · exact .inr (.inr (.inr ⟨.log _ _ _ _ _ h1, h2⟩))

theorem lbind_eq_attempt (p : LProg α) (k : α → LProg β) : p.bind k = p.attempt fun r => match r with
    | .ok a => k a
    | .error e => .err e := by
  induction p with
  | op e c ih => simp only [LProg.bind, LProg.attempt, ih]
  | log l c ih => simp only [LProg.bind, LProg.attempt, ih]
  | _ => rfl

theorem lyields_bind {p : LProg α} {k : α → LProg β} {tr : List Event} {ls : List Line} {o : Outcome β} (h : LYields (p.bind k) tr ls o) :
    (∃ tr1 tr2 l1 l2 a, tr = tr1 ++ tr2 ∧ ls = l1 ++ l2 ∧ LYields p tr1 l1 (.ok a) ∧ LYields (k a) tr2 l2 o) ∨
    (∃ e, LYields p tr ls (.err e) ∧ o = .err e) ∨ (LYields p tr ls .panic ∧ o = .panic) ∨ (LYields p tr ls .diverge ∧ o = .diverge) := by
  rw [lbind_eq_attempt] at h
  rcases lyields_attempt h with ⟨tr1, tr2, l1, l2, a, h1, h2, h3, h4⟩ | ⟨tr1, tr2, l1, l2, e, rfl, rfl, h3, h4⟩ | ⟨h1, rfl⟩ | ⟨h1, rfl⟩
  · exact .inl ⟨tr1, tr2, l1, l2, a, h1, h2, h3, h4⟩
  · cases h4
    exact .inr (.inl ⟨e, by simpa using h3, rfl⟩)
  · exact .inr (.inr (.inl ⟨h1, rfl⟩))
  · exact .inr (.inr (.inr ⟨h1, rfl⟩))

theorem lyields_lift {p : Prog α} {tr : List Event} {ls : List Line} {o : Outcome α} (h : LYields (.lift p) tr ls o) : ls = [] := by
  induction p generalizing tr with
  | op e c ih => cases h with | op _ _ r _ _ _ h => exact ih r h
  | _ => cases h; rfl

/-! ## Scripts -/

/-- The program logs the lines of `S` in this order.  When it ends early, it may have logged only the first few. -/
def Script (S : List Line) (p : LProg α) : Prop :=
  ∀ tr ls o, LYields p tr ls o → ls <+: S ∧ ∀ a, o = .ok a → ls = S

theorem Script.bind {S T : List Line} {p : LProg α} {k : α → LProg β} (h : Script S p) (hk : ∀ a, Script T (k a)) : Script (S ++ T) (p.bind k) := by
  intro tr ls o hy
  rcases lyields_bind hy with ⟨tr1, tr2, l1, l2, a, rfl, rfl, h1, h2⟩ | ⟨e, h1, rfl⟩ | ⟨h1, rfl⟩ | ⟨h1, rfl⟩
  · obtain rfl := (h _ _ _ h1).2 a rfl
    obtain ⟨h4, h5⟩ := hk a _ _ _ h2
    exact ⟨(List.prefix_append_right_inj l1).mpr h4, fun b hb => by rw [h5 b hb]⟩
  all_goals exact ⟨(h _ _ _ h1).1.trans (List.prefix_append _ _), fun b hb => by cases hb⟩

theorem Script.ret (a : α) : Script [] (.ret a) := by
  intro tr ls o h; cases h; exact ⟨List.prefix_rfl, fun _ _ => rfl⟩

theorem Script.fail {S : List Line} (e : Err) : Script S (.err e : LProg α) := by
  intro tr ls o h; cases h; exact ⟨List.nil_prefix, fun _ h => by cases h⟩

theorem Script.lift (p : Prog α) : Script [] (.lift p) := by
  intro tr ls o h
  rw [lyields_lift h]
  exact ⟨List.prefix_rfl, fun _ _ => rfl⟩

theorem Script.then {S : List Line} {p : LProg α} {k : α → LProg β} (h : Script [] p) (hk : ∀ a, Script S (k a)) : Script S (p.bind k) :=
  h.bind hk

theorem Script.log {S : List Line} {l : Line} {k : LProg α} (h : Script S k) : Script (l :: S) (.log l k) := by
  intro tr ls o hy
  cases hy with
  | log _ _ _ ls _ hy =>
    obtain ⟨h1, h2⟩ := h _ _ _ hy
    exact ⟨List.cons_prefix_cons.mpr ⟨rfl, h1⟩, fun a ha => by rw [h2 a ha]⟩

theorem Script.say {S : List Line} {lg : Fields} {m : String} {k : Unit → LProg α} (h : Script S (k ())) :
    Script (⟨lg, [], m⟩ :: S) ((lg.say m).bind k) := .log h

theorem Script.sayWith {S : List Line} {lg : Fields} {key m : String} {v : LogVal} {k : Unit → LProg α} (h : Script S (k ())) :
    Script (⟨lg, [(key, v)], m⟩ :: S) ((lg.sayWith key v m).bind k) := .log h

theorem Script.mapErr {S : List Line} {p : LProg α} {e : Err} (h : Script S p) : Script S (p.mapErr e) := by
  intro tr ls o hy
  rcases lyields_attempt hy with ⟨tr1, tr2, l1, l2, a, rfl, rfl, h1, h2⟩ | ⟨tr1, tr2, l1, l2, a, rfl, rfl, h1, h2⟩ | ⟨h1, rfl⟩ | ⟨h1, rfl⟩
  · cases h2
    obtain ⟨h3, h4⟩ := h _ _ _ h1
    simpa using ⟨h3, h4 a rfl⟩
  · cases h2
    simpa using (h _ _ _ h1).1
  · exact ⟨(h _ _ _ h1).1, fun _ h => by cases h⟩
  · exact ⟨(h _ _ _ h1).1, fun _ h => by cases h⟩

end

/-- Lines with these messages. -/
def linesOf (lg : Fields) (msgs : List String) : List Line := msgs.map fun m => ⟨lg, [], m⟩

/-! ## D1 -/

/-- What a method calls itself in the log. -/
def Call.logName : Call → String
  | .encrypt .. => "encrypt"
  | .update .. => "update"
  | .decrypt .. => "decrypt"
  | .delete .. => "delete"
  | .getGroups .. => "get access groups"
  | .addGroups .. => "add groups to access"
  | .removeGroups .. => "remove groups from access"
  | .authorize .. => "authorize identity"

/-- What the log linesOf of a missing scope. -/
def Call.scopeName : Call → String
  | .encrypt .. => "encrypt"
  | .update .. => "update"
  | .decrypt .. => "decrypt"
  | .delete .. => "delete"
  | .getGroups .. | .authorize .. => "get access"
  | .addGroups .. | .removeGroups .. => "modify access"

/-- The fields of every line of a call. -/
def Call.logFields (c : Call) (lg : Fields) : Fields := lg ++ [("method", .const (Call.logName c))] ++ match c.onOid with
  | none => []
  | some oid => [("oid", .text (uuidText oid))]

/-- The script of a call after the caller was accepted; it may depend on the result. -/
def callScript (lg : Fields) : Call → Outcome Res → List Line → Prop
  | .encrypt _ _ gs, o, S => ∃ oid, (∀ x, o = .ok (.oid x) → x = oid) ∧ S =
      linesOf (lg ++ [("oid", .text (uuidText oid))]) ["sealing object"] ++
      [⟨lg ++ [("oid", .text (uuidText oid))], [("groups", .texts gs)], "creating access"⟩] ++
      linesOf (lg ++ [("oid", .text (uuidText oid))]) ["sealing access", "storing new object", "storing new access"]
  | .update .., _, S => S = linesOf lg
      ["getting stored access", "authorizing access", "sealing object", "sealing access", "updating stored object", "updating stored access"]
  | .decrypt .., _, S => S = linesOf lg ["getting stored access", "authorizing access", "getting stored object", "unsealing object"]
  | .delete .., o, S => S = linesOf lg ["getting stored access", "authorizing access", "deleting stored object", "deleting stored access"] ∨
      (o = .ok .unit ∧ S = linesOf lg ["getting stored access", "object not found"])
  | .getGroups .., _, S | .authorize .., _, S => S = linesOf lg ["getting stored access", "authorizing access"]
  | .addGroups _ _ gs, _, S => S = linesOf lg ["getting stored access", "authorizing access"] ++
      [⟨lg, [("groups", .texts gs)], "adding groups"⟩] ++ linesOf lg ["sealing access", "updating stored access"]
  | .removeGroups _ _ gs, _, S => S = linesOf lg ["getting stored access", "authorizing access"] ++
      [⟨lg, [("groups", .texts gs)], "removing groups"⟩] ++ linesOf lg ["sealing access", "updating stored access"]

section
variable {P : Prims} {d : D1} {idp : LIdProvider}

theorem script_getSealedAccess (lg : Fields) (oid : Oid) : Script (linesOf lg ["getting stored access"]) (getSealedAccessL P lg oid) := .say (.lift _)
theorem script_getSealedObject (lg : Fields) (oid : Oid) : Script (linesOf lg ["getting stored object"]) (getSealedObjectL P lg oid) := .say (.lift _)
theorem script_authorize (lg : Fields) (i : Identity) (s : Scope) (a : SealedAccess) :
    Script (linesOf lg ["authorizing access"]) (d.authorizeAccessL P lg i s a) := .say (.lift _)
theorem script_updateObject (lg : Fields) (x : SealedObject) : Script (linesOf lg ["updating stored object"]) (putSealedObjectL lg x true) := .say (.lift _)
theorem script_updateAccess (lg : Fields) (x : SealedAccess) : Script (linesOf lg ["updating stored access"]) (putSealedAccessL lg x true) := .say (.lift _)
theorem script_putObject (lg : Fields) (x : SealedObject) : Script (linesOf lg ["storing new object"]) (putSealedObjectL lg x false) := .say (.lift _)
theorem script_putAccess (lg : Fields) (x : SealedAccess) : Script (linesOf lg ["storing new access"]) (putSealedAccessL lg x false) := .say (.lift _)
theorem script_deleteObject (lg : Fields) (x : Oid) : Script (linesOf lg ["deleting stored object"]) (deleteSealedObjectL lg x) := .say (.lift _)
theorem script_deleteAccess (lg : Fields) (x : Oid) : Script (linesOf lg ["deleting stored access"]) (deleteSealedAccessL lg x) := .say (.lift _)

/-- How the Identity Provider and the check of a scope are logged. -/
def AccessLog {α : Type} (lg : Fields) (scope : String) (l1 : List Line) (o1 : Outcome Identity) (rest : Fields → List Line → Prop) (ls : List Line)
    (o : Outcome α) : Prop :=
  match o1 with
  | .ok i =>
    let lu := lg ++ [("uid", .text i.id)]
    (ls = linesOf lg ["authenticating caller"] ++ l1 ++ linesOf lu ["authorizing caller"] ++ [⟨lu, [("scope", .const scope)], "scope missing"⟩] ∧ ∃ e, o = .err e) ∨
    ∃ r, rest lu r ∧ ls = linesOf lg ["authenticating caller"] ++ l1 ++ linesOf lu ["authorizing caller"] ++ r
  | .err e => ls = linesOf lg ["authenticating caller"] ++ l1 ++ [⟨lg, [("error", .error e)], "authentication failed"⟩] ∧ ∃ e, o = .err e
  | .panic | .diverge => ls = linesOf lg ["authenticating caller"] ++ l1 ∧ ∀ a, o ≠ .ok a

theorem lyields_check {β γ : Type} {lg : Fields} {t : GoString} {s : Scope} {e1 e2 : Err} {f : Identity → Fields → γ} {k : γ → LProg β} {tr : List Event}
    {ls : List Line} {o : Outcome β} (h : LYields (LProg.bind (LProg.log ⟨lg, [], "authenticating caller"⟩ ((idp lg t).attempt fun r => match r with
      | .error e => .log ⟨lg, [("error", .error e)], "authentication failed"⟩ (.err e1)
      | .ok i => .log ⟨lg ++ [("uid", .text i.id)], [], "authorizing caller"⟩ (if !i.scopes.contains s then
          .log ⟨lg ++ [("uid", .text i.id)], [("scope", .const (Scope.name s))], "scope missing"⟩ (.err e2) else .ret (f i (lg ++ [("uid", .text i.id)]))))) k) tr ls o) :
    ∃ tr1 tr2 l1 o1, tr = tr1 ++ tr2 ∧ LYields (idp lg t) tr1 l1 o1 ∧
      AccessLog lg (Scope.name s) l1 o1 (fun lu r => ∃ i, lu = lg ++ [("uid", .text i.id)] ∧ LYields (k (f i lu)) tr2 r o) ls o := by
  rw [LProg.bind] at h
  cases h with
  | log _ _ _ ls _ h =>
  rcases lyields_bind h with ⟨tr1, tr2, l1, l2, a, rfl, rfl, h1, h2⟩ | ⟨e, h1, rfl⟩ | ⟨h1, rfl⟩ | ⟨h1, rfl⟩
  · rcases lyields_attempt h1 with ⟨ta, tb, la, lb, i, rfl, rfl, g1, g2⟩ | ⟨ta, tb, la, lb, e, rfl, rfl, g1, g2⟩ | ⟨-, h3⟩ | ⟨-, h3⟩
    · refine ⟨ta, tb ++ tr2, la, .ok i, by simp, g1, .inr ?_⟩
      cases g2 with
      | log _ _ _ lb _ g2 =>
      split at g2
      · cases g2 with
        | log _ _ _ _ _ g2 => cases g2
      · cases g2
        exact ⟨l2, ⟨i, rfl, h2⟩, by simp [linesOf]⟩
    · cases g2 with
      | log _ _ _ _ _ g2 => cases g2
    · cases h3
    · cases h3
  · rcases lyields_attempt h1 with ⟨ta, tb, la, lb, i, rfl, rfl, g1, g2⟩ | ⟨ta, tb, la, lb, e, rfl, rfl, g1, g2⟩ | ⟨-, h3⟩ | ⟨-, h3⟩
    · refine ⟨ta, tb, la, .ok i, rfl, g1, .inl ?_⟩
      cases g2 with
      | log _ _ _ lb _ g2 =>
      split at g2
      · cases g2 with
        | log _ _ _ _ _ g2 => cases g2; exact ⟨by simp [linesOf], _, rfl⟩
      · cases g2
    · refine ⟨ta, tb, la, .err e, rfl, g1, ?_⟩
      cases g2 with
      | log _ _ _ _ _ g2 => cases g2; exact ⟨by simp [linesOf], _, rfl⟩
    · cases h3
    · cases h3
  · rcases lyields_attempt h1 with ⟨ta, tb, la, lb, i, rfl, rfl, g1, g2⟩ | ⟨ta, tb, la, lb, e, rfl, rfl, g1, g2⟩ | ⟨h3, -⟩ | ⟨-, h3⟩
    · cases g2 with
      | log _ _ _ lb _ g2 =>
      split at g2
      · cases g2 with
        | log _ _ _ _ _ g2 => cases g2
      · cases g2
    · cases g2 with
      | log _ _ _ _ _ g2 => cases g2
    · exact ⟨tr, [], ls, .panic, by simp, h3, by simp [linesOf], by simp⟩
    · cases h3
  · rcases lyields_attempt h1 with ⟨ta, tb, la, lb, i, rfl, rfl, g1, g2⟩ | ⟨ta, tb, la, lb, e, rfl, rfl, g1, g2⟩ | ⟨-, h3⟩ | ⟨h3, -⟩
    · cases g2 with
      | log _ _ _ lb _ g2 =>
      split at g2
      · cases g2 with
        | log _ _ _ _ _ g2 => cases g2
      · cases g2
    · cases g2 with
      | log _ _ _ _ _ g2 => cases g2
    · cases h3
    · exact ⟨tr, [], ls, .diverge, by simp, h3, by simp [linesOf], by simp⟩

theorem lyields_verify {β : Type} {lg : Fields} {t : GoString} {s : Scope} {k : Identity × Fields → LProg β} {tr : List Event}
    {ls : List Line} {o : Outcome β} (h : LYields ((D1.verifyAccessL idp lg t s).bind k) tr ls o) :
    ∃ tr1 tr2 l1 o1, tr = tr1 ++ tr2 ∧ LYields (idp lg t) tr1 l1 o1 ∧
      AccessLog lg (Scope.name s) l1 o1 (fun lu r => ∃ i, lu = lg ++ [("uid", .text i.id)] ∧ LYields (k (i, lu)) tr2 r o) ls o := 
  lyields_check (f := Prod.mk) h

theorem lyields_ixVerify {β : Type} {lg : Fields} {t : GoString} {k : Fields → LProg β} {tr : List Event}
    {ls : List Line} {o : Outcome β} (h : LYields ((SecureIndex.verifyAccessL idp lg t).bind k) tr ls o) :
    ∃ tr1 tr2 l1 o1, tr = tr1 ++ tr2 ∧ LYields (idp lg t) tr1 l1 o1 ∧
      AccessLog lg (Scope.name scopeIndex) l1 o1 (fun lu r => ∃ i : Identity, lu = lg ++ [("uid", .text i.id)] ∧ LYields (k lu) tr2 r o) ls o := 
  lyields_check (f := fun _ lu => lu) h

theorem lbind_assoc {α β γ : Type} (p : LProg α) (k : α → LProg β) (m : β → LProg γ) : (p.bind k).bind m = p.bind fun a => (k a).bind m := by
  induction p with
  | op e c ih => simp only [LProg.bind, ih]
  | log l c ih => simp only [LProg.bind, ih]
  | _ => rfl

theorem lattempt_bind {α β γ : Type} (p : LProg α) (k : Except Err α → LProg β) (m : β → LProg γ) :
    (p.attempt k).bind m = p.attempt fun a => (k a).bind m := by
  induction p with
  | op e c ih => simp only [LProg.bind, LProg.attempt, ih]
  | log l c ih => simp only [LProg.bind, LProg.attempt, ih]
  | _ => rfl

/-- All results of the program. -/
def Results {α : Type} (Q : α → Prop) (p : LProg α) : Prop := ∀ tr ls a, LYields p tr ls (.ok a) → Q a

theorem Results.bind {α β : Type} {Q : β → Prop} {p : LProg α} {k : α → LProg β} (h : ∀ a, Results Q (k a)) : Results Q (p.bind k) := by
  intro tr ls b hy
  rcases lyields_bind hy with ⟨tr1, tr2, l1, l2, a, rfl, rfl, h1, h2⟩ | ⟨e, h1, h2⟩ | ⟨h1, h2⟩ | ⟨h1, h2⟩
  · exact h a _ _ _ h2
  all_goals cases h2

theorem Results.out {α : Type} {Q : α → Prop} {p : LProg α} {tr : List Event} {ls : List Line} {a : α} (h : LYields p tr ls (.ok a)) (hr : Results Q p) : Q a :=
  hr _ _ _ h

theorem Results.ret {α : Type} {Q : α → Prop} {a : α} (h : Q a) : Results Q (.ret a) := by
  intro tr ls b hy; cases hy; exact h

/-- The lines of a call after the caller was accepted. -/
def Follows (c : Call) (o : Outcome Res) (lu : Fields) (r : List Line) : Prop :=
  ∃ S, callScript lu c o S ∧ r <+: S ∧ ∀ a, o = .ok a → r = S

theorem script_follows {c : Call} {o : Outcome Res} {lu : Fields} {S : List Line} {p : LProg Res} {tr : List Event} {r : List Line} (h : Script S p)
    (hS : callScript lu c o S) (hy : LYields p tr r o) : Follows c o lu r :=
  ⟨S, hS, h _ _ _ hy⟩

theorem AccessLog.imp {α : Type} {lg : Fields} {scope : String} {l1 : List Line} {o1 : Outcome Identity} {rest rest' : Fields → List Line → Prop} {ls : List Line}
    {o : Outcome α} (h : AccessLog lg scope l1 o1 rest ls o) (hr : ∀ lu r, rest lu r → rest' lu r) : AccessLog lg scope l1 o1 rest' ls o := by
  cases o1 with
  | ok i =>
    rcases h with h | ⟨r, h1, h2⟩
    · exact .inl h
    · exact .inr ⟨r, hr _ _ h1, h2⟩
  | _ => exact h

/-- **C82.**  The log of each method of D1, against any Identity Provider and whatever the IO Provider, the clock and the random source answer. -/
theorem C82_d1 {lg : Fields} {c : Call} {tr : List Event} {ls : List Line} {o : Outcome Res} (h : LYields (callProgL P d idp lg c) tr ls o) :
    ∃ tr1 tr2 l1 o1, tr = tr1 ++ tr2 ∧ LYields (idp (Call.logFields c lg) c.token) tr1 l1 o1 ∧
      AccessLog (Call.logFields c lg) (Call.scopeName c) l1 o1 (Follows c o) ls o := by
  cases c with
  | encrypt t ob gs =>
    simp only [callProgL, D1.encryptL, LProg.bind_eq, lbind_assoc, LProg.liftM_eq, LProg.pure_eq] at h
    obtain ⟨tr1, tr2, l1, o1, rfl, h1, h2⟩ := lyields_verify h
    rw [show Call.logFields (.encrypt t ob gs) lg = lg.withMethod "encrypt" from List.append_nil _]
    refine ⟨tr1, tr2, l1, o1, rfl, h1, h2.imp ?_⟩
    rintro lu r ⟨i, -, hr⟩
    rcases lyields_bind hr with ⟨ta, tb, la, lb, oid, rfl, rfl, g1, g2⟩ | ⟨e, g1, rfl⟩ | ⟨g1, rfl⟩ | ⟨g1, rfl⟩
    · rw [lyields_lift g1]
      refine script_follows (S := _) ?_ ⟨oid, ?_, rfl⟩ g2
      · exact .say <| (Script.lift _).then fun _ => .sayWith <| (Script.lift _).then fun _ => .say <| (Script.lift _).then fun _ =>
          (script_putObject _ _).bind fun _ => (script_putAccess _ _).bind fun _ => .ret _
      · rintro x rfl
        refine Res.oid.inj (Results.out (Q := (· = Res.oid oid)) g2 ?_)
        exact .bind fun _ => .bind fun _ => .bind fun _ => .bind fun _ => .bind fun _ => .bind fun _ => .bind fun _ => .bind fun _ => .ret rfl
    all_goals
      rw [lyields_lift g1]
      exact ⟨_, ⟨⟨List.replicate 16 0, rfl⟩, by simp, rfl⟩, List.nil_prefix, by simp⟩
  | update t oid ob =>
    simp only [callProgL, D1.updateL, LProg.bind_eq, lbind_assoc, LProg.liftM_eq, LProg.pure_eq] at h
    obtain ⟨tr1, tr2, l1, o1, rfl, h1, h2⟩ := lyields_verify h
    refine ⟨tr1, tr2, l1, o1, rfl, h1, h2.imp ?_⟩
    rintro lu r ⟨i, -, hr⟩
    refine script_follows ?_ rfl hr
    exact (script_getSealedAccess _ _).bind fun _ => (script_authorize _ _ _ _).bind fun _ => .say <| (Script.lift _).then fun _ => .say <| (Script.lift _).then fun _ =>
      (script_updateObject _ _).bind fun _ => (script_updateAccess _ _).bind fun _ => .ret _
  | decrypt t oid =>
    simp only [callProgL, D1.decryptL, LProg.bind_eq, lbind_assoc, LProg.liftM_eq, LProg.pure_eq] at h
    obtain ⟨tr1, tr2, l1, o1, rfl, h1, h2⟩ := lyields_verify h
    refine ⟨tr1, tr2, l1, o1, rfl, h1, h2.imp ?_⟩
    rintro lu r ⟨i, -, hr⟩
    refine script_follows ?_ rfl hr
    exact (script_getSealedAccess _ _).bind fun _ => (script_authorize _ _ _ _).bind fun _ => (script_getSealedObject _ _).bind fun _ => .say <|
      (Script.lift _).then fun _ => .ret _
  | delete t oid =>
    simp only [callProgL, D1.deleteL, LProg.bind_eq, lbind_assoc] at h
    obtain ⟨tr1, tr2, l1, o1, rfl, h1, h2⟩ := lyields_verify h
    refine ⟨tr1, tr2, l1, o1, rfl, h1, h2.imp ?_⟩
    rintro lu r ⟨i, -, hr⟩
    have hget : ∀ {tr ls o}, LYields (getSealedAccessL P lu oid) tr ls o → ls = linesOf lu ["getting stored access"] := by
      intro tr ls o hy
      have hy' : LYields (.log ⟨lu, [], "getting stored access"⟩ (.lift (getSealedAccess P oid))) tr ls o := hy
      cases hy' with
      | log _ _ _ _ _ hy' => rw [lyields_lift hy']; rfl
    have hlate : ∀ a, Script (linesOf lu ["authorizing access", "deleting stored object", "deleting stored access"])
        ((d.authorizeAccessL P lu i scopeDelete a).bind fun _ => (deleteSealedObjectL lu oid).bind fun _ => (deleteSealedAccessL lu oid).bind fun _ => .ret Res.unit) :=
      fun a => (script_authorize _ _ _ _).bind fun _ => (script_deleteObject _ _).bind fun _ => (script_deleteAccess _ _).bind fun _ => .ret _
    rw [lattempt_bind] at hr
    rcases lyields_attempt hr with ⟨ta, tb, la, lb, a, rfl, rfl, g1, g2⟩ | ⟨ta, tb, la, lb, e, rfl, rfl, g1, g2⟩ | ⟨g1, rfl⟩ | ⟨g1, rfl⟩
    · rw [hget g1]
      simp only [lbind_assoc] at g2
      obtain ⟨g3, g4⟩ := hlate a _ _ _ g2
      exact ⟨_, .inl rfl, (List.prefix_append_right_inj (linesOf lu ["getting stored access"])).mpr g3, fun x hx => by rw [g4 x hx]; rfl⟩
    · rw [hget g1]
      have hearly : ∀ e', LYields (LProg.bind (LProg.err e') fun _ : Unit => LProg.ret Res.unit) tb lb o →
          Follows (.delete t oid) o lu (linesOf lu ["getting stored access"] ++ lb) := by
        intro e' he
        cases he
        exact ⟨_, .inl rfl, ⟨linesOf lu ["authorizing access", "deleting stored object", "deleting stored access"], rfl⟩, by simp⟩
      dsimp only at g2
      split at g2
      · have g2' : LYields (.log ⟨lu, [], "object not found"⟩ (.ret Res.unit)) tb lb o := g2
        cases g2' with
        | log _ _ _ _ _ g2' =>
          cases g2'
          exact ⟨_, .inr ⟨rfl, rfl⟩, List.prefix_rfl, fun _ _ => rfl⟩
      · exact hearly _ g2
      · rename_i h; cases h
    all_goals
      rw [hget g1]
      exact ⟨_, .inl rfl, ⟨linesOf lu ["authorizing access", "deleting stored object", "deleting stored access"], rfl⟩, by simp⟩
  | getGroups t oid =>
    simp only [callProgL, D1.getAccessGroupsL, LProg.bind_eq, lbind_assoc, LProg.liftM_eq, LProg.pure_eq] at h
    obtain ⟨tr1, tr2, l1, o1, rfl, h1, h2⟩ := lyields_verify h
    refine ⟨tr1, tr2, l1, o1, rfl, h1, h2.imp ?_⟩
    rintro lu r ⟨i, -, hr⟩
    refine script_follows ?_ rfl hr
    exact (script_getSealedAccess _ _).bind fun _ => (script_authorize _ _ _ _).bind fun _ => .ret _
  | addGroups t oid gs =>
    simp only [callProgL, D1.addGroupsToAccessL, LProg.bind_eq, lbind_assoc, LProg.liftM_eq, LProg.pure_eq] at h
    obtain ⟨tr1, tr2, l1, o1, rfl, h1, h2⟩ := lyields_verify h
    refine ⟨tr1, tr2, l1, o1, rfl, h1, h2.imp ?_⟩
    rintro lu r ⟨i, -, hr⟩
    refine script_follows ?_ rfl hr
    exact (script_getSealedAccess _ _).bind fun _ => (script_authorize _ _ _ _).bind fun _ => .sayWith <| (Script.lift _).then fun _ => .say <|
      (Script.lift _).then fun _ => (script_updateAccess _ _).bind fun _ => .ret _
  | removeGroups t oid gs =>
    simp only [callProgL, D1.removeGroupsFromAccessL, LProg.bind_eq, lbind_assoc, LProg.liftM_eq, LProg.pure_eq] at h
    obtain ⟨tr1, tr2, l1, o1, rfl, h1, h2⟩ := lyields_verify h
    refine ⟨tr1, tr2, l1, o1, rfl, h1, h2.imp ?_⟩
    rintro lu r ⟨i, -, hr⟩
    refine script_follows ?_ rfl hr
    exact (script_getSealedAccess _ _).bind fun _ => (script_authorize _ _ _ _).bind fun _ => .sayWith <| .say <|
      (Script.lift _).then fun _ => (script_updateAccess _ _).bind fun _ => .ret _
  | authorize t oid =>
    simp only [callProgL, D1.authorizeIdentityL, LProg.bind_eq, lbind_assoc, LProg.liftM_eq, LProg.pure_eq] at h
    obtain ⟨tr1, tr2, l1, o1, rfl, h1, h2⟩ := lyields_verify h
    refine ⟨tr1, tr2, l1, o1, rfl, h1, h2.imp ?_⟩
    rintro lu r ⟨i, -, hr⟩
    refine script_follows ?_ rfl hr
    exact (script_getSealedAccess _ _).bind fun _ => (script_authorize _ _ _ _).bind fun _ => .ret _

/-- The log of CreateToken and GetTokenContents: besides the method only the expiry time, which is in the token. -/
theorem C82_tokens {lg : Fields} :
    (∀ p tr ls o, LYields (d.createTokenL P lg p) tr ls o → ls = [] ∧ (∀ t, o ≠ .ok t) ∨ ∃ x, (∀ t, o = .ok t → t.expiryTime = x) ∧
      ls = ⟨lg ++ [("method", .const "create token")], [("expiry", .time x)], "token created"⟩ :: linesOf (lg ++ [("method", .const "create token")]) ["sealing token"]) ∧
    ∀ t tr ls o, LYields (d.getTokenContentsL P lg t) tr ls o →
      ls = [⟨lg ++ [("method", .const "get token contents")], [("expiry", .time t.expiryTime)], "unsealing token"⟩] := by
  constructor
  · intro p tr ls o h
    rcases lyields_bind h with ⟨ta, tb, la, lb, t, rfl, rfl, g1, g2⟩ | ⟨e, g1, rfl⟩ | ⟨g1, rfl⟩ | ⟨g1, rfl⟩
    · right
      rw [lyields_lift g1]
      refine ⟨t.expiryTime, ?_, ?_⟩
      · rintro x rfl
        refine Results.out (Q := fun y : SealedToken => y.expiryTime = t.expiryTime) g2 (.bind fun _ => .bind fun _ => ?_)
        intro tr ls y hy
        have hy := hy.erase
        rw [LProg.liftM_eq, LProg.erase_lift] at hy
        obtain ⟨tr1, tr2, x, -, -, hx⟩ := yields_bind_ok.mp hy
        obtain ⟨-, h⟩ := yields_ret.mp hx
        cases h
        rfl
      · have g2' : LYields (.log ⟨lg ++ [("method", .const "create token")], [("expiry", .time t.expiryTime)], "token created"⟩
          (.log ⟨lg ++ [("method", .const "create token")], [], "sealing token"⟩ (.lift (t.seal P d.tokenCryptor)))) tb lb o := g2
        cases g2' with
        | log _ _ _ _ _ g2' =>
          cases g2' with
          | log _ _ _ _ _ g2' => rw [lyields_lift g2']; rfl
    all_goals exact .inl ⟨lyields_lift g1, by simp⟩
  · intro t tr ls o h
    have h' : LYields (.log ⟨lg ++ [("method", .const "get token contents")], [("expiry", .time t.expiryTime)], "unsealing token"⟩
      ((LProg.lift (t.unseal P d.tokenCryptor)).bind fun x => .ret x.plaintext)) tr ls o := h
    cases h' with
    | log _ _ _ _ _ h' =>
      have : ∀ {tr ls o}, LYields ((LProg.lift (t.unseal P d.tokenCryptor)).bind fun x => .ret x.plaintext) tr ls o → ls = [] := by
        intro tr ls o hy
        rcases lyields_bind hy with ⟨ta, tb, la, lb, t, rfl, rfl, g1, g2⟩ | ⟨e, g1, rfl⟩ | ⟨g1, rfl⟩ | ⟨g1, rfl⟩
        · rw [lyields_lift g1]
          cases g2
          rfl
        all_goals exact lyields_lift g1
      rw [this h']

/-! ## Standalone -/

/-- A program that follows one of several scripts. -/
def OneOf {α : Type} (F : List Line → Prop) (p : LProg α) : Prop := ∀ tr ls o, LYields p tr ls o → ∃ S, F S ∧ ls <+: S ∧ ∀ a, o = .ok a → ls = S

theorem Script.oneOf {α : Type} {F : List Line → Prop} {S : List Line} {p : LProg α} (h : Script S p) (hS : F S) : OneOf F p :=
  fun _ _ _ hy => ⟨S, hS, h _ _ _ hy⟩

theorem OneOf.bind {α β : Type} {F G H : List Line → Prop} {p : LProg α} {k : α → LProg β} (h : OneOf F p) (hk : ∀ a, OneOf G (k a)) (hG : ∃ S, G S)
    (hH : ∀ S T, F S → G T → H (S ++ T)) : OneOf H (p.bind k) := by
  intro tr ls o hy
  rcases lyields_bind hy with ⟨tr1, tr2, l1, l2, a, rfl, rfl, h1, h2⟩ | ⟨e, h1, rfl⟩ | ⟨h1, rfl⟩ | ⟨h1, rfl⟩
  · obtain ⟨S, hS, -, h3⟩ := h _ _ _ h1
    obtain rfl := h3 a rfl
    obtain ⟨T, hT, h4, h5⟩ := hk a _ _ _ h2
    exact ⟨l1 ++ T, hH _ _ hS hT, (List.prefix_append_right_inj l1).mpr h4, fun b hb => by rw [h5 b hb]⟩
  all_goals
    obtain ⟨S, hS, h2, -⟩ := h _ _ _ h1
    obtain ⟨T, hT⟩ := hG
    exact ⟨S ++ T, hH _ _ hS hT, h2.trans (List.prefix_append _ _), by simp⟩

theorem OneOf.log {α : Type} {F G : List Line → Prop} {l : Line} {k : LProg α} (h : OneOf F k) (hG : ∀ S, F S → G (l :: S)) : OneOf G (.log l k) := by
  intro tr ls o hy
  cases hy with
  | log _ _ _ ls _ hy =>
    obtain ⟨S, h1, h2, h3⟩ := h _ _ _ hy
    exact ⟨l :: S, hG S h1, List.cons_prefix_cons.mpr ⟨rfl, h2⟩, fun a ha => by rw [h3 a ha]⟩

theorem OneOf.attempt {α β : Type} {F : List Line → Prop} {p : Prog α} {k : Except Err α → LProg β} (he : ∀ e, ∃ e', k (.error e) = .err e')
    (hk : ∀ a, OneOf F (k (.ok a))) (hF : ∃ S, F S) : OneOf F ((LProg.lift p).attempt k) := by
  intro tr ls o hy
  obtain ⟨S, hS⟩ := hF
  rcases lyields_attempt hy with ⟨ta, tb, la, lb, a, rfl, rfl, g1, g2⟩ | ⟨ta, tb, la, lb, e, rfl, rfl, g1, g2⟩ | ⟨g1, rfl⟩ | ⟨g1, rfl⟩
  · rw [lyields_lift g1]
    exact hk a _ _ _ g2
  · rw [lyields_lift g1]
    obtain ⟨e', he'⟩ := he e
    rw [he'] at g2
    cases g2
    exact ⟨S, hS, List.nil_prefix, by simp⟩
  all_goals
    rw [lyields_lift g1]
    exact ⟨S, hS, List.nil_prefix, by simp⟩

theorem Script.end' {α β : Type} {S : List Line} {p : LProg α} {f : α → β} (h : Script S p) : Script S (p.bind fun a => .ret (f a)) := by
  have := h.bind fun a => Script.ret (f a)
  rwa [List.append_nil] at this

/-- The script of GetIdentity for a user in `n` groups. -/
def identityScript (lg : Fields) (n : Nat) : List Line :=
  linesOf (lg ++ [("method", .const "get identity")]) (["unsealing token", "getting stored user", "unsealing user", "fetching " ++ toString n ++ " groups"] ++
    (List.replicate n ["getting stored group", "unsealing group"]).flatten)

theorem OneOf.after {α β : Type} {l : Fields} {T : List Line} {p : LProg α} {k : α → LProg β} (h : OneOf (fun S => ∃ n, S = identityScript l n) p)
    (hk : ∀ a, Script T (k a)) : OneOf (fun S => ∃ n, S = identityScript l n ++ T) (p.bind k) := by
  refine h.bind (G := (· = T)) (fun a => (hk a).oneOf rfl) ⟨T, rfl⟩ ?_
  rintro S T' ⟨n, rfl⟩ rfl
  exact ⟨n, rfl⟩

/-- The scripts of each method of the Standalone Identity Provider. -/
def dirScript (lg : Fields) : DirCall → List Line → Prop
  | .newUser _, S => S = linesOf (lg ++ [("method", .const "new user")]) ["creating new user", "sealing user", "storing new user"]
  | .loginUser .., S => S = linesOf (lg ++ [("method", .const "login user")]) ["getting stored user", "unsealing user", "authenticating", "creating token"]
  | .changePassword .., S => S = linesOf (lg ++ [("method", .const "change password")])
      ["getting stored user", "unsealing user", "updating password", "sealing user", "updating stored user"]
  | .newGroup .., S => ∃ n, S = identityScript (lg ++ [("method", .const "new group")]) n ++ linesOf (lg ++ [("method", .const "new group")])
      ["creating new group", "sealing user", "storing new group", "adding caller to group", "getting stored user", "unsealing user", "sealing user",
        "updating stored user"]
  | .addUser _ _ gs, S => ∃ n, S = identityScript (lg ++ [("method", .const "add user to group")]) n ++ linesOf (lg ++ [("method", .const "add user to group")])
      ["checking membership of " ++ toString gs.length ++ " groups", "getting stored user", "unsealing user",
        "adding user to " ++ toString gs.length ++ " groups", "sealing user", "updating stored user"]
  | .removeUser _ _ gs, S => ∃ n, S = identityScript (lg ++ [("method", .const "remove user from group")]) n ++
      linesOf (lg ++ [("method", .const "remove user from group")])
      ["checking membership of " ++ toString gs.length ++ " groups", "getting stored user", "unsealing user",
        "removing user from " ++ toString gs.length ++ " groups", "sealing user", "updating stored user"]
  | .deleteUser .., S => ∃ n, S = identityScript (lg ++ [("method", .const "delete user")]) n ++ linesOf (lg ++ [("method", .const "delete user")]) ["deleting user"]
  | .getIdentity _, S => ∃ n, S = identityScript lg n

variable {s : Standalone}

theorem script_putUser (lg : Fields) (u : GoString) (x : User) : Script (linesOf lg ["sealing user", "storing new user"]) (s.putUserL P lg u x false) :=
  .say <| (Script.lift _).then fun _ => .say (.lift _)

theorem script_updateUser (lg : Fields) (u : GoString) (x : User) : Script (linesOf lg ["sealing user", "updating stored user"]) (s.putUserL P lg u x true) :=
  .say <| (Script.lift _).then fun _ => .say (.lift _)

theorem script_getUser (lg : Fields) (u : GoString) : Script (linesOf lg ["getting stored user", "unsealing user"]) (s.getUserL P lg u) := by
  refine .say <| (Script.lift _).then fun b => ?_
  split
  · exact .fail _
  · exact .say (.lift _)

theorem script_putGroup (lg : Fields) (g : GoString) (x : Group) : Script (linesOf lg ["sealing user", "storing new group"]) (s.putGroupL P lg g x) :=
  .say <| (Script.lift _).then fun _ => .say (.lift _)

theorem script_getGroup (lg : Fields) (g : GoString) : Script (linesOf lg ["getting stored group", "unsealing group"]) (s.getGroupL P lg g) := by
  refine .say <| (Script.lift _).then fun b => ?_
  split
  · exact .fail _
  · exact .say (.lift _)

theorem linesOf_append (lg : Fields) (a b : List String) : linesOf lg (a ++ b) = linesOf lg a ++ linesOf lg b := by simp [linesOf]

theorem script_fetchGroups (lg : Fields) (l : List GoString) :
    Script (linesOf lg (List.replicate l.length ["getting stored group", "unsealing group"]).flatten) (s.fetchGroupsL P lg l) := by
  induction l with
  | nil => exact .ret _
  | cons g r ih =>
    rw [List.length_cons, List.replicate_succ, List.flatten_cons, linesOf_append]
    refine (script_getGroup _ _).bind fun _ => ?_
    exact ih.end'

theorem oneOf_getIdentity (lg : Fields) (t : GoString) : OneOf (fun S => ∃ n, S = identityScript lg n) (s.getIdentityL P lg t) := by
  rw [Standalone.getIdentityL]
  split
  · exact (Script.fail (S := identityScript lg 0) _).oneOf ⟨0, rfl⟩
  · refine OneOf.log (F := fun S => ∃ n, S = linesOf (lg ++ [("method", .const "get identity")]) (["getting stored user", "unsealing user"] ++
      (("fetching " ++ toString n ++ " groups") :: (List.replicate n ["getting stored group", "unsealing group"]).flatten))) ?_ ?_
    · refine OneOf.attempt (fun _ => ⟨_, rfl⟩) (fun _ => ?_) ⟨_, 0, rfl⟩
      refine ((script_getUser _ _).oneOf (F := (· = _)) rfl).bind (G := fun S => ∃ n, S = linesOf (lg ++ [("method", .const "get identity")])
        (("fetching " ++ toString n ++ " groups") :: (List.replicate n ["getting stored group", "unsealing group"]).flatten)) (fun u => ?_) ⟨_, 0, rfl⟩ ?_
      · exact (Script.say (script_fetchGroups _ _).end').oneOf ⟨(u.groups.getD []).length, rfl⟩
      · rintro S T rfl ⟨n, rfl⟩
        exact ⟨n, rfl⟩
    · rintro S ⟨n, rfl⟩
      exact ⟨n, rfl⟩

/-- **C82** for the Standalone Identity Provider. -/
theorem C82_standalone (lg : Fields) (c : DirCall) : OneOf (dirScript lg c) (dirProgL P s lg c) := by
  cases c with
  | newUser sc =>
    simp only [dirProgL, Standalone.newUserL, LProg.bind_eq, lbind_assoc, LProg.liftM_eq, LProg.pure_eq]
    refine Script.oneOf ?_ rfl
    exact (Script.lift _).then fun _ => .say <| (Script.lift _).then fun _ => (script_putUser _ _ _).bind fun _ => .ret _
  | loginUser u p =>
    simp only [dirProgL, Standalone.loginUserL, LProg.bind_eq, lbind_assoc, LProg.liftM_eq, LProg.pure_eq]
    refine Script.oneOf ?_ rfl
    exact (script_getUser _ _).mapErr.bind fun _ => .say <| (Script.lift _).then fun _ => .say <| (Script.lift _).then fun _ => (Script.lift _).then fun _ => .ret _
  | changePassword u p =>
    simp only [dirProgL, Standalone.changeUserPasswordL, LProg.bind_eq, lbind_assoc, LProg.liftM_eq, LProg.pure_eq]
    refine Script.oneOf ?_ rfl
    exact (script_getUser _ _).mapErr.bind fun _ => .say <| (Script.lift _).then fun _ => (script_updateUser _ _ _).bind fun _ => .ret _
  | newGroup t sc =>
    simp only [dirProgL, Standalone.newGroupL, LProg.bind_eq, lbind_assoc, LProg.liftM_eq, LProg.pure_eq]
    exact (oneOf_getIdentity _ _).after fun _ => (Script.lift _).then fun _ => .say <| (script_putGroup _ _ _).bind fun _ => .say <| (script_getUser _ _).bind fun _ => (Script.lift _).then fun _ =>
        (script_updateUser _ _ _).bind fun _ => .ret _
  | addUser t u gs =>
    simp only [dirProgL, Standalone.addUserToGroupsL, LProg.bind_eq, lbind_assoc, LProg.liftM_eq]
    exact (oneOf_getIdentity _ _).after fun _ => .say <| (Script.lift _).then fun _ => (script_getUser _ _).bind fun _ => .say <| (Script.lift _).then fun _ =>
        (script_updateUser _ _ _).bind fun _ => .ret _
  | removeUser t u gs =>
    simp only [dirProgL, Standalone.removeUserFromGroupsL, LProg.bind_eq, lbind_assoc, LProg.liftM_eq]
    exact (oneOf_getIdentity _ _).after fun _ => .say <| (Script.lift _).then fun _ => (script_getUser _ _).bind fun _ => .say <| (script_updateUser _ _ _).bind fun _ => .ret _
  | deleteUser t u =>
    simp only [dirProgL, Standalone.deleteUserL, LProg.bind_eq, lbind_assoc, LProg.liftM_eq]
    exact (oneOf_getIdentity _ _).after fun _ => .say <| (Script.lift _).then fun _ => .ret _
  | getIdentity t =>
    refine (oneOf_getIdentity _ _).bind (G := (· = [])) (fun _ => (Script.ret _).oneOf rfl) ⟨_, rfl⟩ ?_
    rintro S T ⟨n, rfl⟩ rfl
    exact ⟨n, List.append_nil _⟩

/-! ## The index -/

/-- Fetching a node. -/
abbrev fetchNode : List String := ["getting next node", "getting stored node"]

/-- The log of Delete after its first line: nodes are passed over, or deleted as the last node of the list, or overwritten with the next one. -/
inductive DeleteLog : List String → Prop
  | done : DeleteLog fetchNode
  | other {r : List String} : DeleteLog r → DeleteLog (fetchNode ++ r)
  | last {r : List String} : DeleteLog r →
      DeleteLog (fetchNode ++ (["deleting node"] ++ fetchNode ++ ["last node, deleting", "deleting stored node"] ++ r))
  | inner {r : List String} : DeleteLog r → DeleteLog (fetchNode ++ (["deleting node"] ++ fetchNode ++ ["overwriting with next node", "storing node", "updating stored node",
      "deleting next node", "deleting stored node"] ++ r))

/-- The scripts of each method of the index after the caller was accepted. -/
def ixScript (lg : Fields) : IxCall → Outcome IxRes → List Line → Prop
  | .add .., _, S => ∃ n, S = linesOf lg (["getting last node"] ++ (List.replicate (n + 1) fetchNode).flatten ++ ["adding new node", "storing node", "creating new node"])
  | .search .., o, S => ∃ n, (∀ l, o = .ok (.ids l) → l.length = n) ∧ S = linesOf lg (["searching the index"] ++ (List.replicate (n + 1) fetchNode).flatten)
  | .delete .., _, S => ∃ m, DeleteLog m ∧ S = linesOf lg (["deleting entries from index"] ++ m)

/-- What a method of the index calls itself in the log. -/
def IxCall.logName : IxCall → String
  | .add .. => "add"
  | .search .. => "search"
  | .delete .. => "delete"

theorem lyields_getNextNode {lg : Fields} {n : Node} {tg : Tagger} {cr : Cryptor} {tr : List Event} {ls : List Line} {o : Outcome Node}
    (h : LYields (getNextNodeL P lg n tg cr) tr ls o) : ls = linesOf lg fetchNode ∨ (ls = linesOf lg ["getting next node"] ∧ o = .panic) := by
  have h' : LYields (.log ⟨lg, [], "getting next node"⟩ ((LProg.lift (ofPanic (n.nextLabel P tg))).bind fun l => (getSealedNodeL P lg l).bind fun x =>
    .lift (ofExcept (x.unseal P l cr)))) tr ls o := h
  cases h' with
  | log _ _ _ _ _ h' =>
    rcases lyields_bind h' with ⟨ta, tb, la, lb, l, rfl, rfl, g1, g2⟩ | ⟨e, g1, rfl⟩ | ⟨g1, rfl⟩ | ⟨g1, rfl⟩
    · left
      rw [lyields_lift g1]
      have hs : ∀ {tr ls o}, LYields (getSealedNodeL P lg l) tr ls o → ls = linesOf lg ["getting stored node"] := by
        intro tr ls o hy
        have hy' : LYields (.log ⟨lg, [], "getting stored node"⟩ (.lift (getSealedNode P l))) tr ls o := hy
        cases hy' with
        | log _ _ _ _ _ hy' => rw [lyields_lift hy']; rfl
      rcases lyields_bind g2 with ⟨ta, tb, la, lb, x, rfl, rfl, g3, g4⟩ | ⟨e, g3, rfl⟩ | ⟨g3, rfl⟩ | ⟨g3, rfl⟩
      · rw [hs g3, lyields_lift g4]; rfl
      all_goals rw [hs g3]; rfl
    · have := g1.erase
      rw [LProg.erase_lift] at this
      cases hn : n.nextLabel P tg <;> rw [hn] at this <;> cases this
    · exact .inr ⟨by rw [lyields_lift g1]; rfl, rfl⟩
    · have := g1.erase
      rw [LProg.erase_lift] at this
      cases hn : n.nextLabel P tg <;> rw [hn] at this <;> cases this

theorem fetch_prefix (lg : Fields) {ls : List Line} {o : Outcome Node} (h : ls = linesOf lg fetchNode ∨ (ls = linesOf lg ["getting next node"] ∧ o = .panic)) :
    ls <+: linesOf lg fetchNode := by
  rcases h with rfl | ⟨rfl, -⟩
  · exact List.prefix_rfl
  · exact ⟨linesOf lg ["getting stored node"], rfl⟩

theorem lyields_searchLoop {lg : Fields} {tg : Tagger} {cr : Cryptor} (fuel : Nat) : ∀ {n : Node} {acc : List GoString} {tr : List Event} {ls : List Line}
    {o : Outcome (List GoString)}, LYields (searchLoopL P lg tg cr fuel n acc) tr ls o →
    ∃ k, ls <+: linesOf lg (List.replicate (k + 1) fetchNode).flatten ∧ ∀ l, o = .ok l → ls = linesOf lg (List.replicate (k + 1) fetchNode).flatten ∧ l.length = acc.length + k := by
  induction fuel with
  | zero => intro n acc tr ls o h; cases h; exact ⟨0, List.nil_prefix, by simp⟩
  | succ f ih =>
    intro n acc tr ls o h
    rw [searchLoopL] at h
    have h1 : linesOf lg (List.replicate (0 + 1) fetchNode).flatten = linesOf lg fetchNode := rfl
    rcases lyields_attempt h with ⟨ta, tb, la, lb, x, rfl, rfl, g1, g2⟩ | ⟨ta, tb, la, lb, e, rfl, rfl, g1, g2⟩ | ⟨g1, rfl⟩ | ⟨g1, rfl⟩
    · rcases lyields_getNextNode g1 with rfl | ⟨-, h2⟩
      · obtain ⟨k, h2, h3⟩ := ih g2
        refine ⟨k + 1, ?_, fun l hl => ?_⟩
        · rw [List.replicate_succ, List.flatten_cons, linesOf_append]
          exact (List.prefix_append_right_inj _).mpr h2
        · obtain ⟨rfl, h4⟩ := h3 l hl
          refine ⟨?_, by rw [h4, List.length_append, List.length_singleton]; omega⟩
          rw [List.replicate_succ (n := k + 1), List.flatten_cons, linesOf_append]
      · cases h2
    · rcases lyields_getNextNode g1 with rfl | ⟨-, h2⟩
      · split at g2
        · cases g2
          exact ⟨0, by rw [h1, List.append_nil]; exact List.prefix_rfl, fun l hl => by cases hl; exact ⟨by rw [h1, List.append_nil], rfl⟩⟩
        · cases g2
          exact ⟨0, by rw [h1, List.append_nil]; exact List.prefix_rfl, by simp⟩
        · rename_i h; cases h
      · cases h2
    all_goals exact ⟨0, by rw [h1]; exact fetch_prefix lg (lyields_getNextNode g1), by simp⟩

theorem oneOf_getLastNode (lg : Fields) (fuel : Nat) (tg : Tagger) (cr : Cryptor) :
    OneOf (fun S => ∃ n, S = linesOf lg (["getting last node"] ++ (List.replicate (n + 1) fetchNode).flatten)) (getLastNodeL P lg fuel tg cr) := by
  refine OneOf.log (F := fun S => ∃ n, S = linesOf lg (List.replicate (n + 1) fetchNode).flatten) ?_ ?_
  · show OneOf _ (getLastNodeLoopL P lg tg cr fuel zeroNode)
    generalize zeroNode = z
    induction fuel generalizing z with
    | zero => intro tr ls o h; cases h; exact ⟨_, ⟨0, rfl⟩, List.nil_prefix, by simp⟩
    | succ f ih =>
      intro tr ls o h
      rw [getLastNodeLoopL] at h
      have h1 : linesOf lg (List.replicate (0 + 1) fetchNode).flatten = linesOf lg fetchNode := rfl
      rcases lyields_attempt h with ⟨ta, tb, la, lb, x, rfl, rfl, g1, g2⟩ | ⟨ta, tb, la, lb, e, rfl, rfl, g1, g2⟩ | ⟨g1, rfl⟩ | ⟨g1, rfl⟩
      · rcases lyields_getNextNode g1 with rfl | ⟨-, h2⟩
        · obtain ⟨S, ⟨k, rfl⟩, h2, h3⟩ := ih x _ _ _ g2
          refine ⟨_, ⟨k + 1, rfl⟩, ?_, fun l hl => ?_⟩
          · rw [List.replicate_succ, List.flatten_cons, linesOf_append]
            exact (List.prefix_append_right_inj _).mpr h2
          · rw [h3 l hl, List.replicate_succ (n := k + 1), List.flatten_cons, linesOf_append]
        · cases h2
      · rcases lyields_getNextNode g1 with rfl | ⟨-, h2⟩
        · split at g2
          · cases g2
            exact ⟨_, ⟨0, rfl⟩, by rw [h1, List.append_nil]; exact List.prefix_rfl, fun l hl => by rw [h1, List.append_nil]⟩
          · cases g2
            exact ⟨_, ⟨0, rfl⟩, by rw [h1, List.append_nil]; exact List.prefix_rfl, by simp⟩
          · rename_i h; cases h
        · cases h2
      all_goals exact ⟨_, ⟨0, rfl⟩, by rw [h1]; exact fetch_prefix lg (lyields_getNextNode g1), by simp⟩
  · rintro S ⟨n, rfl⟩
    exact ⟨n, rfl⟩

theorem oneOf_deleteNode (lg : Fields) (l : Bytes) (n : Node) (tg : Tagger) (cr : Cryptor) :
    OneOf (fun S => S = linesOf lg (["deleting node"] ++ fetchNode ++ ["last node, deleting", "deleting stored node"]) ∨
      S = linesOf lg (["deleting node"] ++ fetchNode ++ ["overwriting with next node", "storing node", "updating stored node", "deleting next node", "deleting stored node"]))
      (deleteNodeL P lg l n tg cr) := by
  refine OneOf.log (F := fun S => S = linesOf lg (fetchNode ++ ["last node, deleting", "deleting stored node"]) ∨
      S = linesOf lg (fetchNode ++ ["overwriting with next node", "storing node", "updating stored node", "deleting next node", "deleting stored node"])) ?_ ?_
  · intro tr ls o h
    have hp : linesOf lg fetchNode <+: linesOf lg (fetchNode ++ ["last node, deleting", "deleting stored node"]) := by rw [linesOf_append]; exact List.prefix_append _ _
    rcases lyields_attempt h with ⟨ta, tb, la, lb, x, rfl, rfl, g1, g2⟩ | ⟨ta, tb, la, lb, e, rfl, rfl, g1, g2⟩ | ⟨g1, rfl⟩ | ⟨g1, rfl⟩
    · rcases lyields_getNextNode g1 with rfl | ⟨-, h2⟩
      · have hs : Script (linesOf lg ["overwriting with next node", "storing node", "updating stored node", "deleting next node", "deleting stored node"])
            ((lg.say "overwriting with next node").bind fun _ => (LProg.lift (x.seal P l cr)).bind fun u => (putSealedNodeL lg l u true).bind fun _ =>
              (lg.say "deleting next node").bind fun _ => (LProg.lift (ofPanic (n.nextLabel P tg))).bind fun nl => deleteSealedNodeL lg nl) :=
          .say <| (Script.lift _).then fun _ => Script.bind (S := linesOf lg ["storing node", "updating stored node"]) (.say <| .say (.lift _)) fun _ => .say <|
            (Script.lift _).then fun _ => .say (.lift _)
        obtain ⟨h2, h3⟩ := hs _ _ _ g2
        refine ⟨_, .inr rfl, ?_, fun a ha => ?_⟩
        · rw [linesOf_append]; exact (List.prefix_append_right_inj _).mpr h2
        · rw [h3 a ha, linesOf_append]
      · cases h2
    · rcases lyields_getNextNode g1 with rfl | ⟨-, h2⟩
      · split at g2
        · have hs : Script (linesOf lg ["last node, deleting", "deleting stored node"]) ((lg.say "last node, deleting").bind fun _ => deleteSealedNodeL lg l) :=
            .say <| .say (.lift _)
          obtain ⟨h2, h3⟩ := hs _ _ _ g2
          refine ⟨_, .inl rfl, ?_, fun a ha => ?_⟩
          · rw [linesOf_append]; exact (List.prefix_append_right_inj _).mpr h2
          · rw [h3 a ha, linesOf_append]
        · cases g2
          exact ⟨_, .inl rfl, by rwa [List.append_nil], by simp⟩
        · rename_i h; cases h
      · cases h2
    all_goals exact ⟨_, .inl rfl, (fetch_prefix lg (lyields_getNextNode g1)).trans hp, by simp⟩
  · rintro S (rfl | rfl)
    · exact .inl rfl
    · exact .inr rfl

theorem oneOf_deleteLoop (lg : Fields) (tg : Tagger) (cr : Cryptor) (x : GoString) (fuel : Nat) : ∀ n,
    OneOf (fun S => ∃ m, DeleteLog m ∧ S = linesOf lg m) (deleteLoopL P lg tg cr x fuel n) := by
  induction fuel with
  | zero => intro n tr ls o h; cases h; exact ⟨_, ⟨_, .done, rfl⟩, List.nil_prefix, by simp⟩
  | succ f ih =>
    intro n tr ls o h
    rw [deleteLoopL] at h
    rcases lyields_attempt h with ⟨ta, tb, la, lb, y, rfl, rfl, g1, g2⟩ | ⟨ta, tb, la, lb, e, rfl, rfl, g1, g2⟩ | ⟨g1, rfl⟩ | ⟨g1, rfl⟩
    · rcases lyields_getNextNode g1 with rfl | ⟨-, h2⟩
      · dsimp only at g2
        split at g2
        · have hs : OneOf (fun S => ∃ m, DeleteLog (fetchNode ++ m) ∧ S = linesOf lg m) ((LProg.lift (ofPanic (n.nextLabel P tg))).bind fun l =>
              (deleteNodeL P lg l y tg cr).bind fun _ => deleteLoopL P lg tg cr x f n) := by
            refine ((Script.lift _).oneOf (F := (· = [])) rfl).bind (G := fun S => ∃ m, DeleteLog (fetchNode ++ m) ∧ S = linesOf lg m) (fun l => ?_)
              ⟨_, _, .last .done, rfl⟩ (by rintro S T rfl h; exact h)
            refine (oneOf_deleteNode lg l y tg cr).bind (fun _ => ih n) ⟨_, _, .done, rfl⟩ ?_
            rintro S T (rfl | rfl) ⟨m, hm, rfl⟩
            · exact ⟨_, .last hm, (linesOf_append _ _ _).symm⟩
            · exact ⟨_, .inner hm, (linesOf_append _ _ _).symm⟩
          obtain ⟨S, ⟨m, hm, rfl⟩, h2, h3⟩ := hs _ _ _ g2
          refine ⟨_, ⟨_, hm, rfl⟩, ?_, fun a ha => ?_⟩
          · rw [linesOf_append]; exact (List.prefix_append_right_inj _).mpr h2
          · rw [h3 a ha, linesOf_append]
        · obtain ⟨S, ⟨m, hm, rfl⟩, h2, h3⟩ := ih y _ _ _ g2
          refine ⟨_, ⟨_, .other hm, rfl⟩, ?_, fun a ha => ?_⟩
          · rw [linesOf_append]; exact (List.prefix_append_right_inj _).mpr h2
          · rw [h3 a ha, linesOf_append]
      · cases h2
    · rcases lyields_getNextNode g1 with rfl | ⟨-, h2⟩
      · split at g2
        · cases g2
          exact ⟨_, ⟨_, .done, rfl⟩, by rw [List.append_nil]; exact List.prefix_rfl, fun l hl => by rw [List.append_nil]⟩
        · cases g2
          exact ⟨_, ⟨_, .done, rfl⟩, by rw [List.append_nil]; exact List.prefix_rfl, by simp⟩
        · rename_i h; cases h
      · cases h2
    all_goals exact ⟨_, ⟨_, .done, rfl⟩, fetch_prefix lg (lyields_getNextNode g1), by simp⟩

/-- **C82** for the index. -/
theorem C82_index {i : SecureIndex} {lg : Fields} {fuel : Nat} {c : IxCall} {tr : List Event} {ls : List Line} {o : Outcome IxRes}
    (h : LYields (ixProgL P i idp lg fuel c) tr ls o) : ∃ tr1 tr2 l1 o1, tr = tr1 ++ tr2 ∧
      LYields (idp (lg ++ [("method", .const (IxCall.logName c))]) c.token) tr1 l1 o1 ∧ AccessLog (lg ++ [("method", .const (IxCall.logName c))]) "index" l1 o1
        (fun lu r => ∃ S, ixScript lu c o S ∧ r <+: S ∧ ∀ a, o = .ok a → r = S) ls o := by
  cases c with
  | add t kw x =>
    simp only [ixProgL, SecureIndex.addL, LProg.bind_eq, lbind_assoc, LProg.liftM_eq] at h
    obtain ⟨tr1, tr2, l1, o1, rfl, h1, h2⟩ := lyields_ixVerify h
    refine ⟨tr1, tr2, l1, o1, rfl, h1, h2.imp ?_⟩
    rintro lu r ⟨-, -, hr⟩
    refine OneOf.bind (F := (· = [])) (G := fun S => ∃ n, S = linesOf lu (["getting last node"] ++ (List.replicate (n + 1) fetchNode).flatten ++
      ["adding new node", "storing node", "creating new node"])) ((Script.lift _).oneOf rfl) (fun tc => ?_) ⟨_, 0, rfl⟩ (by rintro S T rfl h; exact h) _ _ _ hr
    refine (oneOf_getLastNode lu fuel tc.1 tc.2).bind (G := (· = linesOf lu ["adding new node", "storing node", "creating new node"])) (fun n => Script.oneOf ?_ rfl) ⟨_, rfl⟩ ?_
    · exact .say <| (Script.lift _).then fun _ => (Script.lift _).then fun _ => Script.end' (.say <| .say (.lift _))
    · rintro S T ⟨n, rfl⟩ rfl
      exact ⟨n, (linesOf_append _ _ _).symm⟩
  | search t kw =>
    simp only [ixProgL, SecureIndex.searchL, LProg.bind_eq, lbind_assoc, LProg.liftM_eq] at h
    obtain ⟨tr1, tr2, l1, o1, rfl, h1, h2⟩ := lyields_ixVerify h
    refine ⟨tr1, tr2, l1, o1, rfl, h1, h2.imp ?_⟩
    rintro lu r ⟨-, -, hr⟩
    rcases lyields_bind hr with ⟨ta, tb, la, lb, tc, rfl, rfl, g1, g2⟩ | ⟨e, g1, rfl⟩ | ⟨g1, rfl⟩ | ⟨g1, rfl⟩
    · rw [lyields_lift g1]
      have g2' : LYields (.log ⟨lu, [], "searching the index"⟩ ((searchLoopL P lu tc.1 tc.2 fuel zeroNode []).bind fun l => .ret (.ids l))) tb lb o := g2
      cases g2' with
      | log _ _ _ ls _ g2' =>
      rcases lyields_bind g2' with ⟨tc, td, lc, ld, l, rfl, rfl, g3, g4⟩ | ⟨e, g3, rfl⟩ | ⟨g3, rfl⟩ | ⟨g3, rfl⟩
      · cases g4
        obtain ⟨k, -, h4⟩ := lyields_searchLoop fuel g3
        obtain ⟨rfl, h5⟩ := h4 l rfl
        refine ⟨_, ⟨k, ?_, rfl⟩, ?_, fun _ _ => ?_⟩
        · rintro l' hl
          cases hl
          simpa using h5
        · rw [List.append_nil]; exact List.prefix_rfl
        · rw [List.append_nil]; rfl
      all_goals
        obtain ⟨k, h4, -⟩ := lyields_searchLoop fuel g3
        exact ⟨_, ⟨k, by simp, rfl⟩, List.cons_prefix_cons.mpr ⟨rfl, h4⟩, by simp⟩
    all_goals
      rw [lyields_lift g1]
      exact ⟨_, ⟨0, by simp, rfl⟩, List.nil_prefix, by simp⟩
  | delete t kw x =>
    simp only [ixProgL, SecureIndex.deleteL, LProg.bind_eq, lbind_assoc, LProg.liftM_eq] at h
    obtain ⟨tr1, tr2, l1, o1, rfl, h1, h2⟩ := lyields_ixVerify h
    refine ⟨tr1, tr2, l1, o1, rfl, h1, h2.imp ?_⟩
    rintro lu r ⟨-, -, hr⟩
    refine OneOf.bind (F := (· = [])) (G := fun S => ∃ m, DeleteLog m ∧ S = linesOf lu (["deleting entries from index"] ++ m)) ((Script.lift _).oneOf rfl)
      (fun tc => ?_) ⟨_, _, .done, rfl⟩ (by rintro S T rfl h; exact h) _ _ _ hr
    refine OneOf.log (F := fun S => ∃ m, DeleteLog m ∧ S = linesOf lu m) ?_ ?_
    · refine (oneOf_deleteLoop lu tc.1 tc.2 x fuel zeroNode).bind (G := (· = [])) (fun _ => (Script.ret _).oneOf rfl) ⟨_, rfl⟩ ?_
      rintro S T ⟨m, hm, rfl⟩ rfl
      exact ⟨m, hm, List.append_nil _⟩
    · rintro S ⟨m, hm, rfl⟩
      exact ⟨m, hm, rfl⟩

/-! ## The constructors, and everything together -/

/-- The logs of New and NewSecureIndex. -/
theorem C82_constructors (lg : Fields) (keys : Except Err Keys) (idp0 : IdProvider) :
    Script (linesOf lg ["getting keys", "creating object cryptor", "creating access cryptor", "creating token cryptor"]) (newD1L lg keys idp0) ∧
    Script (linesOf lg ["getting keys"]) (newSecureIndexL lg keys idp0) := by
  constructor
  · refine .say ?_
    cases keys with
    | error e => exact .fail _
    | ok keys => exact .say <| (Script.lift _).then fun _ => .say <| (Script.lift _).then fun _ => .say <| (Script.lift _).then fun _ => .ret _
  · exact .say (.lift _)

/-- **C82.**  Logging changes nothing else: without its log, every method is the method of the model that all other properties are about. -/
theorem C82_unchanged {i : SecureIndex} (hd : LogsAs idp d.idProvider) (hi : LogsAs idp i.idProvider) (lg : Fields) :
    (∀ c, (callProgL P d idp lg c).erase = callProg P d c) ∧
    (∀ p, (d.createTokenL P lg p).erase = d.createToken P p) ∧
    (∀ t, (d.getTokenContentsL P lg t).erase = d.getTokenContents P t) ∧
    (∀ c, (dirProgL P s lg c).erase = dirProg P s c) ∧
    (∀ fuel c, (ixProgL P i idp lg fuel c).erase = ixProg P i fuel c) ∧
    (∀ keys idp0, (newD1L lg keys idp0).erase = ofExcept (newD1 keys idp0)) ∧
    (∀ keys idp0, (newSecureIndexL lg keys idp0).erase = ofExcept (newSecureIndex keys idp0)) ∧
    LogsAs (s.getIdentityL P) (s.getIdentity P) :=
  ⟨erase_call hd lg, erase_createToken lg, erase_getTokenContents lg, erase_dir lg, fun fuel => erase_ix hi lg fuel, erase_newD1 lg, erase_newSecureIndex lg,
    fun lg t => erase_getIdentity lg t⟩

/-- Every execution of a program with its log removed is one of the program with exactly one log, and the other way round. -/
theorem C82_one_log {α : Type} (p : LProg α) (tr : List Event) (o : Outcome α) :
    (Yields p.erase tr o ↔ ∃ ls, LYields p tr ls o) ∧ ∀ ls ls', LYields p tr ls o → LYields p tr ls' o → ls = ls' :=
  ⟨⟨fun h => (LYields.exists h).exists, fun ⟨_, h⟩ => h.erase⟩, fun _ _ h h' => (LYields.exists h.erase).unique h h'⟩

end

/-- The fields of the example below. -/
def sampleFields : Fields := [("method", .const "decrypt"), ("oid", .text (uuidText ⟨List.replicate 16 1, rfl⟩))]

/-- User 9, whose token is `[7, 7]` and who lacks the scope of the method: three lines, and the token is in none. -/
example : LYields (callProgL toyPrims toyD1 (fun _ _ => .ret ⟨[9], 0, []⟩) [] (.decrypt [7, 7] ⟨List.replicate 16 1, rfl⟩)) []
    (linesOf sampleFields ["authenticating caller"] ++ linesOf (sampleFields ++ [("uid", .text [9])]) ["authorizing caller"] ++
      [⟨sampleFields ++ [("uid", .text [9])], [("scope", .const "decrypt")], "scope missing"⟩]) (.err .notAuthorized) :=
  .log _ _ _ _ _ (.log _ _ _ _ _ (.log _ _ _ _ _ (.err _)))
end D1
