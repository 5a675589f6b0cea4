import Verif.Model.Prog
/-!
# Laws of the program semantics
-/
namespace D1

namespace Prog
variable {α β γ : Type}

@[simp] theorem pure_eq (a : α) : (pure a : Prog α) = .ret a := rfl
@[simp] theorem bind_eq (p : Prog α) (k : α → Prog β) : (p >>= k) = p.bind k := rfl
@[simp] theorem ret_bind (a : α) (k : α → Prog β) : (ret a).bind k = k a := rfl
@[simp] theorem err_bind (e : Err) (k : α → Prog β) : (err e : Prog α).bind k = .err e := rfl
@[simp] theorem panic_bind (k : α → Prog β) : (panic : Prog α).bind k = .panic := rfl
@[simp] theorem diverge_bind (k : α → Prog β) : (diverge : Prog α).bind k = .diverge := rfl
@[simp] theorem op_bind (e : Eff) (c : e.Resp → Prog α) (k : α → Prog β) :
    (op e c).bind k = .op e (fun r => (c r).bind k) := rfl
@[simp] theorem ret_attempt (a : α) (k : Except Err α → Prog β) : (ret a).attempt k = k (.ok a) := rfl
@[simp] theorem err_attempt (e : Err) (k : Except Err α → Prog β) : (err e : Prog α).attempt k = k (.error e) := rfl
@[simp] theorem panic_attempt (k : Except Err α → Prog β) : (panic : Prog α).attempt k = .panic := rfl
@[simp] theorem diverge_attempt (k : Except Err α → Prog β) : (diverge : Prog α).attempt k = .diverge := rfl
@[simp] theorem op_attempt (e : Eff) (c : e.Resp → Prog α) (k : Except Err α → Prog β) :
    (op e c).attempt k = .op e (fun r => (c r).attempt k) := rfl
@[simp] theorem ofExcept_ok (a : α) : ofExcept (.ok a) = ret a := rfl
@[simp] theorem ofExcept_error (e : Err) : ofExcept (.error e : Except Err α) = .err e := rfl
@[simp] theorem ofPanic_some (a : α) : ofPanic (some a) = ret a := rfl
@[simp] theorem ofPanic_none : ofPanic (none : Option α) = .panic := rfl

theorem bind_assoc (p : Prog α) (k : α → Prog β) (l : β → Prog γ) :
    (p.bind k).bind l = p.bind fun a => (k a).bind l := by
  induction p with
  | op e c ih => simp [ih]
  | _ => rfl

theorem bind_ret (p : Prog α) : p.bind ret = p := by
  induction p with
  | op e c ih => simp [ih]
  | _ => rfl

/-- `attempt` covers `bind`. -/
theorem bind_eq_attempt (p : Prog α) (k : α → Prog β) :
    p.bind k = p.attempt fun r => match r with | .ok a => k a | .error e => .err e := by
  induction p with
  | op e c ih => simp [ih]
  | _ => rfl

theorem attempt_bind (p : Prog α) (k : Except Err α → Prog β) (l : β → Prog γ) :
    (p.attempt k).bind l = p.attempt fun r => (k r).bind l := by
  induction p with
  | op e c ih => simp [ih]
  | _ => rfl

theorem bind_attempt (p : Prog α) (k : α → Prog β) (l : Except Err β → Prog γ) :
    (p.bind k).attempt l =
      p.attempt fun r => match r with | .ok a => (k a).attempt l | .error e => l (.error e) := by
  induction p with
  | op e c ih => simp [ih]
  | _ => rfl

theorem attempt_attempt (p : Prog α) (k : Except Err α → Prog β) (l : Except Err β → Prog γ) :
    (p.attempt k).attempt l = p.attempt fun r => (k r).attempt l := by
  induction p with
  | op e c ih => simp [ih]
  | _ => rfl

/-! ## Sequential runs -/

variable (env : Env)

@[simp] theorem run_ret (a : α) (w : World) : (ret a).run env w = (.ok a, w) := rfl
@[simp] theorem run_err (e : Err) (w : World) : (err e : Prog α).run env w = (.err e, w) := rfl
@[simp] theorem run_panic (w : World) : (panic : Prog α).run env w = (.panic, w) := rfl
@[simp] theorem run_diverge (w : World) : (diverge : Prog α).run env w = (.diverge, w) := rfl
theorem run_op (e : Eff) (k : e.Resp → Prog α) (w : World) :
    (op e k).run env w = (k (w.exec env e).1).run env (w.exec env e).2 := rfl

theorem run_attempt (p : Prog α) (k : Except Err α → Prog β) (w : World) :
    (p.attempt k).run env w =
      match p.run env w with
      | (.ok a, w') => (k (.ok a)).run env w'
      | (.err e, w') => (k (.error e)).run env w'
      | (.panic, w') => (.panic, w')
      | (.diverge, w') => (.diverge, w') := by
  induction p generalizing w with
  | op e c ih => simp only [op_attempt, run_op]; exact ih _ _
  | _ => rfl

theorem run_bind (p : Prog α) (k : α → Prog β) (w : World) :
    (p.bind k).run env w =
      match p.run env w with
      | (.ok a, w') => (k a).run env w'
      | (.err e, w') => (.err e, w')
      | (.panic, w') => (.panic, w')
      | (.diverge, w') => (.diverge, w') := by
  rw [bind_eq_attempt, run_attempt]; rfl

theorem run_bind_ok {p : Prog α} {k : α → Prog β} {w w' : World} {a : α}
    (h : p.run env w = (.ok a, w')) : (p.bind k).run env w = (k a).run env w' := by
  rw [run_bind, h]

theorem run_bind_err {p : Prog α} {k : α → Prog β} {w w' : World} {e : Err}
    (h : p.run env w = (.err e, w')) : (p.bind k).run env w = (.err e, w') := by
  rw [run_bind, h]

theorem run_attempt_ok {p : Prog α} {k : Except Err α → Prog β} {w w' : World} {a : α}
    (h : p.run env w = (.ok a, w')) : (p.attempt k).run env w = (k (.ok a)).run env w' := by
  rw [run_attempt, h]

theorem run_attempt_err {p : Prog α} {k : Except Err α → Prog β} {w w' : World} {e : Err}
    (h : p.run env w = (.err e, w')) : (p.attempt k).run env w = (k (.error e)).run env w' := by
  rw [run_attempt, h]

theorem run_bind_ok_iff {p : Prog α} {k : α → Prog β} {w w' : World} {b : β} :
    (p.bind k).run env w = (.ok b, w') ↔ ∃ a w1, p.run env w = (.ok a, w1) ∧ (k a).run env w1 = (.ok b, w') := by
  rw [run_bind]
  cases h : p.run env w with
  | mk o w1 =>
    cases o with
    | ok x =>
      simp only [Prod.mk.injEq, Outcome.ok.injEq]
      constructor
      · intro h; exact ⟨x, w1, ⟨rfl, rfl⟩, h⟩
      · rintro ⟨_, _, ⟨rfl, rfl⟩, h⟩; exact h
    | _ => simp

/-! ## Crashing runs -/

/-- A run that is cut off late enough is a run. -/
theorem runN_of_run (p : Prog α) (w : World) : ∃ n, ∀ m, n ≤ m → p.runN env m w = (some (p.run env w).1, (p.run env w).2) := by
  induction p generalizing w with
  | op e c ih =>
    obtain ⟨n, h⟩ := ih (w.exec env e).1 (w.exec env e).2
    refine ⟨n + 1, fun m hm => ?_⟩
    obtain ⟨m, rfl⟩ : ∃ k, m = k + 1 := ⟨m - 1, by omega⟩
    simp only [runN, run_op]
    exact h m (by omega)
  | _ => exact ⟨0, fun m _ => by cases m <;> rfl⟩

/-- A run that ended before the cut is the full run. -/
theorem run_of_runN (p : Prog α) (n : Nat) (w w' : World) (o : Outcome α)
    (h : p.runN env n w = (some o, w')) : p.run env w = (o, w') := by
  induction p generalizing n w with
  | op e c ih =>
    cases n with
    | zero => simp [runN] at h
    | succ n => rw [run_op]; exact ih _ n _ h
  | _ => cases n <;> simp_all [runN, run]

end Prog

end D1
