import Verif.Proofs.Prog
/-!
# Programs against arbitrary answers
-/
namespace D1

namespace Prog
variable {α β : Type}

@[simp] theorem yields_ret {a : α} {tr : List Event} {o : Outcome α} : Yields (.ret a) tr o ↔ tr = [] ∧ o = .ok a := by
  constructor
  · intro h; cases h; exact ⟨rfl, rfl⟩
  · rintro ⟨rfl, rfl⟩; exact .ret a
@[simp] theorem yields_err {e : Err} {tr : List Event} {o : Outcome α} :
    Yields (.err e : Prog α) tr o ↔ tr = [] ∧ o = .err e := by
  constructor
  · intro h; cases h; exact ⟨rfl, rfl⟩
  · rintro ⟨rfl, rfl⟩; exact .err e
@[simp] theorem yields_panic {tr : List Event} {o : Outcome α} : Yields (.panic : Prog α) tr o ↔ tr = [] ∧ o = .panic := by
  constructor
  · intro h; cases h; exact ⟨rfl, rfl⟩
  · rintro ⟨rfl, rfl⟩; exact .panic
@[simp] theorem yields_diverge {tr : List Event} {o : Outcome α} :
    Yields (.diverge : Prog α) tr o ↔ tr = [] ∧ o = .diverge := by
  constructor
  · intro h; cases h; exact ⟨rfl, rfl⟩
  · rintro ⟨rfl, rfl⟩; exact .diverge
theorem yields_op {e : Eff} {k : e.Resp → Prog α} {tr : List Event} {o : Outcome α} :
    Yields (.op e k) tr o ↔ ∃ r tr', tr = ⟨e, r⟩ :: tr' ∧ Yields (k r) tr' o := by
  constructor
  · intro h; cases h with | op _ _ r tr _ h => exact ⟨r, tr, rfl, h⟩
  · rintro ⟨r, tr', rfl, h⟩; exact .op e k r tr' o h

theorem yields_attempt {p : Prog α} {k : Except Err α → Prog β} {tr : List Event} {o : Outcome β} :
    Yields (p.attempt k) tr o ↔
      (∃ tr1 tr2 a, tr = tr1 ++ tr2 ∧ Yields p tr1 (.ok a) ∧ Yields (k (.ok a)) tr2 o) ∨
      (∃ tr1 tr2 e, tr = tr1 ++ tr2 ∧ Yields p tr1 (.err e) ∧ Yields (k (.error e)) tr2 o) ∨
      (Yields p tr .panic ∧ o = .panic) ∨ (Yields p tr .diverge ∧ o = .diverge) := by
  induction p generalizing tr with
  | ret a =>
    simp only [ret_attempt, yields_ret]
    constructor
    · exact fun h => .inl ⟨[], tr, a, rfl, ⟨rfl, rfl⟩, h⟩
    · rintro (⟨_, _, _, rfl, ⟨rfl, h⟩, h2⟩ | ⟨_, _, _, _, ⟨_, h⟩, _⟩ | ⟨⟨_, h⟩, _⟩ | ⟨⟨_, h⟩, _⟩) <;> cases h
      exact h2
  | err e =>
    simp only [err_attempt, yields_err]
    constructor
    · exact fun h => .inr (.inl ⟨[], tr, e, rfl, ⟨rfl, rfl⟩, h⟩)
    · rintro (⟨_, _, _, _, ⟨_, h⟩, _⟩ | ⟨_, _, _, rfl, ⟨rfl, h⟩, h2⟩ | ⟨⟨_, h⟩, _⟩ | ⟨⟨_, h⟩, _⟩) <;> cases h
      exact h2
  | panic => simp
  | diverge => simp
  | op e c ih =>
    rw [op_attempt, yields_op]
    constructor
    · rintro ⟨r, tr', rfl, h⟩
      rcases (ih r).mp h with ⟨tr1, tr2, a, rfl, h1, h2⟩ | ⟨tr1, tr2, a, rfl, h1, h2⟩ | ⟨h1, h2⟩ | ⟨h1, h2⟩
      · exact .inl ⟨_ :: tr1, tr2, a, rfl, .op _ _ r _ _ h1, h2⟩
      · exact .inr (.inl ⟨_ :: tr1, tr2, a, rfl, .op _ _ r _ _ h1, h2⟩)
      · exact .inr (.inr (.inl ⟨.op _ _ r _ _ h1, h2⟩))
      · exact .inr (.inr (.inr ⟨.op _ _ r _ _ h1, h2⟩))
    · rintro (⟨tr1, tr2, a, rfl, h1, h2⟩ | ⟨tr1, tr2, a, rfl, h1, h2⟩ | ⟨h1, h2⟩ | ⟨h1, h2⟩)
      · obtain ⟨r, tr', rfl, h⟩ := yields_op.mp h1
        exact ⟨r, _, rfl, (ih r).mpr (.inl ⟨tr', tr2, a, rfl, h, h2⟩)⟩
      · obtain ⟨r, tr', rfl, h⟩ := yields_op.mp h1
        exact ⟨r, _, rfl, (ih r).mpr (.inr (.inl ⟨tr', tr2, a, rfl, h, h2⟩))⟩
      · obtain ⟨r, tr', rfl, h⟩ := yields_op.mp h1
        exact ⟨r, _, rfl, (ih r).mpr (.inr (.inr (.inl ⟨h, h2⟩)))⟩
      · obtain ⟨r, tr', rfl, h⟩ := yields_op.mp h1
        exact ⟨r, _, rfl, (ih r).mpr (.inr (.inr (.inr ⟨h, h2⟩)))⟩

theorem yields_bind {p : Prog α} {k : α → Prog β} {tr : List Event} {o : Outcome β} :
    Yields (p.bind k) tr o ↔
      (∃ tr1 tr2 a, tr = tr1 ++ tr2 ∧ Yields p tr1 (.ok a) ∧ Yields (k a) tr2 o) ∨
      (∃ e, Yields p tr (.err e) ∧ o = .err e) ∨
      (Yields p tr .panic ∧ o = .panic) ∨ (Yields p tr .diverge ∧ o = .diverge) := by
  rw [bind_eq_attempt, yields_attempt]
  constructor
  · rintro (h | ⟨tr1, tr2, e, rfl, h1, h2⟩ | h | h)
    · exact .inl h
    · obtain ⟨rfl, rfl⟩ := yields_err.mp h2
      exact .inr (.inl ⟨e, by simpa using h1, rfl⟩)
    · exact .inr (.inr (.inl h))
    · exact .inr (.inr (.inr h))
  · rintro (h | ⟨e, h1, rfl⟩ | h | h)
    · exact .inl h
    · exact .inr (.inl ⟨tr, [], e, by simp, h1, yields_err.mpr ⟨rfl, rfl⟩⟩)
    · exact .inr (.inr (.inl h))
    · exact .inr (.inr (.inr h))

theorem yields_bind_ok {p : Prog α} {k : α → Prog β} {tr : List Event} {b : β} :
    Yields (p.bind k) tr (.ok b) ↔ ∃ tr1 tr2 a, tr = tr1 ++ tr2 ∧ Yields p tr1 (.ok a) ∧ Yields (k a) tr2 (.ok b) := by
  rw [yields_bind]; simp

/-- A program ends in one way for given answers. -/
theorem yields_det {p : Prog α} {tr : List Event} {o o' : Outcome α} (h : Yields p tr o) (h' : Yields p tr o') : o = o' := by
  induction h with
  | ret a => cases h'; rfl
  | err a => cases h'; rfl
  | panic => cases h'; rfl
  | diverge => cases h'; rfl
  | op e k r tr out _ ih =>
    obtain ⟨r', tr', he, h2⟩ := yields_op.mp h'
    cases he
    exact ih h2

/-- A program cannot both end after some answers and ask for more. -/
theorem yields_prefix {p : Prog α} {tr tr1 tr2 : List Event} {o o' : Outcome α} (h : Yields p tr o)
    (h' : Yields p tr1 o') (ht : tr ++ tr2 = tr1 ∨ tr = tr1 ++ tr2) : tr = tr1 := by
  induction h generalizing tr1 with
  | ret a => obtain ⟨rfl, _⟩ := yields_ret.mp h'; rfl
  | err a => obtain ⟨rfl, _⟩ := yields_err.mp h'; rfl
  | panic => obtain ⟨rfl, _⟩ := yields_panic.mp h'; rfl
  | diverge => obtain ⟨rfl, _⟩ := yields_diverge.mp h'; rfl
  | op e k r tr out _ ih =>
    obtain ⟨r', tr', rfl, h2⟩ := yields_op.mp h'
    rcases ht with ht | ht
    · simp only [List.cons_append, List.cons.injEq] at ht
      obtain ⟨h1, h3⟩ := ht
      cases h1
      rw [ih h2 (.inl h3)]
    · simp only [List.cons_append, List.cons.injEq] at ht
      obtain ⟨h1, h3⟩ := ht
      cases h1
      rw [ih h2 (.inr h3)]

/-- Every sequential run is one of the possible behaviours. -/
theorem yields_of_run (env : Env) (p : Prog α) (w : World) : ∃ tr, Yields p tr (p.run env w).1 := by
  induction p generalizing w with
  | op e k ih =>
    obtain ⟨tr, h⟩ := ih (w.exec env e).1 (w.exec env e).2
    exact ⟨_, .op e k _ tr _ h⟩
  | ret a => exact ⟨[], .ret a⟩
  | err a => exact ⟨[], .err a⟩
  | panic => exact ⟨[], .panic⟩
  | diverge => exact ⟨[], .diverge⟩

end Prog

theorem yields_rand {n : Nat} {tr : List Prog.Event} {o : Outcome (BytesN n)} :
    Prog.Yields (randBytes n) tr o ↔
      (∃ b : BytesN n, tr = [⟨.rand n, (some b : Option (BytesN n))⟩] ∧ o = .ok b) ∨
        (tr = [⟨.rand n, (none : Option (BytesN n))⟩] ∧ o = .err .rand) := by
  rw [randBytes, Prog.yields_op]
  constructor
  · rintro ⟨r, tr', rfl, h⟩
    cases r with
    | none => obtain ⟨rfl, rfl⟩ := Prog.yields_err.mp h; exact .inr ⟨rfl, rfl⟩
    | some b => obtain ⟨rfl, rfl⟩ := Prog.yields_ret.mp h; exact .inl ⟨b, rfl, rfl⟩
  · rintro (⟨b, rfl, rfl⟩ | ⟨rfl, rfl⟩)
    · exact ⟨some b, [], rfl, .ret b⟩
    · exact ⟨none, [], rfl, .err _⟩

end D1
