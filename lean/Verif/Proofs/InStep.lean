import Verif.Props.Escalate
/-!
# Two executions in lock-step

`InStep env lo H I E R p p'`: `p` and `p'` perform effects in step, related by `E`.  When the stores before an effect are related by `H`, those
after it are related by `I`; and they end together, in ways related by `R`.
-/
namespace D1
open Prog

/-- Two programs in step. -/
def InStep {α : Type} (env : Env) (lo : Nat) (H I : Store → Store → Prop) (E : Eff → Eff → Prop) (R : Outcome α → Outcome α → Prop) : Prog α → Prog α → Prop
  | .op e k, .op e' k' => E e e' ∧ ∀ t st st', lo ≤ t → H st st' →
      I ((⟨st, t⟩ : World).exec env e).2.store ((⟨st', t⟩ : World).exec env e').2.store ∧
      InStep env lo H I E R (k ((⟨st, t⟩ : World).exec env e).1) (k' ((⟨st', t⟩ : World).exec env e').1)
  | .op _ _, _ => False
  | p, p' => ∃ o o', p.outcome = some o ∧ p'.outcome = some o' ∧ R o o'

/-- The same outcome, up to a relation of what is returned. -/
def Same {α : Type} (Q : α → α → Prop) : Outcome α → Outcome α → Prop
  | .ok a, .ok a' => Q a a'
  | .err e, .err e' => e = e'
  | .panic, .panic => True
  | .diverge, .diverge => True
  | _, _ => False

section
variable {α β : Type} {env : Env} {lo : Nat} {H I : Store → Store → Prop} {E : Eff → Eff → Prop}

theorem InStep.ended {R : Outcome α → Outcome α → Prop} {p p' : Prog α} {o o' : Outcome α} (h : p.outcome = some o) (h' : p'.outcome = some o')
    (hr : R o o') : InStep env lo H I E R p p' := by
  cases p <;> simp only [Prog.outcome, reduceCtorEq] at h <;> exact ⟨o, o', h, h', hr⟩

theorem InStep.of_outcome {R : Outcome α → Outcome α → Prop} {p p' : Prog α} {o : Outcome α} (h : InStep env lo H I E R p p') (ho : p.outcome = some o) :
    ∃ o', p'.outcome = some o' ∧ R o o' := by
  cases p with
  | op e k => cases ho
  | _ => obtain ⟨o1, o', h1, h2, h3⟩ := h; rw [ho] at h1; cases h1; exact ⟨o', h2, h3⟩

theorem InStep.of_op {R : Outcome α → Outcome α → Prop} {e : Eff} {k : e.Resp → Prog α} {p' : Prog α} (h : InStep env lo H I E R (.op e k) p') :
    ∃ e' k', p' = .op e' k' := by
  cases p' with
  | op e' k' => exact ⟨e', k', rfl⟩
  | _ => exact h.elim

theorem InStep.ret {Q : Outcome α → Outcome α → Prop} {a a' : α} (h : Q (.ok a) (.ok a')) : InStep env lo H I E Q (.ret a) (.ret a') := InStep.ended rfl rfl h
theorem InStep.err {Q : Outcome α → Outcome α → Prop} {e e' : Err} (h : Q (.err e) (.err e')) : InStep env lo H I E Q (.err e) (.err e') := InStep.ended rfl rfl h

theorem InStep.mono {R R' : Outcome α → Outcome α → Prop} (hr : ∀ o o', R o o' → R' o o') {p p' : Prog α} (h : InStep env lo H I E R p p') :
    InStep env lo H I E R' p p' := by
  induction p generalizing p' with
  | op e k ih =>
    obtain ⟨e', k', rfl⟩ := h.of_op
    exact ⟨h.1, fun t st st' h1 h2 => ⟨(h.2 t st st' h1 h2).1, ih _ (h.2 t st st' h1 h2).2⟩⟩
  | _ => obtain ⟨o', h1, h2⟩ := h.of_outcome rfl; exact InStep.ended rfl h1 (hr _ _ h2)

theorem same_outcome {Q : α → α → Prop} {p p' : Prog α} {o o' : Outcome α} (h : p.outcome = some o) (h' : p'.outcome = some o') (hs : Same Q o o') :
    (∃ a a', p = .ret a ∧ p' = .ret a' ∧ Q a a') ∨ (∃ e, p = .err e ∧ p' = .err e) ∨ (p = .panic ∧ p' = .panic) ∨ (p = .diverge ∧ p' = .diverge) := by
  cases p <;> cases p' <;> simp only [Prog.outcome, Option.some.injEq, reduceCtorEq] at h h' <;> subst h <;> subst h' <;> simp_all [Same]

theorem InStep.of_same {Q : α → α → Prop} {p p' : Prog α} (hp : InStep env lo H I E (Same Q) p p') {o : Outcome α} (ho : p.outcome = some o) :
    (∃ a a', p = .ret a ∧ p' = .ret a' ∧ Q a a') ∨ (∃ e, p = .err e ∧ p' = .err e) ∨ (p = .panic ∧ p' = .panic) ∨ (p = .diverge ∧ p' = .diverge) := by
  obtain ⟨o', h1, h2⟩ := hp.of_outcome ho
  exact same_outcome ho h1 h2

theorem InStep.bind {Q : α → α → Prop} {R : Outcome β → Outcome β → Prop} {p p' : Prog α} {k k' : α → Prog β} (hp : InStep env lo H I E (Same Q) p p')
    (hk : ∀ a a', Q a a' → InStep env lo H I E R (k a) (k' a')) (he : ∀ e, R (.err e) (.err e)) (hpa : R .panic .panic) (hd : R .diverge .diverge) :
    InStep env lo H I E R (p.bind k) (p'.bind k') := by
  induction p generalizing p' with
  | op e c ih =>
    obtain ⟨e', c', rfl⟩ := hp.of_op
    exact ⟨hp.1, fun t st st' h1 h2 => ⟨(hp.2 t st st' h1 h2).1, ih _ (hp.2 t st st' h1 h2).2⟩⟩
  | _ =>
    rcases hp.of_same rfl with ⟨a, a', e1, rfl, hq⟩ | ⟨e, e1, rfl⟩ | ⟨e1, rfl⟩ | ⟨e1, rfl⟩ <;> cases e1 <;>
      first | exact hk _ _ hq | exact InStep.ended rfl rfl (he _) | exact InStep.ended rfl rfl hpa | exact InStep.ended rfl rfl hd

theorem InStep.attempt {Q : α → α → Prop} {R : Outcome β → Outcome β → Prop} {p p' : Prog α} {k k' : Except Err α → Prog β}
    (hp : InStep env lo H I E (Same Q) p p') (hk : ∀ a a', Q a a' → InStep env lo H I E R (k (.ok a)) (k' (.ok a')))
    (he : ∀ e, InStep env lo H I E R (k (.error e)) (k' (.error e))) (hpa : R .panic .panic) (hd : R .diverge .diverge) :
    InStep env lo H I E R (p.attempt k) (p'.attempt k') := by
  induction p generalizing p' with
  | op e c ih =>
    obtain ⟨e', c', rfl⟩ := hp.of_op
    exact ⟨hp.1, fun t st st' h1 h2 => ⟨(hp.2 t st st' h1 h2).1, ih _ (hp.2 t st st' h1 h2).2⟩⟩
  | _ =>
    rcases hp.of_same rfl with ⟨a, a', e1, rfl, hq⟩ | ⟨e, e1, rfl⟩ | ⟨e1, rfl⟩ | ⟨e1, rfl⟩ <;> cases e1 <;>
      first | exact hk _ _ hq | exact he _ | exact InStep.ended rfl rfl hpa | exact InStep.ended rfl rfl hd

/-- A program that performs only effects which the related stores answer alike. -/
theorem inStep_same {A : Eff → Prop} (hE : ∀ e, A e → E e e)
    (hA : ∀ e, A e → ∀ t st st', lo ≤ t → H st st' → ((⟨st, t⟩ : World).exec env e).1 = ((⟨st', t⟩ : World).exec env e).1 ∧
      I ((⟨st, t⟩ : World).exec env e).2.store ((⟨st', t⟩ : World).exec env e).2.store)
    {p : Prog α} (hp : AllEff A p) : InStep env lo H I E (Same Eq) p p := by
  induction p with
  | op e k ih =>
    refine ⟨hE e hp.1, fun t st st' h1 h2 => ?_⟩
    obtain ⟨h3, h4⟩ := hA e hp.1 t st st' h1 h2
    refine ⟨h4, ?_⟩
    rw [← h3]
    exact ih _ (hp.2 _)
  | ret a => exact InStep.ret (Q := Same Eq) rfl
  | err e => exact InStep.err (Q := Same Eq) rfl
  | _ => exact InStep.ended rfl rfl trivial

/-- What is known of how the first of the two programs ends. -/
theorem InStep.knowing {J : Store → Prop} (hJ : ∀ st st', H st st' → J st) {Q : α → α → Prop} {R : Outcome α → Prop} {p p' : Prog α}
    (h : InStep env lo H I E (Same Q) p p') (hs : Safe (RunStep env lo) J R p) :
    InStep env lo H I E (Same fun a a' => Q a a' ∧ R (.ok a)) p p' := by
  induction p generalizing p' with
  | op e k ih =>
    obtain ⟨e', k', rfl⟩ := h.of_op
    refine ⟨h.1, fun t st st' h1 h2 => ⟨(h.2 t st st' h1 h2).1, ih _ (h.2 t st st' h1 h2).2 ?_⟩⟩
    exact (hs st _ _ (hJ _ _ h2) ⟨t, h1, rfl, rfl⟩).2
  | _ =>
    rcases h.of_same rfl with ⟨a, a', e1, rfl, hq⟩ | ⟨e, e1, rfl⟩ | ⟨e1, rfl⟩ | ⟨e1, rfl⟩ <;> cases e1 <;> refine InStep.ended rfl rfl ?_ <;>
      first | exact ⟨hq, hs⟩ | exact rfl | trivial

/-- An invariant of each of the two. -/
theorem InStep.keeping {J : Store → Prop} (hH : ∀ st st', H st st' ↔ I st st' ∧ J st ∧ J st') {R : Outcome α → Outcome α → Prop} {R1 R2 : Outcome α → Prop} {p p' : Prog α}
    (h : InStep env lo H I E R p p') (h1 : Safe (RunStep env lo) J R1 p) (h2 : Safe (RunStep env lo) J R2 p') : InStep env lo H H E R p p' := by
  induction p generalizing p' with
  | op e k ih =>
    obtain ⟨e', k', rfl⟩ := h.of_op
    refine ⟨h.1, fun t st st' ht hh => ?_⟩
    obtain ⟨h3, h4⟩ := h.2 t st st' ht hh
    obtain ⟨-, hj, hj'⟩ := (hH _ _).mp hh
    obtain ⟨h5, h6⟩ := h1 st _ _ hj ⟨t, ht, rfl, rfl⟩
    obtain ⟨h7, h8⟩ := h2 st' _ _ hj' ⟨t, ht, rfl, rfl⟩
    exact ⟨(hH _ _).mpr ⟨h3, h5, h7⟩, ih _ h4 h6 h8⟩
  | _ => obtain ⟨o', h3, h4⟩ := h.of_outcome rfl; exact InStep.ended rfl h3 h4

/-- Two lists of calls under the same schedule. -/
theorem InStep.sched {R : Nat → Outcome α → Outcome α → Prop} (sch : List Nat) {w w' : World} {ps ps' : List (Prog α)}
    (hlo : lo ≤ w.t) (ht : w.t = w'.t) (hh : H w.store w'.store) (hlen : ps.length = ps'.length)
    (h : ∀ (j : Nat) p p', ps[j]? = some p → ps'[j]? = some p' → InStep env lo H H E (R j) p p') :
    H (D1.sched env sch w ps).1.store (D1.sched env sch w' ps').1.store ∧
    List.Forall₂ (fun x y => x.1 = y.1 ∧ R x.1 x.2 y.2) (commits env sch w ps) (commits env sch w' ps') ∧
    List.Forall₂ (fun x y => x.1 = y.1 ∧ E x.2 y.2) (performed env sch w ps) (performed env sch w' ps') := by
  induction sch generalizing w w' ps ps' with
  | nil => exact ⟨hh, .nil, .nil⟩
  | cons j sch ih =>
    simp only [D1.sched, commits, performed]
    cases hj : ps[j]? with
    | none =>
      have hj' : ps'[j]? = none := by rw [List.getElem?_eq_none_iff] at hj ⊢; omega
      rw [hj']
      exact ih hlo ht hh hlen h
    | some p =>
      have hlt : j < ps'.length := hlen ▸ (List.getElem?_eq_some_iff.mp hj).1
      obtain ⟨p', hj'⟩ : ∃ p', ps'[j]? = some p' := ⟨_, List.getElem?_eq_getElem hlt⟩
      rw [hj']
      have hp := h j p p' hj hj'
      cases p with
      | op e k =>
        obtain ⟨e', k', rfl⟩ := hp.of_op
        simp only
        obtain ⟨h1, h2⟩ := hp
        obtain ⟨h3, h4⟩ := h2 w.t w.store w'.store hlo hh
        have e1 : (⟨w'.store, w.t⟩ : World) = w' := by rw [ht]
        rw [e1] at h3 h4
        obtain ⟨g1, g2, g3⟩ := ih (w := (w.exec env e).2) (w' := (w'.exec env e').2) (ps := ps.set j (k (w.exec env e).1)) (ps' := ps'.set j (k' (w'.exec env e').1))
          (by rw [exec_t]; omega) (by rw [exec_t, exec_t, ht]) h3 (by simp [hlen]) fun i p p' hi hi' => by
            by_cases hij : j = i
            · subst hij
              rw [List.getElem?_set_self (List.getElem?_eq_some_iff.mp hj).1] at hi
              rw [List.getElem?_set_self hlt] at hi'
              cases hi; cases hi'
              exact h4
            · rw [List.getElem?_set_ne hij] at hi hi'
              exact h i p p' hi hi'
        refine ⟨g1, ?_, .cons ⟨rfl, h1⟩ g3⟩
        cases ho : (k (w.exec env e).1).outcome with
        | some o =>
          obtain ⟨o', h5, h6⟩ := h4.of_outcome ho
          rw [h5]
          exact .cons ⟨rfl, h6⟩ g2
        | none =>
          have : (k' (w'.exec env e').1).outcome = none := by
            obtain ⟨e2, k2, hk2⟩ : ∃ e2 k2, k (w.exec env e).1 = .op e2 k2 := by
              cases hk : k (w.exec env e).1 <;> rw [hk] at ho <;> simp only [Prog.outcome, reduceCtorEq] at ho
              exact ⟨_, _, rfl⟩
            rw [hk2] at h4
            obtain ⟨e3, k3, hk3⟩ := h4.of_op
            rw [hk3]; rfl
          rw [this]
          exact g2
      | _ =>
        obtain ⟨o', h5, -⟩ := hp.of_outcome rfl
        cases p' <;> first | exact ih hlo ht hh hlen h | cases h5
end
end D1
