import Verif.Proofs.Rely
import Verif.Proofs.D1Run
/-!
# Invariants of concurrent calls

`Safe step I R p`: whenever `p` performs an effect in a shared state where `I` holds, `I` holds again, and when `p` ends, `R` holds of how
it ended.
-/
namespace D1
open Prog

variable {S α β : Type}

def Safe (step : S → (e : Eff) → e.Resp → S → Prop) (I : S → Prop) (R : Outcome α → Prop) : Prog α → Prop
  | .ret a => R (.ok a)
  | .err e => R (.err e)
  | .panic => R .panic
  | .diverge => R .diverge
  | .op e k => ∀ s r s', I s → step s e r s' → I s' ∧ Safe step I R (k r)

variable {step : S → (e : Eff) → e.Resp → S → Prop} {I : S → Prop}

theorem Safe.outcome {R : Outcome α → Prop} {p : Prog α} {o : Outcome α} (h : Safe step I R p) (ho : p.outcome = some o) : R o := by
  cases p <;> simp only [Prog.outcome, Option.some.injEq, reduceCtorEq] at ho <;> subst ho <;> exact h

theorem Safe.mono {R R' : Outcome α → Prop} (hr : ∀ o, R o → R' o) {p : Prog α} (h : Safe step I R p) : Safe step I R' p := by
  induction p with
  | op e k ih => exact fun s r s' h1 h2 => ⟨(h s r s' h1 h2).1, ih r (h s r s' h1 h2).2⟩
  | _ => exact hr _ h

theorem Safe.bind {R : Outcome α → Prop} {R' : Outcome β → Prop} {p : Prog α} {k : α → Prog β} (hp : Safe step I R p)
    (hk : ∀ a, R (.ok a) → Safe step I R' (k a)) (he : ∀ e, R (.err e) → R' (.err e)) (hpa : R .panic → R' .panic)
    (hd : R .diverge → R' .diverge) : Safe step I R' (p.bind k) := by
  induction p with
  | op e c ih => exact fun s r s' h1 h2 => ⟨(hp s r s' h1 h2).1, ih r (hp s r s' h1 h2).2⟩
  | ret a => exact hk a hp
  | err e => exact he e hp
  | panic => exact hpa hp
  | diverge => exact hd hp

theorem Safe.attempt {R : Outcome α → Prop} {R' : Outcome β → Prop} {p : Prog α} {k : Except Err α → Prog β} (hp : Safe step I R p)
    (hk : ∀ a, R (.ok a) → Safe step I R' (k (.ok a))) (he : ∀ e, R (.err e) → Safe step I R' (k (.error e))) (hpa : R .panic → R' .panic)
    (hd : R .diverge → R' .diverge) : Safe step I R' (p.attempt k) := by
  induction p with
  | op e c ih => exact fun s r s' h1 h2 => ⟨(hp s r s' h1 h2).1, ih r (hp s r s' h1 h2).2⟩
  | ret a => exact hk a hp
  | err e => exact he e hp
  | panic => exact hpa hp
  | diverge => exact hd hp

/-- Programs that only perform effects which keep the invariant. -/
theorem safe_frame {Q : Eff → Prop} (hq : ∀ e, Q e → ∀ s r s', I s → step s e r s' → I s') {R : Outcome α → Prop} {p : Prog α}
    (hp : AllEff Q p) (ho : AllOut R p) : Safe step I R p := by
  induction p with
  | op e k ih => exact fun s r s' h1 h2 => ⟨hq e hp.1 s r s' h1 h2, ih r (hp.2 r) (ho r)⟩
  | _ => exact ho

/-- One effect. -/
theorem safe_op {R : Outcome α → Prop} {e : Eff} {k : e.Resp → Prog α} (h : ∀ s r s', I s → step s e r s' → I s' ∧ Safe step I R (k r)) :
    Safe step I R (.op e k) := h

/-- The invariant holds throughout, and every call that ends ends as its own condition says. -/
theorem Safe.runs {s s' : S} {ps ps' : List (Prog α)} {cs : List (Nat × Outcome α)} (hr : Runs step s ps cs s' ps')
    {R : Nat → Outcome α → Prop} (hi : I s) (h : ∀ j p, ps[j]? = some p → Safe step I (R j) p) :
    I s' ∧ (∀ j o, (j, o) ∈ cs → R j o) ∧ ∀ j p, ps'[j]? = some p → Safe step I (R j) p := by
  induction hr with
  | done s ps => exact ⟨hi, by simp, h⟩
  | @goes s s1 s' ps ps' cs j e k r hj hst ho _ ih =>
    obtain ⟨h1, h2⟩ := h j _ hj s r s1 hi hst
    refine ih h1 fun j' p hp => ?_
    by_cases hjj : j = j'
    · subst hjj
      rw [List.getElem?_set_self (List.getElem?_eq_some_iff.mp hj).1] at hp
      cases hp
      exact h2
    · rw [List.getElem?_set_ne hjj] at hp
      exact h j' p hp
  | @ends s s1 s' ps ps' cs j e k r o hj hst ho _ ih =>
    obtain ⟨h1, h2⟩ := h j _ hj s r s1 hi hst
    obtain ⟨g1, g2, g3⟩ := ih h1 fun j' p hp => by
      by_cases hjj : j = j'
      · subst hjj
        rw [List.getElem?_set_self (List.getElem?_eq_some_iff.mp hj).1] at hp
        cases hp
        exact h2
      · rw [List.getElem?_set_ne hjj] at hp
        exact h j' p hp
    refine ⟨g1, fun j' o' hm => ?_, g3⟩
    rcases List.mem_cons.mp hm with hm | hm
    · cases hm
      exact h2.outcome ho
    · exact g2 j' o' hm

/-! ## Steps with faults -/

theorem anyStep_get {st st' : Store} {id : Bytes} {dt : DataType} {r : Except IoErr Bytes} (h : AnyStep st (.get id dt) r st') :
    st' = st ∧ (r = (match st id dt with | some b => .ok b | none => .error .notFound) ∨ r = .error .failure) := by
  obtain ⟨rnd, clk, h | ⟨h1, h2⟩⟩ := h
  · simp only [Store.exec] at h
    cases hs : st id dt <;> rw [hs] at h <;> cases h <;> exact ⟨rfl, .inl rfl⟩
  · simp only [Store.exec] at h2
    refine ⟨?_, .inr h1⟩
    rcases h2 with h2 | h2
    · exact h2
    · revert h2; cases st id dt <;> exact fun h => h

theorem anyStep_put {st st' : Store} {id b : Bytes} {dt : DataType} {r : Except IoErr Unit} (h : AnyStep st (.put id dt b) r st') :
    (st id dt = none ∧ st' = st.set id dt (some b)) ∨ st' = st := by
  obtain ⟨rnd, clk, h | ⟨h1, h2⟩⟩ := h
  · simp only [Store.exec] at h
    cases hs : st id dt with
    | none => rw [hs] at h; cases h; exact .inl ⟨rfl, rfl⟩
    | some x => rw [hs] at h; cases h; exact .inr rfl
  · rcases h2 with h2 | h2
    · exact .inr h2
    · simp only [Store.exec] at h2
      revert h2
      cases hs : st id dt with
      | none => exact fun h => .inl ⟨rfl, h⟩
      | some x => exact .inr

theorem anyStep_update {st st' : Store} {id b : Bytes} {dt : DataType} {r : Except IoErr Unit} (h : AnyStep st (.update id dt b) r st') :
    (st' = st ∨ st' = st.set id dt (some b)) ∧ ((∃ x, st id dt = some x) → r = .ok () ∨ r = .error .failure) := by
  obtain ⟨rnd, clk, h | ⟨h1, h2⟩⟩ := h
  · simp only [Store.exec] at h
    cases hs : st id dt with
    | none => rw [hs] at h; cases h; exact ⟨.inl rfl, by simp⟩
    | some x => rw [hs] at h; cases h; exact ⟨.inr rfl, fun _ => .inl rfl⟩
  · refine ⟨?_, fun _ => .inr h1⟩
    rcases h2 with h2 | h2
    · exact .inl h2
    · simp only [Store.exec] at h2
      revert h2
      cases hs : st id dt with
      | none => exact .inl
      | some x => exact .inr

end D1
