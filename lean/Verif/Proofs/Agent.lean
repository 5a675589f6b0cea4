import Verif.Spec.Trial
import Verif.Proofs.Passwords
/-!
# Adversaries that remember, and games that draw late

An adversary that remembers what it did is no stronger than one that only looks at what it saw, since it can work out again what
it did.  And it makes no difference whether programs draw their random bytes as soon as they need them, or when they are next
let go on.
-/
namespace D1
open Prog

/-! ## Adversaries that remember -/

/-- An adversary with a memory: it changes when a program is begun, and when something is seen. -/
structure Agent (σ X R : Type) where
  move : Nat → σ → Move X R
  answer : σ → (e : Eff) → e.Resp
  begun : Nat → σ → σ
  saw : σ → Sight R → σ

namespace Agent
variable {σ X R F : Type}

open Classical in
/-- As `Spy.trial`. -/
noncomputable def trial (A : Agent σ X R) (prog : X → Prog R) (t : Terms X R F) :
    Nat → σ → List (Option X) → List (Sight R) → List (Prog R) → PMF Bool
  | 0, _, _, _, _ => PMF.pure false
  | n + 1, s, cs, v, ps =>
    match A.move n s with
    | .stop => PMF.pure false
    | .begin x => A.trial prog t n (A.begun n s) (cs ++ [some x]) v (ps ++ [prog x])
    | .other p => A.trial prog t n (A.begun n s) (cs ++ [none]) v (ps ++ [p])
    | .step j =>
      match ps[j]? with
      | none => A.trial prog t n s cs v ps
      | some p => (settle p).bind fun q =>
        match nextStep q with
        | .inl o => if ∃ r, o = .ok r ∧ t.Unfounded cs v j (.inl r) then PMF.pure true
          else A.trial prog t n (A.saw s (.result j o)) cs (v ++ [.result j o]) (ps.set j q)
        | .inr ⟨e, k⟩ => if t.Unfounded cs v j (.inr e) then PMF.pure true
          else A.trial prog t n (A.saw s (.request j ⟨e, A.answer s e⟩)) cs (v ++ [.request j ⟨e, A.answer s e⟩])
            (ps.set j (k (A.answer s e)))

/-- The memory when `t` moves are left, or when something is about to be seen that is not in `v`.  `m` is the number of
programs. -/
def replay (A : Agent σ X R) (t : Nat) : Nat → σ → Nat → List (Sight R) → σ
  | 0, s, _, _ => s
  | n + 1, s, m, v => if n + 1 ≤ t then s else
    match A.move n s with
    | .stop => s
    | .begin _ => A.replay t n (A.begun n s) (m + 1) v
    | .other _ => A.replay t n (A.begun n s) (m + 1) v
    | .step j => if j < m then (match v with
        | [] => s
        | z :: v => A.replay t n (A.saw s z) m v) else A.replay t n s m v

/-- The adversary without a memory. -/
def spy (A : Agent σ X R) (N : Nat) (s : σ) : Spy X R where
  move n v := A.move n (A.replay (n + 1) N s 0 v)
  answer v := A.answer (A.replay 0 N s 0 v)
  guess _ := false

theorem trial_spy (A : Agent σ X R) (N : Nat) (s₀ : σ) (prog : X → Prog R) (t : Terms X R F) :
    ∀ (n : Nat) (s : σ) (cs : List (Option X)) (v : List (Sight R)) (ps : List (Prog R)),
      (∀ m ≤ n, ∀ tail, A.replay m N s₀ 0 (v ++ tail) = A.replay m n s ps.length tail) →
      (A.spy N s₀).trial prog t n cs v ps = A.trial prog t n s cs v ps := by
  intro n
  induction n with
  | zero => intros; rfl
  | succ n ih =>
    intro s cs v ps h
    have hmove : (A.spy N s₀).move n v = A.move n s := by
      have := h (n + 1) (Nat.le_refl _) []
      rw [List.append_nil] at this
      simp only [spy, this, replay, Nat.le_refl, if_true]
    have hstep : ∀ m ≤ n, ∀ s' v', A.replay m (n + 1) s' ps.length v' = (match A.move n s' with
        | .stop => s'
        | .begin _ => A.replay m n (A.begun n s') (ps.length + 1) v'
        | .other _ => A.replay m n (A.begun n s') (ps.length + 1) v'
        | .step j => if j < ps.length then (match v' with
            | [] => s'
            | z :: v => A.replay m n (A.saw s' z) ps.length v) else A.replay m n s' ps.length v') := by
      intro m hm s' v'
      rw [replay.eq_def]
      dsimp only
      rw [if_neg (by omega)]
    rw [Spy.trial, trial, hmove]
    cases hm : A.move n s with
    | stop => rfl
    | begin x =>
      refine ih _ _ _ _ fun m hmn tail => ?_
      rw [h m (by omega), hstep m hmn, hm, List.length_append]
      rfl
    | other p =>
      refine ih _ _ _ _ fun m hmn tail => ?_
      rw [h m (by omega), hstep m hmn, hm, List.length_append]
      rfl
    | step j =>
      dsimp only
      cases hj : ps[j]? with
      | none =>
        refine ih _ _ _ _ fun m hmn tail => ?_
        rw [h m (by omega), hstep m hmn, hm]
        dsimp only
        rw [if_neg (by have := List.getElem?_eq_none_iff.mp hj; omega)]
      | some p =>
        have hlt : j < ps.length := by
          by_contra hc
          rw [List.getElem?_eq_none (by omega)] at hj
          exact nomatch hj
        have hans : (A.spy N s₀).answer v = A.answer s := by
          have := h 0 (Nat.zero_le _) []
          rw [List.append_nil] at this
          simp only [spy, this]
          rw [hstep 0 (Nat.zero_le _), hm]
          dsimp only
          rw [if_pos hlt]
        have hnext : ∀ z q, ∀ m ≤ n, ∀ tail, A.replay m N s₀ 0 (v ++ [z] ++ tail) = A.replay m n (A.saw s z) (ps.set j q).length tail := by
          intro z q m hmn tail
          rw [List.append_assoc, h m (by omega), hstep m hmn, hm]
          dsimp only
          rw [if_pos hlt, List.length_set]
          rfl
        refine congrArg (PMF.bind _) (funext fun q => ?_)
        cases hq : nextStep q with
        | inl o =>
          dsimp only
          split
          · rfl
          · exact ih _ _ _ _ (hnext _ _)
        | inr x =>
          obtain ⟨e, k⟩ := x
          dsimp only
          split
          · rfl
          · rw [hans]
            exact ih _ _ _ _ (hnext _ _)

theorem trial_spy_start (A : Agent σ X R) (s : σ) (prog : X → Prog R) (t : Terms X R F) (n : Nat) :
    (A.spy n s).trial prog t n [] [] [] = A.trial prog t n s [] [] [] :=
  A.trial_spy n s prog t n s [] [] [] fun _ _ _ => rfl

end Agent

/-! ## Drawing late -/

/-- `n` moves of the adversary, and its guess, when programs draw random bytes in their steps. -/
noncomputable def Spy.late {X R : Type} (A : Spy X (Reply R)) (C : Challenges X R) :
    Nat → List (NBytes × NBytes) → List (Sight (Reply R)) → List (Prog (Reply R)) → PMF Bool
  | 0, _, v, _ => PMF.pure (A.guess v)
  | n + 1, h, v, ps =>
    match A.move n v with
    | .stop => PMF.pure (A.guess v)
    | .begin x => A.late C n (C.pairs x ++ h) v (ps ++ [C.prog x])
    | .other p => A.late C n h v (ps ++ [p])
    | .step j =>
      match ps[j]? with
      | none => A.late C n h v ps
      | some p => (settle p).bind fun q =>
        match nextStep q with
        | .inl o => A.late C n h (v ++ [.result j (maskOutcome h o)]) (ps.set j q)
        | .inr ⟨e, k⟩ => A.late C n h (v ++ [.request j ⟨e, A.answer v e⟩]) (ps.set j (k (A.answer v e)))

/-- All programs draw their random bytes. -/
noncomputable def settleAll {α : Type} : List (Prog α) → PMF (List (Prog α))
  | [] => PMF.pure []
  | p :: ps => (settle p).bind fun q => (settleAll ps).bind fun qs => PMF.pure (q :: qs)

theorem settle_settle {α β : Type} (p : Prog α) (F : Prog α → Prog α → PMF β) :
    ((settle p).bind fun q => (settle q).bind fun q' => F q q') = (settle p).bind fun q => F q q := by
  induction p with
  | op e k ih =>
    cases e with
    | rand n =>
      simp only [settle, PMF.bind_bind]
      exact congrArg (PMF.bind _) (funext fun b => ih _)
    | _ => simp only [settle, PMF.pure_bind]
  | _ => simp only [settle, PMF.pure_bind]

theorem settleAll_append {α β : Type} (p : Prog α) (ps : List (Prog α)) :
    ∀ (F : List (Prog α) → PMF β), (settleAll (ps ++ [p])).bind F = (settleAll ps).bind fun qs => (settle p).bind fun q => F (qs ++ [q]) := by
  induction ps with
  | nil => intro F; simp only [List.nil_append, settleAll, PMF.bind_bind, PMF.pure_bind]
  | cons p' ps ih =>
    intro F
    simp only [List.cons_append, settleAll, PMF.bind_bind, PMF.pure_bind]
    exact congrArg (PMF.bind _) (funext fun q => ih _)

/-- One program can draw later. -/
theorem settleAll_set {α β : Type} (r : Prog α) (ps : List (Prog α)) :
    ∀ (j : Nat), j < ps.length → ∀ F : List (Prog α) → PMF β,
      (settleAll (ps.set j r)).bind F = (settleAll ps).bind fun qs => (settle r).bind fun q => F (qs.set j q) := by
  induction ps with
  | nil => intro j h; exact nomatch h
  | cons p ps ih =>
    intro j h F
    cases j with
    | zero =>
      simp only [settleAll, PMF.bind_bind, PMF.pure_bind, List.set_cons_zero, PMF.bind_const]
      rw [PMF.bind_comm]
    | succ j =>
      simp only [settleAll, PMF.bind_bind, PMF.pure_bind, List.set_cons_succ]
      exact congrArg (PMF.bind _) (funext fun q => ih j (by simpa using h) _)

theorem settleAll_length {α : Type} (ps : List (Prog α)) : ∀ qs ∈ (settleAll ps).support, qs.length = ps.length := by
  induction ps with
  | nil =>
    intro qs h
    simp only [settleAll, PMF.support_pure, Set.mem_singleton_iff] at h
    rw [h]
  | cons p ps ih =>
    intro qs h
    simp only [settleAll, PMF.mem_support_bind_iff, PMF.support_pure, Set.mem_singleton_iff] at h
    obtain ⟨q, -, qs', h', rfl⟩ := h
    rw [List.length_cons, List.length_cons, ih _ h']

/-- It makes no difference when programs draw their random bytes. -/
theorem run_late {X R : Type} (A : Spy X (Reply R)) (C : Challenges X R) : ∀ (n : Nat) (h : List (NBytes × NBytes))
    (v : List (Sight (Reply R))) (ps : List (Prog (Reply R))),
      ((settleAll ps).bind fun qs => (A.run C n h v qs).map A.guess) = A.late C n h v ps := by
  intro n
  induction n with
  | zero =>
    intro h v ps
    simp only [Spy.run, Spy.late, PMF.pure_map, PMF.bind_const]
  | succ n ih =>
    intro h v ps
    simp only [Spy.run, Spy.late]
    cases hm : A.move n v with
    | stop => simp only [PMF.pure_map, PMF.bind_const]
    | begin x =>
      dsimp only
      rw [← ih, settleAll_append]
      simp only [PMF.map_bind]
    | other p =>
      dsimp only
      rw [← ih, settleAll_append]
      simp only [PMF.map_bind]
    | step j =>
      dsimp only
      cases hj : ps[j]? with
      | none =>
        dsimp only
        rw [← ih]
        refine bind_congr_support _ fun qs hqs => ?_
        rw [List.getElem?_eq_none_iff] at hj
        rw [List.getElem?_eq_none (by rw [settleAll_length _ _ hqs]; exact hj)]
      | some p =>
        have hlt : j < ps.length := by
          by_contra hc
          rw [List.getElem?_eq_none (by omega)] at hj
          exact nomatch hj
        have hps : ps.set j p = ps := by
          refine List.ext_getElem? fun i => ?_
          rw [List.getElem?_set]
          split
          · rename_i hi
            subst hi
            rw [hj]
          · rfl
        dsimp only
        conv_lhs => rw [← hps]
        rw [settleAll_set _ _ _ hlt]
        refine Eq.trans (bind_congr_support _ (g := fun qs => (settle p).bind fun q => match nextStep q with
          | .inl o => (A.run C n h (v ++ [.result j (maskOutcome h o)]) (qs.set j q)).map A.guess
          | .inr ⟨e, k⟩ => (settle (k (A.answer v e))).bind fun q =>
              (A.run C n h (v ++ [.request j ⟨e, A.answer v e⟩]) (qs.set j q)).map A.guess) fun qs hqs => ?_) ?_
        · refine congrArg (PMF.bind _) (funext fun q => ?_)
          rw [List.getElem?_set_self (by rw [settleAll_length _ _ hqs]; exact hlt)]
          dsimp only
          cases nextStep q with
          | inl o => rfl
          | inr x =>
            obtain ⟨e, k⟩ := x
            dsimp only
            simp only [PMF.map_bind, List.set_set]
        · rw [PMF.bind_comm]
          refine Eq.trans ?_ ((settle_settle p fun q q' => match nextStep q with
            | .inl o => (settleAll ps).bind fun qs => (A.run C n h (v ++ [.result j (maskOutcome h o)]) (qs.set j q')).map A.guess
            | .inr ⟨e, k⟩ => A.late C n h (v ++ [.request j ⟨e, A.answer v e⟩]) (ps.set j (k (A.answer v e)))).symm.trans ?_)
          · refine congrArg (PMF.bind _) (funext fun q => ?_)
            cases nextStep q with
            | inl o => rfl
            | inr x =>
              obtain ⟨e, k⟩ := x
              dsimp only
              rw [← ih, settleAll_set _ _ _ hlt]
          · refine congrArg (PMF.bind _) (funext fun q => ?_)
            cases nextStep q with
            | inl o =>
              dsimp only
              rw [← ih, settleAll_set _ _ _ hlt, PMF.bind_comm]
            | inr x =>
              obtain ⟨e, k⟩ := x
              dsimp only
              rw [PMF.bind_const]

theorem spyGame_late {X R : Type} (C : BytesN 32 → Challenges X R) (A : Spy X (Reply R)) (n : Nat) :
    spyGame C A n = (unif 32).bind fun key => A.late (C key) n [] [] [] := by
  refine congrArg (PMF.bind _) (funext fun key => ?_)
  rw [← run_late, settleAll, PMF.pure_bind]

end D1
