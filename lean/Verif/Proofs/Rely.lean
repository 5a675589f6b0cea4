import Verif.Model.Replay
import Verif.Proofs.Always
import Verif.Proofs.Frame
/-!
# Reasoning about concurrent calls

`Rg T p s st`: from ghost state `s` and store `st` on, whatever the others do within `T.rely`, every effect of `p` keeps the invariant, is
within what the others rely on, and the effect with which `p` ends is an abstract step `T.lin`.
-/
namespace D1
open Prog

/-- The parameters: ghost states `σ`, shared states `S`, and results `α`. -/
structure Rules (σ S : Type) where
  /-- Which answers and next states an effect can have. -/
  step : S → (e : Eff) → e.Resp → S → Prop
  /-- The shared state represents the ghost state. -/
  inv : σ → S → Prop
  /-- What others may do. -/
  rely : σ → S → σ → S → Prop
  refl : ∀ s st, rely s st s st
  trans : ∀ {a x b y c z}, rely a x b y → rely b y c z → rely a x c z
  /-- How many more calls may end. -/
  budget : σ → Nat
  /-- What every step of the call itself keeps to, beyond what the others rely on. -/
  guar : S → S → Prop := fun _ _ => True

variable {σ S : Type} {α β : Type}

def Rg (T : Rules σ S) (lin : σ → Outcome α → σ → Prop) : Prog α → σ → S → Prop
  | .op e k, s, st => ∀ s' st', T.rely s st s' st' → T.inv s' st' → 0 < T.budget s' → ∀ r st'', T.step st' e r st'' →
    match (k r).outcome with
    | none => T.inv s' st'' ∧ T.rely s' st' s' st'' ∧ T.guar st' st'' ∧ Rg T lin (k r) s' st''
    | some o => ∃ s'', lin s' o s'' ∧ T.inv s'' st'' ∧ T.rely s' st' s'' st'' ∧ T.guar st' st'' ∧ T.budget s' ≤ T.budget s'' + 1
  | _, _, _ => True

variable {T : Rules σ S} {lin : σ → Outcome α → σ → Prop}

/-- Others may act. -/
theorem Rg.stable {p : Prog α} {s s' : σ} {st st' : S} (h : Rg T lin p s st) (hr : T.rely s st s' st') : Rg T lin p s' st' := by
  cases p with
  | op e k => exact fun a x h1 => h a x (T.trans hr h1)
  | _ => trivial

theorem Rg.mono {lin' : σ → Outcome α → σ → Prop} (hl : ∀ s o s', lin s o s' → lin' s o s') {p : Prog α} {s : σ} {st : S}
    (h : Rg T lin p s st) : Rg T lin' p s st := by
  induction p generalizing s st with
  | op e k ih =>
    intro a x h1 h2 h3 r y h4
    have := h a x h1 h2 h3 r y h4
    revert this
    cases ho : (k r).outcome with
    | none => exact fun ⟨h5, h6, h8, h7⟩ => ⟨h5, h6, h8, ih r h7⟩
    | some o => exact fun ⟨b, h5, h6⟩ => ⟨b, hl _ _ _ h5, h6⟩
  | _ => trivial

theorem outcome_none {p : Prog α} : p.outcome = none ↔ ∃ e k, p = .op e k := by
  cases p <;> simp [Prog.outcome]

/-- Effects that stay out of the way: a prefix whose effects keep the invariant and are within the rely, and that can only succeed or
fail. -/
theorem Rg.bind_frame {Q : Eff → Prop} (hq : ∀ e, Q e → ∀ s st r st', T.inv s st → T.step st e r st' →
      T.inv s st' ∧ T.rely s st s st' ∧ T.guar st st')
    {p : Prog β} (hp : AllEff Q p) (ho : AllOut (Returns fun _ => True) p) {k : β → Prog α} (hop : ∀ a, ∃ e c, k a = .op e c)
    (herr : ∀ s e, AllOut (fun o => o = .err e → lin s (.err e) s) p) {s : σ} {st : S}
    (hk : ∀ a s' st', T.rely s st s' st' → Rg T lin (k a) s' st') : Rg T lin (p.bind k) s st := by
  induction p generalizing s st with
  | op e c ih =>
    intro a x h1 h2 h3 r y h4
    obtain ⟨g1, g2, g3⟩ := hq e hp.1 _ _ _ _ h2 h4
    have hi := ih r (hp.2 r) (ho r) (fun s e => herr s e r) (s := a) (st := y)
      fun b c z hz => hk b c z (T.trans h1 (T.trans g2 hz))
    have ho' := ho r
    have he' := fun e => herr a e r
    revert hi ho' he'
    show _ → _ → _ → (match ((c r).bind k).outcome with
      | none => _ ∧ _ ∧ _ ∧ Rg T lin ((c r).bind k) a y
      | some o => _)
    cases hc : c r with
    | ret b =>
      intro hi _ _
      obtain ⟨e', c', hkb⟩ := hop b
      simp only [ret_bind] at hi ⊢
      rw [hkb]
      rw [hkb] at hi
      exact ⟨g1, g2, g3, hi⟩
    | err e' => exact fun _ _ he => ⟨a, he e' rfl, g1, g2, g3, Nat.le_succ _⟩
    | panic => exact fun _ h => h.elim
    | diverge => exact fun _ h => h.elim
    | op e' c' => exact fun hi _ _ => ⟨g1, g2, g3, hi⟩
  | ret a => exact hk a s st (T.refl _ _)
  | _ => trivial

/-! ## Soundness -/

/-- Abstract steps in the order in which calls end. -/
def LinRun (lin : Nat → σ → Outcome α → σ → Prop) : List (Nat × Outcome α) → σ → σ → Prop
  | [], s, s' => s = s'
  | (j, o) :: r, s, s'' => ∃ s', lin j s o s' ∧ LinRun lin r s' s''

theorem LinRun.append {lin : Nat → σ → Outcome α → σ → Prop} {l l' : List (Nat × Outcome α)} {a c : σ} :
    LinRun lin (l ++ l') a c ↔ ∃ b, LinRun lin l a b ∧ LinRun lin l' b c := by
  induction l generalizing a with
  | nil => simp [LinRun]
  | cons x r ih => obtain ⟨j, o⟩ := x; simp only [List.cons_append, LinRun, ih]; aesop

/-- How many calls are in progress. -/
def pending (ps : List (Prog α)) : Nat := ps.countP fun p => p.outcome.isNone

theorem pending_set {ps : List (Prog α)} {j : Nat} {p q : Prog α} (h : ps[j]? = some p) (hp : p.outcome = none) :
    pending (ps.set j q) + 1 = pending ps + (if q.outcome.isNone then 1 else 0) := by
  obtain ⟨hj, rfl⟩ := List.getElem?_eq_some_iff.mp h
  have hpos : 0 < pending ps := List.countP_pos_iff.mpr ⟨ps[j], List.getElem_mem hj, by simp [hp]⟩
  rw [pending, List.countP_set hj, ← pending]
  simp only [hp, Option.isNone_none, if_true]
  omega

/-- What holds of all calls together. -/
structure Together (T : Rules σ S) (lin : Nat → σ → Outcome α → σ → Prop) (s : σ) (st : S) (ps : List (Prog α)) : Prop where
  inv : T.inv s st
  rg : ∀ j p, ps[j]? = some p → Rg T (lin j) p s st
  bud : pending ps ≤ T.budget s

/-- Whatever the interleaving, the calls end in an order in which they make sense one after the other. -/
theorem Together.runs {T : Rules σ S} {lin : Nat → σ → Outcome α → σ → Prop} {st st' : S} {ps ps' : List (Prog α)}
    {cs : List (Nat × Outcome α)} (hr : Runs T.step st ps cs st' ps') {s : σ} (h : Together T lin s st ps) :
    ∃ s', LinRun lin cs s s' ∧ T.rely s st s' st' ∧ Together T lin s' st' ps' := by
  induction hr generalizing s with
  | done st ps => exact ⟨s, rfl, T.refl _ _, h⟩
  | @goes st st1 st' ps ps' cs j e k r hj hst ho _ ih =>
    have hpos : 0 < pending ps := List.countP_pos_iff.mpr ⟨_, List.mem_of_getElem? hj, by simp [Prog.outcome]⟩
    have hb := h.bud
    have hps := pending_set (q := k r) hj (by rfl)
    have key := h.rg j _ hj s st (T.refl _ _) h.inv (by omega) _ _ hst
    have hlen : j < ps.length := (List.getElem?_eq_some_iff.mp hj).1
    rw [ho] at key hps
    obtain ⟨g1, g2, -, g3⟩ := key
    have : Together T lin s st1 (ps.set j (k r)) := by
      refine ⟨g1, fun j' p hp => ?_, by simp only [Option.isNone_none, if_true] at hps; omega⟩
      by_cases hjj : j = j'
      · subst hjj
        rw [List.getElem?_set_self hlen] at hp
        cases hp
        exact g3
      · rw [List.getElem?_set_ne hjj] at hp
        exact (h.rg j' p hp).stable g2
    obtain ⟨s', i1, i2, i3⟩ := ih this
    exact ⟨s', i1, T.trans g2 i2, i3⟩
  | @ends st st1 st' ps ps' cs j e k r o hj hst ho _ ih =>
    have hpos : 0 < pending ps := List.countP_pos_iff.mpr ⟨_, List.mem_of_getElem? hj, by simp [Prog.outcome]⟩
    have hb := h.bud
    have hps := pending_set (q := k r) hj (by rfl)
    have key := h.rg j _ hj s st (T.refl _ _) h.inv (by omega) _ _ hst
    have hlen : j < ps.length := (List.getElem?_eq_some_iff.mp hj).1
    rw [ho] at key hps
    obtain ⟨s1, g0, g1, g2, -, g3⟩ := key
    have : Together T lin s1 st1 (ps.set j (k r)) := by
      refine ⟨g1, fun j' p hp => ?_, by simp only [Option.isNone_some, Bool.false_eq_true, if_false] at hps; omega⟩
      by_cases hjj : j = j'
      · subst hjj
        rw [List.getElem?_set_self hlen] at hp
        cases hp
        cases hk : k r with
        | op e' k' => rw [hk] at ho; cases ho
        | _ => trivial
      · rw [List.getElem?_set_ne hjj] at hp
        exact (h.rg j' p hp).stable g2
    obtain ⟨s', i1, i2, i3⟩ := ih this
    exact ⟨s', ⟨s1, g0, i1⟩, T.trans g2 i2, i3⟩

/-- A schedule is an interleaving. -/
theorem sched_runs {step : Store → (e : Eff) → e.Resp → Store → Prop} {env : Env}
    (hstep : ∀ (w : World) e, step w.store e (w.exec env e).1 (w.exec env e).2.store) (sch : List Nat) (w : World) (ps : List (Prog α)) :
    Runs step w.store ps (commits env sch w ps) (D1.sched env sch w ps).1.store (D1.sched env sch w ps).2 := by
  induction sch generalizing w ps with
  | nil => exact .done _ _
  | cons j r ih =>
    simp only [D1.sched, commits]
    cases hj : ps[j]? with
    | none => exact ih w ps
    | some p =>
      cases p with
      | op e k =>
        simp only
        cases ho : (k (w.exec env e).1).outcome with
        | none => exact .goes hj (hstep w e) ho (ih _ _)
        | some o => exact .ends hj (hstep w e) ho (ih _ _)
      | _ => exact ih w ps

/-- Whatever the schedule, the calls end in an order in which they make sense one after the other. -/
theorem Together.sched {T : Rules σ Store} {lin : Nat → σ → Outcome α → σ → Prop} {env : Env}
    (hstep : ∀ (w : World) e, T.step w.store e (w.exec env e).1 (w.exec env e).2.store) (sch : List Nat) {s : σ} {w : World}
    {ps : List (Prog α)} (h : Together T lin s w.store ps) :
    ∃ s', LinRun lin (commits env sch w ps) s s' ∧ T.rely s w.store s' (sched env sch w ps).1.store ∧
      Together T lin s' (sched env sch w ps).1.store (sched env sch w ps).2 :=
  h.runs (sched_runs hstep sch w ps)

/-- A state machine that can do whatever another one does. -/
theorem Runs.simulate {S' : Type} {step : S → (e : Eff) → e.Resp → S → Prop} {step' : S' → (e : Eff) → e.Resp → S' → Prop} {R : S → S' → Prop}
    (hsim : ∀ a b e r a', R a b → step a e r a' → ∃ b', step' b e r b' ∧ R a' b') {a a' : S} {ps ps' : List (Prog α)}
    {cs : List (Nat × Outcome α)} (h : Runs step a ps cs a' ps') {b : S'} (hb : R a b) : ∃ b', Runs step' b ps cs b' ps' ∧ R a' b' := by
  induction h generalizing b with
  | done => exact ⟨b, .done _ _, hb⟩
  | goes hj hst ho _ ih =>
    obtain ⟨b1, h1, h2⟩ := hsim _ _ _ _ _ hb hst
    obtain ⟨b', h3, h4⟩ := ih h2
    exact ⟨b', .goes hj h1 ho h3, h4⟩
  | ends hj hst ho _ ih =>
    obtain ⟨b1, h1, h2⟩ := hsim _ _ _ _ _ hb hst
    obtain ⟨b', h3, h4⟩ := ih h2
    exact ⟨b', .ends hj h1 ho h3, h4⟩

/-! ## Steps of the store -/

/-- A step without faults. -/
def CleanStep (st : Store) (e : Eff) (r : e.Resp) (st' : Store) : Prop := ∃ rnd clk, st.exec rnd clk e = (r, st')

/-- A step with any fault. -/
def AnyStep (st : Store) (e : Eff) (r : e.Resp) (st' : Store) : Prop :=
  ∃ rnd clk, st.exec rnd clk e = (r, st') ∨ (r = e.fail (st.exec rnd clk e).1 ∧ (st' = st ∨ st' = (st.exec rnd clk e).2))

theorem cleanStep {env : Env} (hf : NoFault env) (w : World) (e : Eff) : CleanStep w.store e (w.exec env e).1 (w.exec env e).2.store := by
  refine ⟨env.rand w.t, env.now w.t, ?_⟩
  simp only [World.exec, hf w.t]

theorem anyStep (env : Env) (w : World) (e : Eff) : AnyStep w.store e (w.exec env e).1 (w.exec env e).2.store := by
  refine ⟨env.rand w.t, env.now w.t, ?_⟩
  simp only [World.exec]
  cases env.fault w.t with
  | none => exact .inl rfl
  | before => exact .inr ⟨rfl, .inl rfl⟩
  | after => exact .inr ⟨rfl, .inr rfl⟩

theorem AnyStep.frame {st st' : Store} {e : Eff} {r : e.Resp} (h : AnyStep st e r st') {id : Bytes} {dt : DataType}
    (ht : e.target ≠ some (id, dt)) : st' id dt = st id dt := by
  obtain ⟨rnd, clk, h⟩ := h
  have hs : (st.exec rnd clk e).2 id dt = st id dt := by
    have := exec_frame (env := ⟨fun _ => rnd, fun _ => clk, fun _ => .none⟩) (w := ⟨st, 0⟩) ht
    exact this
  rcases h with h | ⟨-, rfl | rfl⟩
  · rw [h] at hs; exact hs
  · rfl
  · exact hs

theorem CleanStep.any {st st' : Store} {e : Eff} {r : e.Resp} (h : CleanStep st e r st') : AnyStep st e r st' :=
  let ⟨rnd, clk, h⟩ := h
  ⟨rnd, clk, .inl h⟩

/-- Each call ends at most once, and as the final programs say. -/
theorem commits_spec {env : Env} (sch : List Nat) (w : World) (ps : List (Prog α)) :
    ((commits env sch w ps).map Prod.fst).Nodup ∧ ∀ j o, (j, o) ∈ commits env sch w ps ↔
      (∃ p, ps[j]? = some p ∧ p.outcome = none) ∧ ∃ q, (sched env sch w ps).2[j]? = some q ∧ q.outcome = some o := by
  induction sch generalizing w ps with
  | nil =>
    refine ⟨List.nodup_nil, fun j o => ⟨by simp [commits], ?_⟩⟩
    rintro ⟨⟨p, hp, h1⟩, q, hq, h2⟩
    simp only [sched] at hq
    rw [hp] at hq
    cases hq
    rw [h1] at h2
    cases h2
  | cons i r ih =>
    simp only [commits, sched]
    cases hi : ps[i]? with
    | none => exact ih w ps
    | some p =>
      cases p with
      | op e k =>
        have hlen : i < ps.length := (List.getElem?_eq_some_iff.mp hi).1
        obtain ⟨h1, h2⟩ := ih (w.exec env e).2 (ps.set i (k (w.exec env e).1))
        simp only
        cases ho : (k (w.exec env e).1).outcome with
        | none =>
          simp only
          refine ⟨h1, fun j o => ?_⟩
          rw [h2]
          by_cases hj : i = j
          · subst hj
            rw [List.getElem?_set_self hlen, hi]
            simp [ho, show (op e k).outcome = none from rfl]
          · rw [List.getElem?_set_ne hj]
        | some o' =>
          simp only
          have hfix : ∀ (s : List Nat) (w : World) (ps : List (Prog α)) (q : Prog α), ps[i]? = some q → q.outcome ≠ none →
              (sched env s w ps).2[i]? = some q := by
            intro s
            induction s with
            | nil => exact fun _ _ _ h _ => h
            | cons a s ihs =>
              intro w ps q hq hqo
              simp only [sched]
              cases ha : ps[a]? with
              | none => exact ihs _ _ _ hq hqo
              | some p =>
                cases p with
                | op e k =>
                  refine ihs _ _ _ ?_ hqo
                  rw [List.getElem?_set_ne]
                  · exact hq
                  · rintro rfl
                    rw [ha] at hq
                    cases hq
                    exact hqo rfl
                | _ => exact ihs _ _ _ hq hqo
          have hend := hfix r (w.exec env e).2 _ _ (List.getElem?_set_self hlen) (by rw [ho]; simp)
          constructor
          · rw [List.map_cons, List.nodup_cons]
            refine ⟨fun hm => ?_, h1⟩
            obtain ⟨⟨j, o⟩, hm, rfl⟩ := List.mem_map.mp hm
            obtain ⟨⟨p, hp, hpo⟩, -⟩ := (h2 _ _).mp hm
            rw [List.getElem?_set_self hlen] at hp
            cases hp
            rw [ho] at hpo
            cases hpo
          · intro j o
            rw [List.mem_cons, h2]
            by_cases hj : i = j
            · subst hj
              rw [List.getElem?_set_self hlen, hi, hend]
              simp [ho, show (op e k).outcome = none from rfl, eq_comm]
            · rw [List.getElem?_set_ne hj]
              simp [Ne.symm hj]
      | _ => exact ih w ps

end D1
