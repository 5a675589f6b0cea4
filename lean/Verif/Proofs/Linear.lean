import Verif.Proofs.Rely
/-!
# Linearization points

Calls run concurrently on one world.  Each call takes effect, as far as an abstract state is concerned, at one of its own effects.  Calls
may count on it that no conflicting call is in progress at the same time.
-/
namespace D1
open Prog

/-- The parameters: ghost states `γ`, abstract states `V`, and results `α`. -/
structure LinRules (γ V α : Type) where
  env : Env
  /-- The number of effects never exceeds this. -/
  limit : Nat
  /-- The world represents the ghost state. -/
  inv : γ → World → Prop
  /-- What the others may do while call `j` is at rest. -/
  rely : Nat → γ → World → γ → World → Prop
  refl : ∀ j g w, rely j g w g w
  trans : ∀ {j a x b y c z}, rely j a x b y → rely j b y c z → rely j a x c z
  /-- Call `j` counts on something that conflicting calls could change. -/
  holds : γ → Nat → Prop
  holds_iff : ∀ {j g w g' w'}, rely j g w g' w' → (holds g' j ↔ holds g j)
  conflict : Nat → Nat → Prop
  abs : γ → V
  /-- One abstract step of call `j`. -/
  lin : Nat → V → Outcome α → V → Prop

variable {γ V α β : Type}

/-- No conflicting call counts on anything. -/
def LinRules.calm (R : LinRules γ V α) (j : Nat) (g : γ) : Prop := ∀ i, i ≠ j → R.conflict i j → ¬ R.holds g i

/-- The abstract state stays as it is, or the call takes effect.  What it will report then is in a set of outcomes, all of which fit. -/
def LinRules.moveS (R : LinRules γ V α) (j : Nat) (d : Option (Outcome α → Prop)) (g : γ) (d' : Option (Outcome α → Prop)) (g' : γ) : Prop :=
  (d' = d ∧ R.abs g' = R.abs g) ∨ (d = none ∧ ∃ D, d' = some D ∧ (∃ o, D o) ∧ ∀ o, D o → R.lin j (R.abs g) o (R.abs g'))

/-- From here on call `j` keeps the invariant, respects what the others rely on, takes effect exactly once (`d` says whether it has, and what
it may report), and ends accordingly. -/
def LinS (R : LinRules γ V α) (j : Nat) : Prog α → Option (Outcome α → Prop) → γ → World → Prop
  | .op e k, d, g, w => ∀ g' w', R.rely j g w g' w' → R.inv g' w' → R.calm j g' → w'.t < R.limit →
    ∃ g'' d', R.moveS j d g' d' g'' ∧ R.inv g'' (w'.exec R.env e).2 ∧ (∀ i, i ≠ j → R.rely i g' w' g'' (w'.exec R.env e).2) ∧
      LinS R j (k (w'.exec R.env e).1) d' g'' (w'.exec R.env e).2
  | p, d, g, _ => (∃ D o, d = some D ∧ p.outcome = some o ∧ D o) ∧ ¬ R.holds g j

theorem LinS.stable {R : LinRules γ V α} {j : Nat} {p : Prog α} {d : Option (Outcome α → Prop)} {g g' : γ} {w w' : World} (h : LinS R j p d g w)
    (hr : R.rely j g w g' w') : LinS R j p d g' w' := by
  cases p with
  | op e k => exact fun a x h1 => h a x (R.trans hr h1)
  | _ => exact ⟨h.1, fun hh => h.2 ((R.holds_iff hr).mp hh)⟩

theorem LinS.ended {R : LinRules γ V α} {j : Nat} {p : Prog α} {d : Option (Outcome α → Prop)} {g : γ} {w : World} (h : LinS R j p d g w)
    {o : Outcome α} (ho : p.outcome = some o) : (∃ D, d = some D ∧ D o) ∧ ¬ R.holds g j := by
  have key : ∀ {q : Prog α}, q.outcome = some o → (∃ D o, d = some D ∧ q.outcome = some o ∧ D o) → ∃ D, d = some D ∧ D o := by
    rintro q hq ⟨D, o', h1, h2, h3⟩
    rw [hq] at h2
    cases h2
    exact ⟨D, h1, h3⟩
  cases p with
  | op e k => cases ho
  | _ => exact ⟨key ho h.1, h.2⟩

theorem linS_end {R : LinRules γ V α} {j : Nat} {p : Prog α} {o : Outcome α} (ho : p.outcome = some o) {D : Outcome α → Prop} (hD : D o) {g : γ}
    (hh : ¬ R.holds g j) (w : World) : LinS R j p (some D) g w := by
  cases p with
  | op e k => cases ho
  | _ => exact ⟨⟨D, o, rfl, ho, hD⟩, hh⟩

/-- The abstract state stays as it is, or the call takes effect. -/
def LinRules.move (R : LinRules γ V α) (j : Nat) (d : Option (Outcome α)) (g : γ) (d' : Option (Outcome α)) (g' : γ) : Prop :=
  (d' = d ∧ R.abs g' = R.abs g) ∨ (d = none ∧ ∃ o, d' = some o ∧ R.lin j (R.abs g) o (R.abs g'))

/-- From here on call `j` keeps the invariant, respects what the others rely on, takes effect exactly once (`d` says whether and how it
has), and ends accordingly. -/
def Lin (R : LinRules γ V α) (j : Nat) : Prog α → Option (Outcome α) → γ → World → Prop
  | .op e k, d, g, w => ∀ g' w', R.rely j g w g' w' → R.inv g' w' → R.calm j g' → w'.t < R.limit →
    ∃ g'' d', R.move j d g' d' g'' ∧ R.inv g'' (w'.exec R.env e).2 ∧ (∀ i, i ≠ j → R.rely i g' w' g'' (w'.exec R.env e).2) ∧
      Lin R j (k (w'.exec R.env e).1) d' g'' (w'.exec R.env e).2
  | p, d, g, _ => d = p.outcome ∧ ¬ R.holds g j

variable {R : LinRules γ V α}

theorem Lin.stable {j : Nat} {p : Prog α} {d : Option (Outcome α)} {g g' : γ} {w w' : World} (h : Lin R j p d g w) (hr : R.rely j g w g' w') :
    Lin R j p d g' w' := by
  cases p with
  | op e k => exact fun a x h1 => h a x (R.trans hr h1)
  | _ => exact ⟨h.1, fun hh => h.2 ((R.holds_iff hr).mp hh)⟩

theorem Lin.ended {j : Nat} {p : Prog α} {d : Option (Outcome α)} {g : γ} {w : World} (h : Lin R j p d g w) {o : Outcome α} (ho : p.outcome = some o) :
    d = some o ∧ ¬ R.holds g j := by
  cases p with
  | op e k => cases ho
  | _ => rw [← ho]; exact h

theorem lin_end {j : Nat} {p : Prog α} {o : Outcome α} (ho : p.outcome = some o) {g : γ} (hh : ¬ R.holds g j) (w : World) :
    Lin R j p (some o) g w := by
  cases p with
  | op e k => cases ho
  | _ => exact ⟨ho.symm, hh⟩

/-- Call `i` is in progress when effect number `n` of the schedule happens: it has begun (`S`: before the schedule) and not ended. -/
def BusyAt (env : Env) (S : Nat → Prop) (sch : List Nat) (w : World) (ps : List (Prog α)) (n i : Nat) : Prop :=
  (S i ∨ i ∈ sch.take (n + 1)) ∧ ∃ p, (sched env (sch.take n) w ps).2[i]? = some p ∧ p.outcome = none

theorem sched_length (env : Env) (sch : List Nat) (w : World) (ps : List (Prog α)) : (sched env sch w ps).2.length = ps.length := by
  induction sch generalizing w ps with
  | nil => rfl
  | cons j r ih =>
    simp only [sched]
    split
    · rw [ih, List.length_set]
    · exact ih _ _

theorem exec_t (env : Env) (w : World) (e : Eff) : (w.exec env e).2.t = w.t + 1 := by
  simp only [World.exec]
  split <;> rfl

/-- There is an order of the calls that took effect in which they make sense one after the other, and it agrees with real time: at any
moment, the calls that have ended are in the first part of it, with how they ended, and the calls that have not begun are not. -/
theorem LinS.sched (sch : List Nat) {g : γ} {w : World} {ps : List (Prog α)} {ds : Nat → Option (Outcome α → Prop)} {S : Nat → Prop}
    (hinv : R.inv g w) (hl : ∀ j p, ps[j]? = some p → p.outcome = none → LinS R j p (ds j) g w)
    (hD : ∀ j D, ds j = some D → ∃ o, D o)
    (hh : ∀ i, R.holds g i → S i ∧ ∃ p, ps[i]? = some p ∧ p.outcome = none)
    (ht : w.t + sch.length ≤ R.limit)
    (hb : ∀ n, n < sch.length → ∀ i j, i ≠ j → BusyAt R.env S sch w ps n i → BusyAt R.env S sch w ps n j → ¬ R.conflict i j) :
    ∃ (f : Nat → Outcome α) (l : List (Nat × Outcome α)) (g' : γ), LinRun R.lin l (R.abs g) (R.abs g') ∧ (l.map Prod.fst).Nodup ∧
      (∀ j o, (j, o) ∈ l → ds j = none ∧ j ∈ sch) ∧ (∀ j D, ds j = some D → D (f j)) ∧
      R.inv g' (sched R.env sch w ps).1 ∧
      (∀ i, R.holds g' i → (S i ∨ i ∈ sch) ∧ ∃ p, (sched R.env sch w ps).2[i]? = some p ∧ p.outcome = none) ∧
      ∀ n, ∃ l1 l2, l = l1 ++ l2 ∧ (∀ j o, (j, o) ∈ commits R.env (sch.take n) w ps → (j, o) ∈ l1 ∨ (ds j ≠ none ∧ o = f j)) ∧
        ∀ j o, (j, o) ∈ l1 → j ∈ sch.take n := by
  induction sch generalizing g w ps ds S with
  | nil =>
    have hf : ∀ j, ∃ o, ∀ D, ds j = some D → D o := by
      intro j
      cases hd : ds j with
      | none => exact ⟨.diverge, by simp⟩
      | some D =>
        obtain ⟨o, ho⟩ := hD j D hd
        exact ⟨o, by rintro _ ⟨⟩; exact ho⟩
    choose f hf using hf
    refine ⟨f, [], g, rfl, List.nodup_nil, by simp, hf, hinv, fun i hi => ⟨.inl (hh i hi).1, (hh i hi).2⟩, fun n => ⟨[], [], rfl, ?_, by simp⟩⟩
    simp [commits]
  | cons j r ih =>
    rw [List.length_cons] at ht
    cases hj : ps[j]? with
    | none =>
      have e1 : ∀ s, D1.sched R.env (j :: s) w ps = D1.sched R.env s w ps := fun s => by simp [D1.sched, hj]
      have e2 : ∀ s, commits R.env (j :: s) w ps = commits R.env s w ps := fun s => by simp [commits, hj]
      obtain ⟨f, l, g', h1, h2, h3, hfd, h4, h5, h6⟩ := ih (ds := ds) (S := S) hinv hl hD hh (by omega) (by
        intro n hn a b hab ha hb' hc
        refine hb (n + 1) (by simp; omega) a b hab ?_ ?_ hc
        · exact ⟨ha.1.imp id (List.mem_cons_of_mem _), by rw [List.take_succ_cons, e1]; exact ha.2⟩
        · exact ⟨hb'.1.imp id (List.mem_cons_of_mem _), by rw [List.take_succ_cons, e1]; exact hb'.2⟩)
      rw [e1]
      refine ⟨f, l, g', h1, h2, fun i o hm => ⟨(h3 i o hm).1, List.mem_cons_of_mem _ (h3 i o hm).2⟩, hfd, h4,
        fun i hi => ⟨(h5 i hi).1.imp id (List.mem_cons_of_mem _), (h5 i hi).2⟩, fun n => ?_⟩
      cases n with
      | zero => exact ⟨[], l, rfl, by simp [commits], by simp⟩
      | succ n =>
        obtain ⟨l1, l2, h7, h8, h9⟩ := h6 n
        exact ⟨l1, l2, h7, by rw [List.take_succ_cons, e2]; exact h8, fun i o hm => List.mem_cons_of_mem _ (h9 i o hm)⟩
    | some p =>
      by_cases hp : p.outcome = none
      swap
      · have e1 : ∀ s, D1.sched R.env (j :: s) w ps = D1.sched R.env s w ps := fun s => by
          cases p <;> first | exact absurd rfl hp | simp [D1.sched, hj]
        have e2 : ∀ s, commits R.env (j :: s) w ps = commits R.env s w ps := fun s => by
          cases p <;> first | exact absurd rfl hp | simp [commits, hj]
        obtain ⟨f, l, g', h1, h2, h3, hfd, h4, h5, h6⟩ := ih (ds := ds) (S := S) hinv hl hD hh (by omega) (by
          intro n hn a b hab ha hb' hc
          refine hb (n + 1) (by simp; omega) a b hab ?_ ?_ hc
          · exact ⟨ha.1.imp id (List.mem_cons_of_mem _), by rw [List.take_succ_cons, e1]; exact ha.2⟩
          · exact ⟨hb'.1.imp id (List.mem_cons_of_mem _), by rw [List.take_succ_cons, e1]; exact hb'.2⟩)
        rw [e1]
        refine ⟨f, l, g', h1, h2, fun i o hm => ⟨(h3 i o hm).1, List.mem_cons_of_mem _ (h3 i o hm).2⟩, hfd, h4,
          fun i hi => ⟨(h5 i hi).1.imp id (List.mem_cons_of_mem _), (h5 i hi).2⟩, fun n => ?_⟩
        cases n with
        | zero => exact ⟨[], l, rfl, by simp [commits], by simp⟩
        | succ n =>
          obtain ⟨l1, l2, h7, h8, h9⟩ := h6 n
          exact ⟨l1, l2, h7, by rw [List.take_succ_cons, e2]; exact h8, fun i o hm => List.mem_cons_of_mem _ (h9 i o hm)⟩
      obtain ⟨e, k, rfl⟩ := outcome_none.mp hp
      have hlen : j < ps.length := (List.getElem?_eq_some_iff.mp hj).1
      have hcalm : R.calm j g := fun i hi hc hhi => hb 0 (by simp) i j hi
        ⟨.inl (hh i hhi).1, (hh i hhi).2⟩ ⟨.inr (by simp), _, hj, rfl⟩ hc
      obtain ⟨g1, d', hmv, hi1, hr1, hl1⟩ := hl j _ hj rfl g w (R.refl _ _ _) hinv hcalm (by omega)
      have e1 : ∀ s, D1.sched R.env (j :: s) w ps = D1.sched R.env s (w.exec R.env e).2 (ps.set j (k (w.exec R.env e).1)) :=
        fun s => by simp [D1.sched, hj]
      obtain ⟨d2, hd2, hd2'⟩ : ∃ d2 : Option (Outcome α → Prop), ((k (w.exec R.env e).1).outcome = none → d2 = d') ∧
          (∀ o, (k (w.exec R.env e).1).outcome = some o → d2 = some (· = o)) := by
        cases (k (w.exec R.env e).1).outcome with
        | none => exact ⟨d', fun _ => rfl, by simp⟩
        | some o => exact ⟨some (· = o), by simp, by rintro _ ⟨⟩; rfl⟩
      have hd3 : ∀ D', d' = some D' → ∃ D2, d2 = some D2 ∧ ∀ o, D2 o → D' o := by
        intro D' hD'
        cases ho : (k (w.exec R.env e).1).outcome with
        | none => exact ⟨D', (hd2 ho).trans hD', fun _ h => h⟩
        | some o =>
          obtain ⟨⟨D, h1, h2⟩, -⟩ := hl1.ended ho
          rw [hD'] at h1
          cases h1
          exact ⟨_, hd2' o ho, by rintro _ rfl; exact h2⟩
      have hd4 : d' = none → d2 = none := by
        intro hn
        cases ho : (k (w.exec R.env e).1).outcome with
        | none => exact (hd2 ho).trans hn
        | some o =>
          obtain ⟨⟨D, h1, -⟩, -⟩ := hl1.ended ho
          rw [hn] at h1
          cases h1
      have hne : ∀ D, d' = some D → ∃ o, D o := by
        rcases hmv with ⟨h, -⟩ | ⟨-, D', h1, h2, -⟩
        · rw [h]; exact hD j
        · intro D h3
          rw [h1] at h3
          cases h3
          exact h2
      obtain ⟨f, l, g', h1, h2, h3, hfd, h4, h5, h6⟩ := ih (g := g1) (w := (w.exec R.env e).2) (ps := ps.set j (k (w.exec R.env e).1))
        (ds := fun i => if i = j then d2 else ds i) (S := fun i => S i ∨ i = j) hi1 (by
          intro i q hq hqo
          by_cases hij : i = j
          · subst hij
            rw [List.getElem?_set_self hlen] at hq
            cases hq
            rw [if_pos rfl, hd2 hqo]
            exact hl1
          · rw [List.getElem?_set_ne (Ne.symm hij)] at hq
            rw [if_neg hij]
            exact (hl i q hq hqo).stable (hr1 i hij)) (by
          intro i D hi
          by_cases hij : i = j
          · rw [if_pos hij] at hi
            cases ho : (k (w.exec R.env e).1).outcome with
            | none => rw [hd2 ho] at hi; exact hne D hi
            | some o => rw [hd2' o ho] at hi; cases hi; exact ⟨o, rfl⟩
          · rw [if_neg hij] at hi
            exact hD i D hi) (by
          intro i hhi
          by_cases hij : i = j
          · subst hij
            refine ⟨.inr rfl, _, List.getElem?_set_self hlen, ?_⟩
            cases ho : (k (w.exec R.env e).1).outcome with
            | none => rfl
            | some o => exact absurd hhi (hl1.ended ho).2
          · rw [R.holds_iff (hr1 i hij)] at hhi
            obtain ⟨h1, h2⟩ := hh i hhi
            exact ⟨.inl h1, by rw [List.getElem?_set_ne (Ne.symm hij)]; exact h2⟩)
        (by rw [exec_t]; omega) (by
          have tr : ∀ n i, BusyAt R.env (fun i => S i ∨ i = j) r (w.exec R.env e).2 (ps.set j (k (w.exec R.env e).1)) n i →
              BusyAt R.env S (j :: r) w ps (n + 1) i := by
            rintro n i ⟨h1, h2⟩
            refine ⟨?_, by rw [List.take_succ_cons, e1]; exact h2⟩
            rcases h1 with (h1 | rfl) | h1
            · exact .inl h1
            · exact .inr (by simp)
            · exact .inr (List.mem_cons_of_mem _ h1)
          intro n hn a b hab ha hb'
          exact hb (n + 1) (by simp; omega) a b hab (tr n a ha) (tr n b hb'))
      rw [e1]
      have hstart : ∀ i, R.holds g' i → (S i ∨ i ∈ j :: r) ∧ ∃ p, (D1.sched R.env r (w.exec R.env e).2 (ps.set j (k (w.exec R.env e).1))).2[i]? = some p ∧
          p.outcome = none := by
        intro i hi
        obtain ⟨h7, h8⟩ := h5 i hi
        refine ⟨?_, h8⟩
        rcases h7 with (h7 | rfl) | h7
        · exact .inl h7
        · exact .inr (by simp)
        · exact .inr (List.mem_cons_of_mem _ h7)
      have ecom : ∀ s i o, (i, o) ∈ commits R.env (j :: s) w ps →
          (i = j ∧ (k (w.exec R.env e).1).outcome = some o) ∨
            (i, o) ∈ commits R.env s (w.exec R.env e).2 (ps.set j (k (w.exec R.env e).1)) := by
        intro s i o hm
        simp only [commits, hj] at hm
        cases ho : (k (w.exec R.env e).1).outcome with
        | none => rw [ho] at hm; exact .inr hm
        | some o' =>
          rw [ho] at hm
          rcases List.mem_cons.mp hm with hm | hm
          · cases hm; exact .inl ⟨rfl, rfl⟩
          · exact .inr hm
      -- the outcome reported by this step, if any
      have hrep : ∀ o, (k (w.exec R.env e).1).outcome = some o → o = f j := by
        intro o ho
        have := hfd j (· = o) (by rw [if_pos rfl]; exact hd2' o ho)
        exact this.symm
      rcases hmv with ⟨rfl, ha⟩ | ⟨hd, D, hDd, -, hlin⟩
      · refine ⟨f, l, g', ha ▸ h1, h2, fun i o hm => ?_, fun i D hi => ?_, h4, hstart, fun n => ?_⟩
        · obtain ⟨h7, h8⟩ := h3 i o hm
          refine ⟨?_, List.mem_cons_of_mem _ h8⟩
          by_cases hij : i = j
          · subst hij
            rw [if_pos rfl] at h7
            cases hdi : ds i with
            | none => rfl
            | some D' => obtain ⟨D2, h9, -⟩ := hd3 D' hdi; rw [h7] at h9; cases h9
          · rw [if_neg hij] at h7; exact h7
        · by_cases hij : i = j
          · subst hij
            obtain ⟨D2, h9, h10⟩ := hd3 D hi
            exact h10 _ (hfd i D2 (by rw [if_pos rfl]; exact h9))
          · exact hfd i D (by rw [if_neg hij]; exact hi)
        · cases n with
          | zero => exact ⟨[], l, rfl, by simp [commits], by simp⟩
          | succ n =>
            obtain ⟨l1, l2, h7, h8, h9⟩ := h6 n
            refine ⟨l1, l2, h7, fun i o hm => ?_, fun i o hm => List.mem_cons_of_mem _ (h9 i o hm)⟩
            rcases ecom _ i o hm with ⟨rfl, ho⟩ | hm
            · obtain ⟨⟨D, h10, -⟩, -⟩ := hl1.ended ho
              exact .inr ⟨by rw [h10]; simp, hrep o ho⟩
            · refine (h8 i o hm).imp id fun ⟨h10, h11⟩ => ⟨?_, h11⟩
              by_cases hij : i = j
              · subst hij
                rw [if_pos rfl] at h10
                exact fun hn => h10 (hd4 hn)
              · rw [if_neg hij] at h10; exact h10
      · obtain ⟨D2, hD2, hD2'⟩ := hd3 D hDd
        have hfj : D (f j) := hD2' _ (hfd j D2 (by rw [if_pos rfl]; exact hD2))
        refine ⟨f, (j, f j) :: l, g', ⟨_, hlin _ hfj, h1⟩, ?_, ?_, fun i D' hi => ?_, h4, hstart, fun n => ?_⟩
        · rw [List.map_cons, List.nodup_cons]
          refine ⟨fun hm => ?_, h2⟩
          obtain ⟨⟨i, o'⟩, hm', hi⟩ := List.mem_map.mp hm
          have := (h3 _ _ hm').1
          rw [if_pos hi, hD2] at this
          cases this
        · intro i o' hm
          rcases List.mem_cons.mp hm with hm | hm
          · cases hm; exact ⟨hd, by simp⟩
          · obtain ⟨h7, h8⟩ := h3 _ _ hm
            refine ⟨?_, List.mem_cons_of_mem _ h8⟩
            by_cases hij : i = j
            · rw [if_pos hij, hD2] at h7; cases h7
            · rw [if_neg hij] at h7; exact h7
        · by_cases hij : i = j
          · subst hij; rw [hd] at hi; cases hi
          · exact hfd i D' (by rw [if_neg hij]; exact hi)
        · cases n with
          | zero => exact ⟨[], _, rfl, by simp [commits], by simp⟩
          | succ n =>
            obtain ⟨l1, l2, h7, h8, h9⟩ := h6 n
            refine ⟨(j, f j) :: l1, l2, by rw [h7]; rfl, fun i o' hm => ?_, fun i o' hm => ?_⟩
            · rcases ecom _ i o' hm with ⟨rfl, ho⟩ | hm
              · rw [hrep o' ho]; exact .inl (by simp)
              · rcases h8 i o' hm with h | ⟨h, h'⟩
                · exact .inl (List.mem_cons_of_mem _ h)
                · by_cases hij : i = j
                  · subst hij; rw [h']; exact .inl (by simp)
                  · rw [if_neg hij] at h
                    exact .inr ⟨h, h'⟩
            · rcases List.mem_cons.mp hm with hm | hm
              · cases hm; simp
              · exact List.mem_cons_of_mem _ (h9 i o' hm)

theorem Lin.toS {j : Nat} {p : Prog α} {d : Option (Outcome α)} {g : γ} {w : World} (h : Lin R j p d g w) :
    LinS R j p (d.map fun o x => x = o) g w := by
  induction p generalizing d g w with
  | op e k ih =>
    intro g' w' h1 h2 h3 h4
    obtain ⟨g'', d', h5, h6, h7, h8⟩ := h g' w' h1 h2 h3 h4
    refine ⟨g'', _, ?_, h6, h7, ih _ h8⟩
    rcases h5 with ⟨rfl, h5⟩ | ⟨rfl, o, rfl, h5⟩
    · exact .inl ⟨rfl, h5⟩
    · exact .inr ⟨rfl, _, rfl, ⟨o, rfl⟩, by rintro _ rfl; exact h5⟩
  | ret a => exact ⟨⟨fun x => x = _, _, by rw [h.1]; rfl, rfl, rfl⟩, h.2⟩
  | err a => exact ⟨⟨fun x => x = _, _, by rw [h.1]; rfl, rfl, rfl⟩, h.2⟩
  | panic => exact ⟨⟨fun x => x = _, _, by rw [h.1]; rfl, rfl, rfl⟩, h.2⟩
  | diverge => exact ⟨⟨fun x => x = _, _, by rw [h.1]; rfl, rfl, rfl⟩, h.2⟩

/-- The same for calls whose outcome is known when they take effect. -/
theorem Lin.sched (sch : List Nat) {g : γ} {w : World} {ps : List (Prog α)} {ds : Nat → Option (Outcome α)} {S : Nat → Prop}
    (hinv : R.inv g w) (hl : ∀ j p, ps[j]? = some p → p.outcome = none → Lin R j p (ds j) g w)
    (hh : ∀ i, R.holds g i → S i ∧ ∃ p, ps[i]? = some p ∧ p.outcome = none)
    (ht : w.t + sch.length ≤ R.limit)
    (hb : ∀ n, n < sch.length → ∀ i j, i ≠ j → BusyAt R.env S sch w ps n i → BusyAt R.env S sch w ps n j → ¬ R.conflict i j) :
    ∃ l g', LinRun R.lin l (R.abs g) (R.abs g') ∧ (l.map Prod.fst).Nodup ∧ (∀ j o, (j, o) ∈ l → ds j = none ∧ j ∈ sch) ∧
      R.inv g' (sched R.env sch w ps).1 ∧
      (∀ i, R.holds g' i → (S i ∨ i ∈ sch) ∧ ∃ p, (sched R.env sch w ps).2[i]? = some p ∧ p.outcome = none) ∧
      ∀ n, ∃ l1 l2, l = l1 ++ l2 ∧ (∀ j o, (j, o) ∈ commits R.env (sch.take n) w ps → (j, o) ∈ l1 ∨ ds j = some o) ∧
        ∀ j o, (j, o) ∈ l1 → j ∈ sch.take n := by
  obtain ⟨f, l, g', h1, h2, h3, hfd, h4, h5, h6⟩ := LinS.sched (R := R) sch (ds := fun j => (ds j).map fun o x => x = o) (S := S) hinv
    (fun j p hp ho => (hl j p hp ho).toS)
    (by
      intro j D h
      obtain ⟨o, -, rfl⟩ := Option.map_eq_some_iff.mp h
      exact ⟨o, rfl⟩) hh ht hb
  refine ⟨l, g', h1, h2, fun j o hm => ⟨by simpa using (h3 j o hm).1, (h3 j o hm).2⟩, h4, h5, fun n => ?_⟩
  obtain ⟨l1, l2, h7, h8, h9⟩ := h6 n
  refine ⟨l1, l2, h7, fun j o hm => (h8 j o hm).imp id ?_, h9⟩
  rintro ⟨h10, rfl⟩
  cases hd : ds j with
  | none => simp [hd] at h10
  | some o => rw [hfd j (· = o) (by simp [hd])]

/-- Effects that stay out of the way, before the call takes effect; if they end in an error, the call takes effect by reporting it. -/
theorem Lin.bind_frame {j : Nat} {Q : Eff → Prop} (hq : ∀ e, Q e → ∀ g w, R.inv g w → R.inv g (w.exec R.env e).2 ∧
      ∀ i, R.rely i g w g (w.exec R.env e).2)
    {p : Prog β} (hp : AllEff Q p) {A : β → Prop} (ho : AllOut (Returns A) p) {k : β → Prog α} (hop : ∀ a, ∃ e c, k a = .op e c)
    (herr : AllOut (fun o => ∀ e g, o = .err e → R.lin j (R.abs g) (.err e) (R.abs g)) p) {g : γ} {w : World} (hnh : ¬ R.holds g j)
    (hk : ∀ a g' w', A a → R.rely j g w g' w' → Lin R j (k a) none g' w') (hne : (p.bind k).outcome = none) :
    Lin R j (p.bind k) none g w := by
  induction p generalizing g w with
  | op e c ih =>
    intro a x h1 h2 _ _
    obtain ⟨g1, g2⟩ := hq e hp.1 a x h2
    have hnh' : ¬ R.holds a j := fun hh => hnh ((R.holds_iff h1).mp hh)
    have hi := ih (x.exec R.env e).1 (hp.2 _) (ho _) (herr _) hnh' (w := (x.exec R.env e).2)
      (fun b g' w' hb hr => hk b g' w' hb (R.trans h1 (R.trans (g2 j) hr)))
    have ho' := ho (x.exec R.env e).1
    have he' := herr (x.exec R.env e).1
    show ∃ g'' d', R.move j none a d' g'' ∧ R.inv g'' (x.exec R.env e).2 ∧ (∀ i, i ≠ j → R.rely i a x g'' (x.exec R.env e).2) ∧
      Lin R j ((c (x.exec R.env e).1).bind k) d' g'' (x.exec R.env e).2
    revert hi ho' he'
    cases hc : c (x.exec R.env e).1 with
    | ret b =>
      intro hi _ _
      obtain ⟨e', c', hkb⟩ := hop b
      exact ⟨a, none, .inl ⟨rfl, rfl⟩, g1, fun i _ => g2 i, hi (by rw [ret_bind, hkb]; rfl)⟩
    | err e' =>
      intro _ _ he
      exact ⟨a, some (.err e'), .inr ⟨rfl, _, rfl, he e' a rfl⟩, g1, fun i _ => g2 i, rfl, hnh'⟩
    | panic => exact fun _ h => h.elim
    | diverge => exact fun _ h => h.elim
    | op e' c' =>
      intro hi _ _
      exact ⟨a, none, .inl ⟨rfl, rfl⟩, g1, fun i _ => g2 i, hi rfl⟩
  | ret a => exact hk a g w ho (R.refl _ _ _)
  | err e => cases hne
  | panic => cases hne
  | diverge => cases hne

end D1
