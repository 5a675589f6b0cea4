import Verif.Props.FailStop
/-!
# Failures taken out of an execution

An execution in which requests fail is turned into one in which none do.  Calls that failed are left out if they never changed anything, and
otherwise end when they fail, if that was their last request and it was carried out, or crash.  In contrast to `C86_concurrent` this says what corresponds to each moment of the execution.
-/
namespace D1
open Spec Prog

/-- The environment without the faults of the IO Provider. -/
def Env.calm (env : Env) : Env := { env with fault := fun _ => .none }

/-- The IO Provider failed. -/
def Failed : Event → Prop
  | ⟨.put .., r⟩ | ⟨.update .., r⟩ | ⟨.delete .., r⟩ => (r : Except IoErr Unit) = .error .failure
  | ⟨.get .., r⟩ => (r : Except IoErr Bytes) = .error .failure
  | ⟨.rand _, _⟩ | ⟨.now, _⟩ => False

/-- The request changes what is stored in the place that it is about. -/
def Changing (s s' : Store) : Eff → Prop
  | .put id dt _ | .update id dt _ | .delete id dt => s' id dt ≠ s id dt
  | _ => False

theorem Failed.broken {ev : Event} (h : Failed ev) : Broken ev := by
  obtain ⟨e, r⟩ := ev
  cases e with
  | get id dt => exact ⟨_, h, by simp⟩
  | rand n => exact h.elim
  | now => exact h.elim
  | _ => intro h'; simp only [Failed] at h; rw [h] at h'; exact nomatch h'

/-- `X` is true of some request of call `i` under a schedule, of the world before it and of what the call does after it. -/
def Once {α : Type} (env : Env) (X : World → (e : Eff) → (e.Resp → Prog α) → Prop) : List Nat → World → List (Prog α) → Nat → Prop
  | [], _, _, _ => False
  | j :: r, w, ps, i => match ps[j]? with
    | some (.op e k) => i = j ∧ X w e k ∨ Once env X r (w.exec env e).2 (ps.set j (k (w.exec env e).1)) i
    | _ => Once env X r w ps i

/-- A request of the call has failed. -/
def HasFailed {α : Type} (env : Env) (sch : List Nat) (w : World) (ps : List (Prog α)) (i : Nat) : Prop :=
  Once env (fun w e _ => Failed ⟨e, (w.exec env e).1⟩) sch w ps i

/-- The call has changed something. -/
def HasChanged {α : Type} (env : Env) (sch : List Nat) (w : World) (ps : List (Prog α)) (i : Nat) : Prop :=
  Once env (fun w e _ => Changing w.store (w.exec env e).2.store e) sch w ps i

/-- A request of the call has failed, and it was not carried out or was not the last one. -/
def HasStopped {α : Type} (env : Env) (sch : List Nat) (w : World) (ps : List (Prog α)) (i : Nat) : Prop :=
  Once env (fun w e k => Failed ⟨e, (w.exec env e).1⟩ ∧ (env.fault w.t = .before ∨ (k (w.exec env.calm e).1).outcome = none)) sch w ps i

/-- One effect: it happens as without faults; or it fails and has not happened, or has happened. -/
theorem exec_calm (env : Env) (w : World) (e : Eff) :
    w.exec env e = w.exec env.calm e ∨
      (Failed ⟨e, (w.exec env e).1⟩ ∧ (env.fault w.t = .before ∧ (w.exec env e).2 = ⟨w.store, w.t + 1⟩ ∨ (w.exec env e).2 = (w.exec env.calm e).2)) := by
  cases e with
  | rand n => simp only [World.exec, Env.calm, Store.exec, Eff.fail]; exact .inl (by cases env.fault w.t <;> rfl)
  | now => simp only [World.exec, Env.calm, Store.exec, Eff.fail]; exact .inl (by cases env.fault w.t <;> rfl)
  | _ =>
    simp only [World.exec, Env.calm, Store.exec, Eff.fail]
    cases env.fault w.t with
    | none => exact .inl rfl
    | before => exact .inr ⟨rfl, .inl ⟨rfl, rfl⟩⟩
    | after => exact .inr ⟨rfl, .inr rfl⟩

theorem exec_store_of_not_changing (env : Env) (w : World) (e : Eff) (h : ¬ Changing w.store (w.exec env e).2.store e) :
    (w.exec env e).2.store = w.store := by
  have key : ∀ id dt v, (w.exec env e).2.store = w.store.set id dt v → (w.exec env e).2.store id dt = w.store id dt →
      (w.exec env e).2.store = w.store := fun id dt v h1 h2 => by
    rw [h1] at h2 ⊢
    funext id' dt'
    simp only [Store.set, and_self, if_true] at h2 ⊢
    split
    · rename_i h; rw [h.1, h.2, h2]
    · rfl
  have hx : (w.exec env e).2.store = w.store ∨ (w.exec env e).2.store = (w.store.exec (env.rand w.t) (env.now w.t) e).2 := by
    simp only [World.exec]
    cases env.fault w.t with
    | none => exact .inr rfl
    | before => exact .inl rfl
    | after => exact .inr rfl
  rcases hx with hx | hx
  · exact hx
  cases e with
  | put id dt d =>
    refine (em (w.store id dt = none)).elim (fun h0 => key id dt (some d) ?_ (not_not.mp h)) fun h0 => ?_
    · rw [hx]; simp only [Store.exec, h0]
    · obtain ⟨d', h0⟩ := Option.ne_none_iff_exists'.mp h0
      rw [hx]; simp only [Store.exec, h0]
  | update id dt d =>
    refine (em (w.store id dt = none)).elim (fun h0 => ?_) fun h0 => key id dt (some d) ?_ (not_not.mp h)
    · rw [hx]; simp only [Store.exec, h0]
    · obtain ⟨d', h0⟩ := Option.ne_none_iff_exists'.mp h0
      rw [hx]; simp only [Store.exec, h0]
  | delete id dt => exact key id dt none hx (not_not.mp h)
  | get id dt => rw [hx]; simp only [Store.exec]; cases w.store id dt <;> rfl
  | _ => exact hx

section
variable {α : Type}

/-- Call `i` has ended. -/
def EndedAt (qs : List (Prog α)) (i : Nat) : Prop := ∃ q o, qs[i]? = some q ∧ q.outcome = some o

/-- The executions up to two moments agree: the same store, the same reports and the same programs, but for calls that have failed and those left out (`D`);
calls that have failed have ended, or stopped (`F`: before the first moment). -/
structure Accord (env env' : Env) (D F : Nat → Prop) (sch sch' : List Nat) (w w0 : World) (ps qs : List (Prog α)) : Prop where
  sub : sch'.Sublist sch
  store : (sched env' sch' w0 qs).1.store = (sched env sch w ps).1.store
  reports : ∀ j o, (j, o) ∈ commits env sch w ps → (j, o) ∈ commits env' sch' w0 qs ∨ D j ∨ F j ∨ HasFailed env sch w ps j
  progs : ∀ i, ¬ D i → (sched env sch w ps).2[i]? = (sched env' sch' w0 qs).2[i]? ∨ EndedAt (sched env' sch' w0 qs).2 i ∨ F i ∨ HasStopped env sch w ps i

section
variable {env : Env} {X : World → (e : Eff) → (e.Resp → Prog α) → Prop} {j : Nat} {w : World} {ps : List (Prog α)}

theorem Once.cons {r : List Nat} {e : Eff} {k : e.Resp → Prog α} (hj : ps[j]? = some (.op e k)) {i : Nat}
    (h : Once env X r (w.exec env e).2 (ps.set j (k (w.exec env e).1)) i) : Once env X (j :: r) w ps i := by
  simp only [Once, hj]
  exact .inr h

theorem Once.now (r : List Nat) {e : Eff} {k : e.Resp → Prog α} (hj : ps[j]? = some (.op e k)) (h : X w e k) : Once env X (j :: r) w ps j := by
  simp only [Once, hj]
  exact .inl ⟨trivial, h⟩

theorem Once.skip {r : List Nat} {i : Nat} (hj : ∀ e k, ps[j]? ≠ some (.op e k)) : Once env X (j :: r) w ps i ↔ Once env X r w ps i := by
  simp only [Once]

theorem Once.imp {Y : World → (e : Eff) → (e.Resp → Prog α) → Prop} (hXY : ∀ w e k, X w e k → Y w e k) {sch : List Nat} {i : Nat}
    (h : Once env X sch w ps i) : Once env Y sch w ps i := by
  induction sch generalizing w ps with
  | nil => exact h
  | cons j r ih =>
    simp only [Once] at h ⊢
    split at h
    · exact h.imp (And.imp_right (hXY _ _ _)) ih
    · exact ih h

theorem Once.whole {sch : List Nat} {n i : Nat} (h : Once env X (sch.take n) w ps i) : Once env X sch w ps i := by
  induction sch generalizing n w ps with
  | nil => simpa using h
  | cons j r ih =>
    cases n with
    | zero => exact h.elim
    | succ n =>
      rw [List.take_succ_cons] at h
      simp only [Once] at h ⊢
      split at h
      · exact h.imp_right ih
      · exact ih h

end

theorem HasStopped.failed {env : Env} {sch : List Nat} {w : World} {ps : List (Prog α)} {i : Nat} (h : HasStopped env sch w ps i) :
    HasFailed env sch w ps i := Once.imp (fun _ _ _ => And.left) h

theorem Accord.nil {env env' : Env} {D F : Nat → Prop} {w w0 : World} {ps qs : List (Prog α)} (hst : w0.store = w.store)
    (hq : ∀ j : Nat, ¬ D j → ps[j]? = qs[j]? ∨ (F j ∨ EndedAt qs j)) : Accord env env' D F [] [] w w0 ps qs :=
  ⟨.refl _, hst, nofun, fun i hi => (hq i hi).imp_right fun h => h.symm.imp_right .inl⟩

/-- A turn of nobody. -/
theorem Accord.skip {env env' : Env} {D F : Nat → Prop} {w w0 : World} {ps qs : List (Prog α)} {s s' : List Nat} {j : Nat}
    (hj : ∀ e k, ps[j]? ≠ some (.op e k)) (h : Accord env env' D F s s' w w0 ps qs) : Accord env env' D F (j :: s) s' w w0 ps qs := by
  have h1 : sched env (j :: s) w ps = sched env s w ps := by
    simp only [sched]
  have h2 : commits env (j :: s) w ps = commits env s w ps := by
    simp only [commits]
  refine ⟨h.sub.cons _, by rw [h1]; exact h.store, ?_, ?_⟩
  · simp only [h2, HasFailed, Once.skip hj]; exact h.reports
  · simp only [h1, HasStopped, Once.skip hj]; exact h.progs

/-- A request. -/
theorem Accord.step {env env' env1 : Env} {D F F' : Nat → Prop} {w w0 w1 : World} {ps qs qs1 : List (Prog α)} {s s1 s2 : List Nat} {j : Nat}
    {e : Eff} {k : e.Resp → Prog α} (hj : ps[j]? = some (.op e k))
    (hs : sched env' s2 w0 qs = sched env1 s1 w1 qs1) (hc : ∀ x ∈ commits env1 s1 w1 qs1, x ∈ commits env' s2 w0 qs)
    (hF : ∀ i, F' i → F i ∨ HasStopped env (j :: s) w ps i)
    (ho : ∀ o, (k (w.exec env e).1).outcome = some o → (j, o) ∈ commits env' s2 w0 qs ∨ D j ∨ F j ∨ HasFailed env (j :: s) w ps j)
    (hsub : s1.Sublist s → s2.Sublist (j :: s))
    (h : Accord env env1 D F' s s1 (w.exec env e).2 w1 (ps.set j (k (w.exec env e).1)) qs1) : Accord env env' D F (j :: s) s2 w w0 ps qs := by
  have h1 : sched env (j :: s) w ps = sched env s (w.exec env e).2 (ps.set j (k (w.exec env e).1)) := by simp only [sched, hj]
  refine ⟨hsub h.sub, by rw [h1, hs]; exact h.store, fun i o hi => ?_, fun i hi => ?_⟩
  · have hi' : (i, o) ∈ commits env s (w.exec env e).2 (ps.set j (k (w.exec env e).1)) ∨ i = j ∧ (k (w.exec env e).1).outcome = some o := by
      simp only [commits, hj] at hi
      split at hi
      · rename_i o' ho'
        rcases List.mem_cons.mp hi with h | h
        · cases h; exact .inr ⟨rfl, ho'⟩
        · exact .inl h
      · exact .inl hi
    rcases hi' with hi' | ⟨rfl, hi'⟩
    · rcases h.reports i o hi' with h | h | h | h
      · exact .inl (hc _ h)
      · exact .inr (.inl h)
      · exact .inr (.inr ((hF i h).imp_right HasStopped.failed))
      · exact .inr (.inr (.inr (Once.cons hj h)))
    · exact ho o hi'
  · rw [h1, hs]
    rcases h.progs i hi with h | h | h | h
    · exact .inl h
    · exact .inr (.inl h)
    · exact .inr (.inr (hF i h))
    · exact .inr (.inr (.inr (Once.cons hj h)))

/-- There is an execution without failures that corresponds to the given one at every moment.  Request number `t` of the one is the one at moment
`f t` of the other. -/
def Mendable (env : Env) (D : Nat → Prop) (sch : List Nat) (w w0 : World) (F : Nat → Prop) (ps qs : List (Prog α)) : Prop :=
    ∃ f sch', (∀ t, w0.t ≤ t → w.t ≤ f t ∧ f t < f (t + 1)) ∧ (∀ t, w0.t ≤ t → t < w0.t + sch'.length → f t < w.t + sch.length) ∧
      (∀ j ∈ sch', ¬ D j) ∧ Accord env (env.calm.at f) D F sch sch' w w0 ps qs ∧
      (∀ n, ∃ m, Accord env (env.calm.at f) D F (sch.take n) (sch'.take m) w w0 ps qs) ∧
      ∀ m, m < sch'.length → ∃ n, n < sch.length ∧ sch'[m]? = sch[n]? ∧ Accord env (env.calm.at f) D F (sch.take n) (sch'.take m) w w0 ps qs

theorem mend_aux (env : Env) (D : Nat → Prop) (sch : List Nat) (w w0 : World) (hst : w0.store = w.store) (F : Nat → Prop) (ps qs : List (Prog α))
    (hlen : ps.length = qs.length) (hp : ∀ (j : Nat) p, ps[j]? = some p → Stops (fun _ => True) p)
    (hq : ∀ j : Nat, ¬ D j → ps[j]? = qs[j]? ∨ (F j ∨ EndedAt qs j) ∧ ∃ e, ps[j]? = some (Prog.err e))
    (hD : ∀ i, D i → ¬ HasChanged env sch w ps i) :
    Mendable env D sch w w0 F ps qs := by
  induction sch generalizing w w0 F ps qs with
  | nil =>
    have hn := fun f => Accord.nil (env := env) (env' := env.calm.at f) hst fun j hj => (hq j hj).imp_right And.left
    exact ⟨fun t => w.t + (t - w0.t), [], (fun t ht => by simp only; omega), (fun t h1 h2 => by simp at h2; omega), nofun, hn _,
      fun n => ⟨0, by simpa using hn _⟩, fun m hm => by simp at hm⟩
  | cons j r ih =>
    have hn := fun f => Accord.nil (env := env) (env' := env.calm.at f) hst fun j hj => (hq j hj).imp_right And.left
    -- a turn of nobody
    have skip : (∀ e k, ps[j]? ≠ some (.op e k)) → Mendable env D (j :: r) w w0 F ps qs := fun hj => by
      obtain ⟨f, sch', a, b, c, d, g, h⟩ := ih w w0 hst F ps qs hlen hp hq fun i hi => by
        have := hD i hi
        rwa [HasChanged, Once.skip hj] at this
      refine ⟨f, sch', a, fun t h1 h2 => (by have := b t h1 h2; simp only [List.length_cons]; omega), c, d.skip hj, fun n => ?_, fun m hm => ?_⟩
      · cases n with
        | zero => exact ⟨0, by simpa using hn f⟩
        | succ n =>
          obtain ⟨m, hm⟩ := g n
          exact ⟨m, hm.skip hj⟩
      · obtain ⟨n, h1, h2, h3⟩ := h m hm
        exact ⟨n + 1, by simpa using h1, by simpa using h2, h3.skip hj⟩
    cases hj : ps[j]? with
    | none => exact skip (by simp [hj])
    | some p =>
      cases p with
      | op e k =>
        have hlt : j < ps.length := (List.getElem?_eq_some_iff.mp hj).1
        have next : ∀ (r1 : e.Resp), ∀ (i : Nat) p, (ps.set j (k r1))[i]? = some p → Stops (fun _ => True) p := by
          intro r1 i p h
          by_cases hij : j = i
          · subst hij
            rw [List.getElem?_set_self hlt] at h
            cases h
            exact (hp j _ hj r1).2
          · rw [List.getElem?_set_ne hij] at h
            exact hp i p h
        have hD' : ∀ i, D i → ¬ HasChanged env r (w.exec env e).2 (ps.set j (k (w.exec env e).1)) i :=
          fun i hi h => hD i hi (Once.cons hj h)
        -- the request is left out
        have leave : ∀ F' : Nat → Prop, (w.exec env e).2.store = w.store →
            (∀ i : Nat, ¬ D i → (ps.set j (k (w.exec env e).1))[i]? = qs[i]? ∨ (F' i ∨ EndedAt qs i) ∧ ∃ x, (ps.set j (k (w.exec env e).1))[i]? = some (Prog.err x)) →
            (∀ s i, F' i → F i ∨ HasStopped env (j :: s) w ps i) →
            (∀ s, D j ∨ HasFailed env (j :: s) w ps j) → Mendable env D (j :: r) w w0 F ps qs := fun F' h1 h2 h3 h4 => by
          obtain ⟨f, sch', a, b, c, d, g, h⟩ := ih (w.exec env e).2 w0 (hst.trans h1.symm) F' (ps.set j (k (w.exec env e).1)) qs (by simp [hlen]) (next _) h2 hD'
          rw [exec_t] at a b
          have lift : ∀ s s', Accord env (env.calm.at f) D F' s s' (w.exec env e).2 w0 (ps.set j (k (w.exec env e).1)) qs →
              Accord env (env.calm.at f) D F (j :: s) s' w w0 ps qs := fun s s' hs =>
            hs.step hj rfl (fun _ h => h) (h3 s) (fun o _ => .inr ((h4 s).imp_right .inr)) fun h => h.cons _
          refine ⟨f, sch', fun t ht => ⟨by have := (a t ht).1; omega, (a t ht).2⟩,
            fun t t1 t2 => (by have := b t t1 t2; simp only [List.length_cons]; omega), c, lift _ _ d, fun n => ?_, fun m hm => ?_⟩
          · cases n with
            | zero => exact ⟨0, by simpa using hn f⟩
            | succ n => obtain ⟨m, hm⟩ := g n; exact ⟨m, lift _ _ hm⟩
          · obtain ⟨n, h1, h2, h3⟩ := h m hm
            exact ⟨n + 1, by simpa using h1, by simpa using h2, lift _ _ h3⟩
        -- the request is kept
        have keep : ∀ F' : Nat → Prop, ¬ D j → qs[j]? = some (.op e k) → (w.exec env e).2.store = (w.exec env.calm e).2.store →
            (∀ i : Nat, ¬ D i → (ps.set j (k (w.exec env e).1))[i]? = (qs.set j (k (w.exec env.calm e).1))[i]? ∨
              (F' i ∨ EndedAt (qs.set j (k (w.exec env.calm e).1)) i) ∧ ∃ x, (ps.set j (k (w.exec env e).1))[i]? = some (Prog.err x)) →
            (∀ s i, F' i → F i ∨ HasStopped env (j :: s) w ps i) →
            (∀ s, (w.exec env e).1 = (w.exec env.calm e).1 ∨ HasFailed env (j :: s) w ps j) → Mendable env D (j :: r) w w0 F ps qs := fun F' hjD hqj h1 h2 h3 h4 => by
          obtain ⟨f', sch', a, b, c, d, g, h⟩ := ih (w.exec env e).2 ⟨(w.exec env.calm e).2.store, w0.t + 1⟩ h1.symm F' (ps.set j (k (w.exec env e).1))
            (qs.set j (k (w.exec env.calm e).1)) (by simp [hlen]) (next _) h2 hD'
          rw [exec_t] at a b
          obtain ⟨f, hf0, hf⟩ : ∃ f : Nat → Nat, f w0.t = w.t ∧ ∀ t, w0.t + 1 ≤ t → f t = f' t :=
            ⟨fun t => if t ≤ w0.t then w.t else f' t, by simp, fun t ht => if_neg (by omega)⟩
          have he := exec_shift env.calm hst hf0 e
          have ag := fun s' => sched_agree (env := env.calm.at f) (env' := env.calm.at f') s' ⟨(w.exec env.calm e).2.store, w0.t + 1⟩
            (qs.set j (k (w.exec env.calm e).1)) (fun t ht => by
              simp only at ht
              simp only [Env.at, hf t ht, and_self])
          have hs : ∀ s', sched (env.calm.at f) (j :: s') w0 qs =
              sched (env.calm.at f') s' ⟨(w.exec env.calm e).2.store, w0.t + 1⟩ (qs.set j (k (w.exec env.calm e).1)) := fun s' => by
            simp only [sched, hqj, he, (ag s').1]
          have hc : ∀ s', commits (env.calm.at f) (j :: s') w0 qs = (match (k (w.exec env.calm e).1).outcome with
              | some o => (j, o) :: commits (env.calm.at f') s' ⟨(w.exec env.calm e).2.store, w0.t + 1⟩ (qs.set j (k (w.exec env.calm e).1))
              | none => commits (env.calm.at f') s' ⟨(w.exec env.calm e).2.store, w0.t + 1⟩ (qs.set j (k (w.exec env.calm e).1))) := fun s' => by
            simp only [commits, hqj, he, (ag s').2]
            rfl
          have lift : ∀ s s', Accord env (env.calm.at f') D F' s s' (w.exec env e).2 ⟨(w.exec env.calm e).2.store, w0.t + 1⟩
              (ps.set j (k (w.exec env e).1)) (qs.set j (k (w.exec env.calm e).1)) →
              Accord env (env.calm.at f) D F (j :: s) (j :: s') w w0 ps qs := fun s s' hal => by
            refine hal.step hj (hs s') (fun x hx => ?_) (h3 s) (fun o ho => ?_) fun h => h.cons₂ _
            · rw [hc]
              cases (k (w.exec env.calm e).1).outcome with
              | none => exact hx
              | some o => exact List.mem_cons_of_mem _ hx
            · rcases h4 s with h | h
              · left
                rw [hc, ← h, ho]
                exact List.mem_cons_self
              · exact .inr (.inr (.inr h))
          refine ⟨f, j :: sch', fun t ht => ?_, fun t t1 t2 => ?_, ?_, lift _ _ d, fun n => ?_, fun m hm => ?_⟩
          · rw [hf (t + 1) (by omega)]
            rcases Nat.eq_or_lt_of_le ht with h | h
            · subst h
              rw [hf0]
              have := (a (w0.t + 1) (le_refl _)).1
              omega
            · rw [hf t h]
              have := a t h
              omega
          · simp only [List.length_cons] at t2 ⊢
            rcases Nat.eq_or_lt_of_le t1 with h | h
            · subst h; omega
            · rw [hf t h]
              have := b t h (by simp only; omega)
              omega
          · rintro i hi
            rcases List.mem_cons.mp hi with rfl | hi
            · exact hjD
            · exact c i hi
          · cases n with
            | zero => exact ⟨0, by simpa using hn f⟩
            | succ n => obtain ⟨m, hm⟩ := g n; exact ⟨m + 1, lift _ _ hm⟩
          · cases m with
            | zero => exact ⟨0, by simp, by simp, by simpa using hn f⟩
            | succ m =>
              obtain ⟨n, h1, h2, h3⟩ := h m (by simpa using hm)
              exact ⟨n + 1, by simpa using h1, by simpa using h2, lift _ _ h3⟩
        by_cases hjD : D j
        · refine leave F (exec_store_of_not_changing env w e fun ha => hD j hjD (Once.now r hj ha))
            (fun i hi => ?_) (fun _ _ h => .inl h) fun _ => .inl hjD
          have hij : j ≠ i := fun h => hi (h ▸ hjD)
          rw [List.getElem?_set_ne hij]
          exact hq i hi
        · have hqj : qs[j]? = some (.op e k) := by
            rcases hq j hjD with h | ⟨-, x, h⟩
            · rw [← h, hj]
            · rw [hj] at h; cases h
          rcases exec_calm env w e with h | ⟨hb, h⟩
          · refine keep F hjD hqj (by rw [h]) (fun i hi => ?_) (fun _ _ h => .inl h) fun _ => .inl (by rw [h])
            rw [h]
            by_cases hij : j = i
            · subst hij
              rw [List.getElem?_set_self hlt, List.getElem?_set_self (hlen ▸ hlt)]
              exact .inl rfl
            · rw [List.getElem?_set_ne hij, List.getElem?_set_ne hij]
              refine (hq i hi).imp_right (And.imp_left (Or.imp_right ?_))
              rintro ⟨q, o, h1, h2⟩
              exact ⟨q, o, by rw [List.getElem?_set_ne hij]; exact h1, h2⟩
          · obtain ⟨x, hx, -⟩ := (hp j _ hj _).1 hb.broken
            have hset : ∀ (F' : Nat → Prop) (q : List (Prog α)), (∀ i, i ≠ j → q[i]? = qs[i]?) → (∀ i, F i → F' i) → (F' j ∨ EndedAt q j) →
                ∀ i : Nat, ¬ D i → (ps.set j (k (w.exec env e).1))[i]? = q[i]? ∨
                (F' i ∨ EndedAt q i) ∧ ∃ e', (ps.set j (k (w.exec env e).1))[i]? = some (Prog.err e') := by
              intro F' q h hF hjq i hi
              by_cases hij : j = i
              · subst hij
                exact .inr ⟨hjq, x, by rw [List.getElem?_set_self hlt, hx]⟩
              · rw [List.getElem?_set_ne hij, h i (Ne.symm hij)]
                refine (hq i hi).imp_right (And.imp_left (Or.imp (hF i) ?_))
                rintro ⟨q', o, h1, h2⟩
                exact ⟨q', o, (h i (Ne.symm hij)).trans h1, h2⟩
            rcases h with ⟨hbef, h⟩ | h
            · refine leave (fun i => F i ∨ i = j) (by rw [h]) (hset _ qs (fun _ _ => rfl) (fun _ => .inl) (.inl (.inr rfl))) ?_ fun s => .inr (.now s hj hb)
              rintro s i (h | rfl)
              · exact .inl h
              · exact .inr (Once.now s hj ⟨hb, .inl hbef⟩)
            · refine keep (fun i => F i ∨ i = j ∧ (k (w.exec env.calm e).1).outcome = none) hjD hqj (by rw [h])
                (hset _ _ (fun i hi => List.getElem?_set_ne (Ne.symm hi)) (fun _ => .inl) ?_) ?_ fun s => .inr (.now s hj hb)
              · cases ho : (k (w.exec env.calm e).1).outcome with
                | none => exact .inl (.inr ⟨rfl, rfl⟩)
                | some o => exact .inr ⟨_, o, List.getElem?_set_self (hlen ▸ hlt), ho⟩
              · rintro s i (h | ⟨rfl, ho⟩)
                · exact .inl h
                · exact .inr (Once.now s hj ⟨hb, .inr ho⟩)
      | _ => exact skip (by simp [hj])

/-- Failures taken out: calls that failed are left out if they never changed anything. -/
theorem mend (env : Env) (sch : List Nat) (w : World) (ps : List (Prog α)) (hp : ∀ p ∈ ps, FailStop p) :
    Mendable env (fun i => HasFailed env sch w ps i ∧ ¬ HasChanged env sch w ps i) sch w w (fun _ => False) ps ps :=
  mend_aux env _ sch w w rfl (fun _ => False) ps ps rfl
    (fun j p hj => stops_of_failStop (hp p (List.mem_of_getElem? hj))) (fun _ _ => .inl rfl) fun i hi => hi.2

end
end D1
