import Verif.Proofs.Mend
import Verif.Props.DirConcurrent
import Verif.Props.IndexLinear
/-!
# Concurrent calls on an IO Provider that fails: C109

C69, C71 and C83 with an IO Provider that may fail at any request, before or after doing what it was asked to.
-/
namespace D1
open Spec Prog

/-- Call `i` has begun and not ended at moment `n`; or it has changed something, and then a request of it has failed that was not carried out, or
was not the last one: it is left half done. -/
def Unsettled {α : Type} (env : Env) (sch : List Nat) (w : World) (ps : List (Prog α)) (n i : Nat) : Prop :=
  InProgress env sch w ps n i ∨ HasStopped env (sch.take n) w ps i ∧ HasChanged env sch w ps i

section
variable {α : Type} {env : Env} {w : World} {ps : List (Prog α)}

/-- The execution without failures: what is in progress there is unsettled in the given one. -/
theorem mend_calls (env : Env) (sch : List Nat) (w : World) (ps : List (Prog α)) (hp : ∀ p ∈ ps, FailStop p) :
    ∃ f sch', (∀ t, w.t ≤ t → w.t ≤ f t ∧ f t < f (t + 1)) ∧ (∀ t, w.t ≤ t → t < w.t + sch'.length → f t < w.t + sch.length) ∧
      sch'.length ≤ sch.length ∧ (∀ j ∈ sch', j ∈ sch ∧ (HasFailed env sch w ps j → HasChanged env sch w ps j)) ∧
      (sched (env.calm.at f) sch' w ps).1.store = (sched env sch w ps).1.store ∧
      (∀ i, InProgress (env.calm.at f) sch' w ps sch'.length i → Unsettled env sch w ps sch.length i) ∧
      (∀ m, m < sch'.length → ∃ n, n < sch.length ∧ ∀ i, InProgress (env.calm.at f) sch' w ps m i → Unsettled env sch w ps n i) ∧
      ∀ n, ∃ m, (∀ j ∈ sch'.take m, j ∈ sch.take n) ∧
        ∀ j o, (j, o) ∈ commits env (sch.take n) w ps → (j, o) ∈ commits (env.calm.at f) (sch'.take m) w ps ∨ HasFailed env sch w ps j := by
  obtain ⟨f, sch', a, b, c, d, g, h⟩ := mend env sch w ps hp
  have c' : ∀ j ∈ sch', HasFailed env sch w ps j → HasChanged env sch w ps j := fun j hj hf => by
    by_contra h
    exact c j hj ⟨hf, h⟩
  have key : ∀ n m i, i ∈ sch' → i ∈ sch.take (n + 1) → InProgress (env.calm.at f) sch' w ps m i →
      Accord env (env.calm.at f) (fun i => HasFailed env sch w ps i ∧ ¬ HasChanged env sch w ps i) (fun _ => False) (sch.take n) (sch'.take m) w w ps ps →
      Unsettled env sch w ps n i := by
    rintro n m i hi hi' ⟨-, p, hp, ho⟩ hal
    rcases hal.progs i (c i hi) with h | ⟨q, o, h1, h2⟩ | h | h
    · exact .inl ⟨hi', p, h.trans hp, ho⟩
    · rw [hp] at h1; cases h1; rw [ho] at h2; cases h2
    · exact h.elim
    · exact .inr ⟨h, c' i hi (Once.whole h.failed)⟩
  refine ⟨f, sch', a, b, d.sub.length_le, fun j hj => ⟨d.sub.subset hj, c' j hj⟩, d.store, fun i hi => ?_, fun m hm => ?_, fun n => ?_⟩
  · have hm : i ∈ sch' := List.mem_of_mem_take hi.1
    refine key sch.length sch'.length i hm ?_ hi ?_
    · rw [List.take_of_length_le (by omega)]; exact d.sub.subset hm
    · rw [List.take_of_length_le (le_refl _), List.take_of_length_le (le_refl _)]; exact d
  · obtain ⟨n, h1, h2, h3⟩ := h m hm
    refine ⟨n, h1, fun i hi => key n m i (List.mem_of_mem_take hi.1) ?_ hi h3⟩
    have hi := hi.1
    rw [List.take_add_one, h2, List.mem_append] at hi
    rw [List.take_add_one, List.mem_append]
    exact hi.imp_left fun h => h3.sub.subset h
  · obtain ⟨m, hm⟩ := g n
    refine ⟨m, fun j hj => hm.sub.subset hj, fun j o hj => ?_⟩
    rcases hm.reports j o hj with h | h | h | h
    · exact .inl h
    · exact .inr h.1
    · exact h.elim
    · exact .inr (Once.whole h)

theorem LinRun.imp {σ : Type} {lin lin' : Nat → σ → Outcome α → σ → Prop} (h : ∀ j s o s', lin j s o s' → lin' j s o s')
    {l : List (Nat × Outcome α)} {a b : σ} (hl : LinRun lin l a b) : LinRun lin' l a b := by
  induction l generalizing a with
  | nil => exact hl
  | cons x r ih => exact Exists.imp (fun _ hx => ⟨h _ _ _ _ hx.1, ih hx.2⟩) hl

theorem lt_of_step {f : Nat → Nat} {lo : Nat} (hf : ∀ t, lo ≤ t → lo ≤ f t ∧ f t < f (t + 1)) {t t' : Nat} (h : lo ≤ t) (h' : t < t') : f t < f t' := by
  induction t' with
  | zero => omega
  | succ n ih =>
    rcases Nat.eq_or_lt_of_le (Nat.le_of_lt_succ h') with h1 | h1
    · subst h1; exact (hf t h).2
    · exact (ih h1).trans (hf n (by omega)).2

end

/-- C109 for objects: C69 with failures.  Any calls run concurrently on an IO Provider that may fail at any request, before or after it has done what
it was asked to; callers may crash, the object IDs drawn are new, and no two conflicting calls are ever unsettled at the same time.  Then there is an
order `l` of calls and their results such that
* the vault gives these results when the calls are made one after the other in this order;
* at any moment `n`, the calls that have ended so far without a failure are in the first part of it, with the results they reported, and the calls
  that have not begun are not;
* calls with a failure are in it only if they changed something;
* at the end the store represents the vault, except for objects that an unsettled call is to replace and those that one is to create. -/
theorem C109_objects {P : Prims} (L : P.Laws) {d : D1} (hd : ∀ t, FailStop (d.idProvider t)) {env : Env} {who : GoString → Option Identity → Prop}
    (hid : IdpTells d who) {v : Vault} {w : World} (hR : Rel P d w.store v) (calls : List Call) (sch : List Nat)
    (hfresh : FreshIds env w.store w.t (w.t + sch.length))
    (hno : ∀ n, n < sch.length → ∀ i j a b, i ≠ j → calls[i]? = some a → calls[j]? = some b →
      Unsettled env sch w (calls.map (callProg P d)) n i → Unsettled env sch w (calls.map (callProg P d)) n j → ¬ Conflict a b) :
    ∃ l v', LinRun (fun j v out v' => ∃ c, calls[j]? = some c ∧ VaultStep env who c v out v') l v v' ∧ (l.map Prod.fst).Nodup ∧
      (∀ j out, (j, out) ∈ l → j ∈ sch ∧
        (HasFailed env sch w (calls.map (callProg P d)) j → HasChanged env sch w (calls.map (callProg P d)) j)) ∧
      (∀ n, ∃ l1 l2, l = l1 ++ l2 ∧
        (∀ j out, (j, out) ∈ commits env (sch.take n) w (calls.map (callProg P d)) →
          (j, out) ∈ l1 ∨ HasFailed env sch w (calls.map (callProg P d)) j) ∧
        ∀ j out, (j, out) ∈ l1 → j ∈ sch.take n) ∧
      ∀ oid, (∀ j c, calls[j]? = some c → Unsettled env sch w (calls.map (callProg P d)) sch.length j →
          c.encrypts = false ∧ (c.onOid = some oid → c.replaces = false)) →
        match v' oid with
        | none => (sched env sch w (calls.map (callProg P d))).1.store oid.1 dtObject = none ∧
            (sched env sch w (calls.map (callProg P d))).1.store oid.1 dtAccess = none
        | some e => EntryAt P d (sched env sch w (calls.map (callProg P d))).1.store oid e := by
  obtain ⟨f, sch', a, b, hle, c, hst, hend, hmid, hrep⟩ := mend_calls env sch w (calls.map (callProg P d)) fun p hp => by
    obtain ⟨c, -, rfl⟩ := List.mem_map.mp hp
    exact fun _ _ _ _ hy hb => (stops_callProg (fun t => stops_of_failStop (hd t)) c).yields hy hb
  obtain ⟨l, v', h1, h2, h3, h4, h5⟩ := C69_linearizable L (env := env.calm.at f) (fun _ => rfl) hid hR calls sch' (fun t x t1 t2 hx => by
      obtain ⟨k1, k2⟩ := hfresh (f t) x (a t t1).1 (b t t1 t2) hx
      exact ⟨k1, fun t' x' t3 t4 hx' => k2 (f t') x' (lt_of_step a t1 t3) (b t' (by omega) t4) hx'⟩) fun m hm i j x y hij hx hy hi hj => by
    obtain ⟨n, hn, hp⟩ := hmid m hm
    exact hno n hn i j x y hij hx hy (hp i hi) (hp j hj)
  refine ⟨l, v', ?_, h2, fun j out hj => c j (h3 j out hj), fun n => ?_, fun oid ho => ?_⟩
  · refine LinRun.imp (fun j v out v' => ?_) h1
    rintro ⟨c, hc, h⟩
    refine ⟨c, hc, h.imp_right ?_⟩
    rintro ⟨e1, e2, t, n, e3⟩
    exact ⟨e1, e2, f t, n, e3⟩
  · obtain ⟨m, hm1, hm2⟩ := hrep n
    obtain ⟨l1, l2, e, k1, k2⟩ := h4 m
    exact ⟨l1, l2, e, fun j out hj => (hm2 j out hj).imp_left (k1 j out), fun j out hj => hm1 j (k2 j out hj)⟩
  · have := h5 oid fun j c hc hi => ho j c hc (hend j hi)
    rw [hst] at this
    exact this

/-- C109 for Standalone: C71 with failures. -/
theorem C109_directory {P : Prims} (L : P.Laws) {s : Standalone} {env : Env} (hr : RandOk env) {v : Dir} {w : World}
    (hR : DirRel P s w.store v) (calls : List DirCall) (sch : List Nat) (hfresh : FreshNames env v w.t (w.t + sch.length))
    (hno : ∀ n, n < sch.length → ∀ i j a b, i ≠ j → calls[i]? = some a → calls[j]? = some b →
      Unsettled env sch w (calls.map (dirProg P s)) n i → Unsettled env sch w (calls.map (dirProg P s)) n j → ¬ DirConflict P s a b) :
    ∃ l v', LinRun (fun j v out v' => ∃ c, calls[j]? = some c ∧ DirStep P s env w.t (w.t + sch.length) c v out v') l v v' ∧
      (l.map Prod.fst).Nodup ∧
      (∀ j out, (j, out) ∈ l → j ∈ sch ∧ (HasFailed env sch w (calls.map (dirProg P s)) j → HasChanged env sch w (calls.map (dirProg P s)) j)) ∧
      (∀ n, ∃ l1 l2, l = l1 ++ l2 ∧
        (∀ j out, (j, out) ∈ commits env (sch.take n) w (calls.map (dirProg P s)) → (j, out) ∈ l1 ∨ HasFailed env sch w (calls.map (dirProg P s)) j) ∧
        ∀ j out, (j, out) ∈ l1 → j ∈ sch.take n) ∧
      (∀ uid, UserRel P s (sched env sch w (calls.map (dirProg P s))).1.store uid (v'.users uid)) ∧
      (∀ gid sc, v'.groups gid = some sc → GroupAt P s (sched env sch w (calls.map (dirProg P s))).1.store gid sc) ∧
      ((∀ j t sc, calls[j]? = some (.newGroup t sc) → ¬ Unsettled env sch w (calls.map (dirProg P s)) sch.length j) →
        DirRel P s (sched env sch w (calls.map (dirProg P s))).1.store v') := by
  obtain ⟨f, sch', a, b, hle, c, hst, hend, hmid, hrep⟩ := mend_calls env sch w (calls.map (dirProg P s)) fun p hp => by
    obtain ⟨c, -, rfl⟩ := List.mem_map.mp hp
    exact fun _ _ _ _ hy hb => (stops_dirProg c).yields hy hb
  obtain ⟨l, v', h1, h2, h3, h4, h5, h6, h7⟩ := C71_linearizable L (env := env.calm.at f) (fun _ => rfl) (fun t n => hr (f t) n) hR calls sch'
    (fun t x t1 t2 hx => by
      obtain ⟨k1, k2, k3, k4⟩ := hfresh (f t) x (a t t1).1 (b t t1 t2) hx
      exact ⟨k1, k2, k3, fun t' x' t3 t4 hx' => k4 (f t') x' (lt_of_step a t1 t3) (b t' (by omega) t4) hx'⟩) fun m hm i j x y hij hx hy hi hj => by
    obtain ⟨n, hn, hp⟩ := hmid m hm
    exact hno n hn i j x y hij hx hy (hp i hi) (hp j hj)
  rw [hst] at h5 h6 h7
  refine ⟨l, v', ?_, h2, fun j out hj => c j (h3 j out hj), fun n => ?_, h5, h6, fun hg => h7 fun j t sc hc hi => hg j t sc hc (hend j hi)⟩
  · refine LinRun.imp (fun j v out v' => ?_) h1
    rintro ⟨c, hc, inp, ⟨t, t1, t2, e1⟩, ⟨u, u1, u2, e2⟩, ⟨p, q, p1, p2, q1, q2, e3, e4⟩, h⟩
    exact ⟨c, hc, inp, ⟨f t, (a t t1).1, b t t1 t2, e1⟩, ⟨f u, (a u u1).1, b u u1 u2, e2⟩,
      ⟨f p, f q, (a p p1).1, b p p1 p2, (a q q1).1, b q q1 q2, e3, e4⟩, h⟩
  · obtain ⟨m, hm1, hm2⟩ := hrep n
    obtain ⟨l1, l2, e, k1, k2⟩ := h4 m
    exact ⟨l1, l2, e, fun j out hj => (hm2 j out hj).imp_left (k1 j out), fun j out hj => hm1 j (k2 j out hj)⟩

/-- C109 for the index: C83 with failures. -/
theorem C109_index {P : Prims} (L : P.Laws) {i : SecureIndex} (hk : i.indexKey.length = 32) (hi : ∀ t, FailStop (i.idProvider t)) {env : Env}
    {who : GoString → Option Identity → Prop} {K : List GoString} {N : Nat} (A : Prop) (hr : RandOk env) (hid : IxTells i who) (hN : N < 2 ^ 64)
    (ha : Apart P i K N) {fuel : Nat} (hfuel : N < fuel) (calls : List IxCall) (hK : ∀ c ∈ calls, c.keyword ∈ K) {x : Index} {a : Nat} {w : World}
    (h : IxRel P i K N w.store x a) (sch : List Nat) (hlen : a + sch.length ≤ N)
    (hno : ∀ n, n < sch.length → ∀ b j c d, b ≠ j → calls[b]? = some c → calls[j]? = some d →
      Unsettled env sch w (calls.map (ixProg P i fuel)) n b → Unsettled env sch w (calls.map (ixProg P i fuel)) n j → ¬ IxConflict A c d) :
    ∃ l x', LinRun (fun j x o x' => ∃ c, calls[j]? = some c ∧ IxMove A who c x o x') l x x' ∧ (l.map Prod.fst).Nodup ∧
      (∀ j o, (j, o) ∈ l → j ∈ sch ∧ (HasFailed env sch w (calls.map (ixProg P i fuel)) j → HasChanged env sch w (calls.map (ixProg P i fuel)) j)) ∧
      (∀ n, ∃ l1 l2, l = l1 ++ l2 ∧
        (∀ j o, (j, o) ∈ commits env (sch.take n) w (calls.map (ixProg P i fuel)) → (j, o) ∈ l1 ∨ HasFailed env sch w (calls.map (ixProg P i fuel)) j) ∧
        ∀ j o, (j, o) ∈ l1 → j ∈ sch.take n) ∧
      ∀ kw ∈ K, (∀ j c, calls[j]? = some c → Unsettled env sch w (calls.map (ixProg P i fuel)) sch.length j → c.isDelete = true → c.keyword ≠ kw) →
        IxRel P i [kw] N (sched env sch w (calls.map (ixProg P i fuel))).1.store x' N := by
  obtain ⟨f, sch', hf, b, hle, c, hst, hend, hmid, hrep⟩ := mend_calls env sch w (calls.map (ixProg P i fuel)) fun p hp => by
    obtain ⟨c, -, rfl⟩ := List.mem_map.mp hp
    exact fun _ _ _ _ hy hb => (stops_ixProg (fun t => stops_of_failStop (hi t)) fuel c).yields hy hb
  obtain ⟨l, x', h1, h2, h3, h4, h5⟩ := C83_linearizable L hk A (env := env.calm.at f) (fun _ => rfl) (fun t n => hr (f t) n) hid hN ha hfuel calls hK h sch'
    (by omega) fun m hm i j x y hij hx hy hi hj => by
      obtain ⟨n, hn, hp⟩ := hmid m hm
      exact hno n hn i j x y hij hx hy (hp i hi) (hp j hj)
  refine ⟨l, x', h1, h2, fun j out hj => c j (h3 j out hj), fun n => ?_, fun kw hkw ho => ?_⟩
  · obtain ⟨m, hm1, hm2⟩ := hrep n
    obtain ⟨l1, l2, e, k1, k2⟩ := h4 m
    exact ⟨l1, l2, e, fun j out hj => (hm2 j out hj).imp_left (k1 j out), fun j out hj => hm1 j (k2 j out hj)⟩
  · have := h5 kw hkw fun j c hc hi => ho j c hc (hend j hi)
    rw [hst] at this
    exact this

/-! ## A concrete case -/

instance (ev : Event) : Decidable (Failed ev) := by
  obtain ⟨e, r⟩ := ev
  cases e with
  | put | update | delete =>
    exact match r with
      | .ok _ => isFalse nofun
      | .error .failure => isTrue rfl
      | .error .alreadyExists | .error .notFound => isFalse nofun
  | get =>
    exact match r with
      | .ok _ => isFalse nofun
      | .error .failure => isTrue rfl
      | .error .alreadyExists | .error .notFound => isFalse nofun
  | _ => exact isFalse id

instance (s s' : Store) (e : Eff) : Decidable (Changing s s' e) := by
  cases e <;> unfold Changing <;> infer_instance

instance decOnce {α : Type} (env : Env) (X : World → (e : Eff) → (e.Resp → Prog α) → Prop) [∀ w e k, Decidable (X w e k)] :
    (sch : List Nat) → (w : World) → (ps : List (Prog α)) → (i : Nat) → Decidable (Once env X sch w ps i)
  | [], _, _, _ => isFalse id
  | j :: r, w, ps, i => by
    unfold Once
    split
    · rename_i e k _
      have := decOnce env X r (w.exec env e).2 (ps.set j (k (w.exec env e).1)) i
      infer_instance
    · exact decOnce env X r w ps i

instance {α : Type} (env : Env) (w : World) (e : Eff) (k : e.Resp → Prog α) : Decidable ((k (w.exec env.calm e).1).outcome = none) :=
  decidable_of_iff ((k (w.exec env.calm e).1).outcome.isNone = true) (by simp)

instance {α : Type} (env : Env) (sch : List Nat) (w : World) (ps : List (Prog α)) (i : Nat) : Decidable (HasFailed env sch w ps i) := by
  unfold HasFailed; infer_instance

instance {α : Type} (env : Env) (sch : List Nat) (w : World) (ps : List (Prog α)) (i : Nat) : Decidable (HasChanged env sch w ps i) := by
  unfold HasChanged; infer_instance

instance {α : Type} (env : Env) (sch : List Nat) (w : World) (ps : List (Prog α)) (i : Nat) : Decidable (HasStopped env sch w ps i) := by
  unfold HasStopped; infer_instance

instance {α : Type} (env : Env) (sch : List Nat) (w : World) (ps : List (Prog α)) (n i : Nat) : Decidable (Unsettled env sch w ps n i) := by
  unfold Unsettled; infer_instance

/-- The toy environment with four failures of the IO Provider. -/
def toyShaky : Env := { toyEnv with fault := fun t => match t with | 5 | 12 | 19 => .before | 8 => .after | _ => .none }

/-- `toyBusyCalls`, and `Update` once more. -/
def toyRetryCalls : List Call := toyBusyCalls ++ [.update [7] nilOid ⟨some [3], none⟩]

def toyRetrySch : List Nat := [2, 0, 1, 2, 1, 0, 1, 2, 1, 2, 2, 2, 2, 3, 3, 3, 5, 3, 3, 3, 6, 6, 6, 6, 6, 6, 6, 4, 4]

def toyRetryProgs : List (Prog Res) := toyRetryCalls.map (callProg toyPrims toyD1)

/-- The calls that are unsettled at each moment. -/
def toyRetryTable : List (List Nat) := [[2], [0, 2], [0, 1, 2], [0, 1, 2], [0, 1, 2], [0, 1, 2], [1, 2], [1, 2], [1, 2], [2], [2], [2], [2],
  [2, 3], [2, 3], [2, 3], [2, 3, 5], [2, 3], [2, 3], [2, 3], [2, 6], [2, 6], [2, 6], [2, 6], [2, 6], [2, 6], [2, 6], [2, 4], [2, 4]]

theorem toyRetry_facts : (∀ n < 29, ∀ i : Fin 7, Unsettled toyShaky toyRetrySch toyShared toyRetryProgs n i → i.1 ∈ toyRetryTable.getD n []) ∧
    ((commits toyShaky toyRetrySch toyShared toyRetryProgs).map fun p => (p.1, succeeded p.2)) =
      [(0, false), (1, false), (2, false), (5, true), (3, false), (6, true), (4, true)] ∧
    (∀ i < 7, HasFailed toyShaky toyRetrySch toyShared toyRetryProgs i ↔ i < 4) ∧
    (∀ i < 7, Unsettled toyShaky toyRetrySch toyShared toyRetryProgs toyRetrySch.length i ↔ i = 2) := by
  decide +kernel

theorem toyRetry_table : ∀ n : Fin 29, ∀ i j : Fin 7, i ≠ j → i.1 ∈ toyRetryTable.getD n [] → j.1 ∈ toyRetryTable.getD n [] →
    ¬ Conflict (toyRetryCalls[i.1]'i.2) (toyRetryCalls[j.1]'j.2) := by decide +kernel

theorem toyD1_failStop (t : GoString) : FailStop (toyD1.idProvider t) := by
  have : Stops (fun _ => True) (toyD1.idProvider t) := by
    simp only [toyD1]
    split <;> trivial
  exact fun _ _ _ _ h hb => this.yields h hb

/-- A reader fails; the one write of `AddGroupsToAccess` fails though it is carried out; the second write of `Encrypt` fails, so that this call is left
half done; the first write of `Update` fails, and a second `Update` succeeds.  Then the new member decrypts. -/
example : (∀ t, FailStop (toyD1.idProvider t)) ∧ IdpTells toyD1 toyTells ∧ Rel toyPrims toyD1 toyShared.store toyVault ∧
    FreshIds toyShaky toyShared.store toyShared.t (toyShared.t + toyRetrySch.length) ∧
    (∀ n, n < toyRetrySch.length → ∀ i j a b, i ≠ j → toyRetryCalls[i]? = some a → toyRetryCalls[j]? = some b →
      Unsettled toyShaky toyRetrySch toyShared toyRetryProgs n i → Unsettled toyShaky toyRetrySch toyShared toyRetryProgs n j → ¬ Conflict a b) ∧
    ((commits toyShaky toyRetrySch toyShared toyRetryProgs).map fun p => (p.1, succeeded p.2)) =
      [(0, false), (1, false), (2, false), (5, true), (3, false), (6, true), (4, true)] ∧
    (∀ i < 7, HasFailed toyShaky toyRetrySch toyShared toyRetryProgs i ↔ i < 4) ∧
    (∀ i < 7, Unsettled toyShaky toyRetrySch toyShared toyRetryProgs toyRetrySch.length i ↔ i = 2) := by
  refine ⟨toyD1_failStop, toyD1_tells, toyVault_rel, ?_, ?_, toyRetry_facts.2⟩
  · intro t b h1 h2 h3
    have h2' : t < toyShared.t + 100 := Nat.lt_trans h2 (by decide)
    obtain ⟨k1, k2⟩ := toyShared_freshIds t b h1 h2' h3
    exact ⟨k1, fun t' b' h4 h5 => k2 t' b' h4 (Nat.lt_trans h5 (by decide))⟩
  · intro n hn i j a b hij ha hb h1 h2 hc
    obtain ⟨hi, rfl⟩ := List.getElem?_eq_some_iff.mp ha
    obtain ⟨hj, rfl⟩ := List.getElem?_eq_some_iff.mp hb
    have k1 := toyRetry_facts.1 n hn ⟨i, hi⟩ h1
    have k2 := toyRetry_facts.1 n hn ⟨j, hj⟩ h2
    exact toyRetry_table ⟨n, hn⟩ ⟨i, hi⟩ ⟨j, hj⟩ (fun h => hij (congrArg Fin.val h)) k1 k2 hc

/-! The same for the index: the write of `Add` fails though it is carried out, the second `Add` finds its node; the first write of `Delete` fails, and a
`Search` fails.  Then a `Search` finds both identifiers. -/

def toyShakyIx : Env := { toyEnv with fault := fun t => match t with | 21 | 23 => .before | 19 => .after | _ => .none }

def toyAgainSch : List Nat := toyMixSch ++ [4]

def toyMixProgs : List (Prog IxRes) := toyMixCalls.map (ixProg toyPrims toyIndex 31)

theorem toyMix_facts : (∀ b j : Fin 5, b ≠ j → IxConflict True (toyMixCalls[b.1]'b.2) (toyMixCalls[j.1]'j.2) → ∀ n < 21,
      ¬ (Unsettled toyShakyIx toyAgainSch toyPair toyMixProgs n b ∧ Unsettled toyShakyIx toyAgainSch toyPair toyMixProgs n j)) ∧
    commits toyShakyIx toyAgainSch toyPair toyMixProgs =
      [(1, .err (.io .failure)), (2, .err .nodeAlreadyExists), (0, .err (.io .failure)), (3, .err (.io .failure)), (4, .ok (.ids [[97], [98]]))] ∧
    (∀ i < 5, HasFailed toyShakyIx toyAgainSch toyPair toyMixProgs i ↔ i = 0 ∨ i = 1 ∨ i = 3) := by decide +kernel

example : toyIndex.indexKey.length = 32 ∧ (∀ t, FailStop (toyIndex.idProvider t)) ∧ RandOk toyShakyIx ∧ IxTells toyIndex toyIxTells ∧
    Apart toyPrims toyIndex [[107], [108]] 30 ∧ (∀ c ∈ toyMixCalls, c.keyword ∈ [[107], [108]]) ∧
    IxRel toyPrims toyIndex [[107], [108]] 30 toyPair.store (emptyIndex.set [107] [[97], [98]]) 2 ∧ 2 + toyAgainSch.length ≤ 30 ∧
    (∀ n, n < toyAgainSch.length → ∀ b j c d, b ≠ j → toyMixCalls[b]? = some c → toyMixCalls[j]? = some d →
      Unsettled toyShakyIx toyAgainSch toyPair toyMixProgs n b → Unsettled toyShakyIx toyAgainSch toyPair toyMixProgs n j → ¬ IxConflict True c d) := by
  refine ⟨rfl, fun t => ?_, toyEnv_randOk, toyIndex_tells, toyIndex_apart30, by decide, toyPair_rel, by decide, ?_⟩
  · have : Stops (fun _ => True) (toyIndex.idProvider t) := by
      simp only [toyIndex]
      split <;> trivial
    exact fun _ _ _ _ h hb => this.yields h hb
  · intro n hn b j c d hbj hb hj h1 h2 hc
    obtain ⟨hb', rfl⟩ := List.getElem?_eq_some_iff.mp hb
    obtain ⟨hj', rfl⟩ := List.getElem?_eq_some_iff.mp hj
    exact toyMix_facts.1 ⟨b, hb'⟩ ⟨j, hj'⟩ (fun h => hbj (congrArg Fin.val h)) hc n hn ⟨h1, h2⟩

/-! The same for Standalone: `GetIdentity` fails, one change of a password fails though it is carried out, another one and `NewUser` fail and are not
carried out; then a member is removed. -/

def toyShakyDir : Env := { toyEnv with fault := fun t => match t with | 7 | 22 | 23 => .before | 21 => .after | _ => .none }

def toyDirProgs : List (Prog DirRes) := toyDirCalls.map (dirProg toyPrims toyStandalone)

theorem toyShakyDir_facts : (∀ i : Fin 5, ∀ n < 32, ¬ (Unsettled toyShakyDir toyDirSch toyDir toyDirProgs n i ∧
      Unsettled toyShakyDir toyDirSch toyDir toyDirProgs n 5)) ∧
    ((commits toyShakyDir toyDirSch toyDir toyDirProgs).map fun p => (p.1, succeeded p.2)) =
      [(2, false), (4, true), (0, false), (1, false), (3, false), (5, true)] ∧
    (∀ i < 6, HasFailed toyShakyDir toyDirSch toyDir toyDirProgs i ↔ i < 4) := by decide +kernel

example : RandOk toyShakyDir ∧ DirRel toyPrims toyStandalone toyDir.store toyDirectory ∧
    FreshNames toyShakyDir toyDirectory toyDir.t (toyDir.t + toyDirSch.length) ∧
    (∀ n, n < toyDirSch.length → ∀ i j a b, i ≠ j → toyDirCalls[i]? = some a → toyDirCalls[j]? = some b →
      Unsettled toyShakyDir toyDirSch toyDir toyDirProgs n i → Unsettled toyShakyDir toyDirSch toyDir toyDirProgs n j →
      ¬ DirConflict toyPrims toyStandalone a b) := by
  refine ⟨toyEnv_randOk, toyDir_rel, toyDir_fresh, ?_⟩
  intro n hn i j a b hij ha hb h1 h2
  have hi : i < 6 := (List.getElem?_eq_some_iff.mp ha).1
  have hj : j < 6 := (List.getElem?_eq_some_iff.mp hb).1
  by_cases hi5 : i = 5
  · subst hi5
    exact absurd ⟨h2, h1⟩ (toyShakyDir_facts.1 ⟨j, by omega⟩ n hn)
  by_cases hj5 : j = 5
  · subst hj5
    exact absurd ⟨h1, h2⟩ (toyShakyDir_facts.1 ⟨i, by omega⟩ n hn)
  have hi' : i = 0 ∨ i = 1 ∨ i = 2 ∨ i = 3 ∨ i = 4 := by omega
  have hj' : j = 0 ∨ j = 1 ∨ j = 2 ∨ j = 3 ∨ j = 4 := by omega
  rintro ⟨uid, h⟩
  rcases hi' with rfl | rfl | rfl | rfl | rfl <;> rcases hj' with rfl | rfl | rfl | rfl | rfl <;> cases ha <;> cases hb <;>
    simp [DirWrites, DirUses] at h hij
  all_goals (obtain ⟨rfl, h⟩ := h; cases h)

end D1
