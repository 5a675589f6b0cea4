import Verif.Proofs.Pays
import Verif.Props.Moments
import Verif.Props.IndexLinear
import Verif.Props.IndexLeak
import Verif.Props.Replay
import Verif.Props.Story
import Verif.Props.DirConcurrent
/-!
# How many requests a call makes: C110

Every call ends after a number of requests that is known beforehand, whatever the answers are and whatever other calls do.
-/
namespace D1
open Spec Prog

/-- What the requests of an execution cost together. -/
def total (c : Price) (tr : List Event) : Nat := (tr.map fun ev => c.of ev.1).sum

/-- Every request costs 1. -/
def Price.one : Price := ⟨1, 1, 1, 1⟩

section
variable {α : Type} {c : Price} {g : Event → Nat}

theorem Pays.total {p : Prog α} {n : Nat} {Q : α → Nat} (hp : Pays c g p n Q) {tr : List Event} {o : Outcome α} (h : Yields p tr o) :
    total c tr ≤ n + (tr.map g).sum := by
  induction h generalizing n with
  | op e k r tr out h ih =>
    have h1 := hp.1
    have h2 := ih (hp.2 r)
    simp only [D1.total, List.map_cons, List.sum_cons] at h2 ⊢
    omega
  | _ => exact Nat.zero_le _

theorem total_one (tr : List Event) : total .one tr = tr.length := by
  induction tr with
  | nil => rfl
  | cons ev r ih =>
    have : Price.one.of ev.1 = 1 := by cases ev.1 <;> rfl
    rw [total, List.map_cons, List.sum_cons, this, ← total, ih, List.length_cons, Nat.add_comm]

/-- Every program can be run to its end. -/
theorem exists_yields (p : Prog α) : ∃ tr o, Yields p tr o := by
  obtain ⟨tr, h⟩ := yields_of_run (⟨fun _ _ => none, fun _ => ⟨0, 0⟩, fun _ => .none⟩ : Env) p ⟨fun _ _ => none, 0⟩
  exact ⟨tr, _, h⟩

theorem pays_of_yields {p : Prog α} {n : Nat} (h : ∀ tr o, Yields p tr o → total c tr ≤ n) : Pays c (fun _ => 0) p n fun _ => 0 := by
  induction p generalizing n with
  | op e k ih =>
    have key : ∀ r tr o, Yields (k r) tr o → c.of e + total c tr ≤ n := fun r tr o hy => by
      have := h _ _ (.op e k r tr o hy)
      simpa only [D1.total, List.map_cons, List.sum_cons] using this
    have he : ∀ r, c.of e ≤ n := fun r => by
      obtain ⟨tr, o, hy⟩ := exists_yields (k r)
      have := key r tr o hy
      omega
    refine ⟨he ?_, fun r => ih r fun tr o hy => ?_⟩
    · exact ((World.mk (fun _ _ => none) 0).exec ⟨fun _ _ => none, fun _ => ⟨0, 0⟩, fun _ => .none⟩ e).1
    · have := key r tr o hy
      omega
  | ret a => exact Nat.zero_le _
  | _ => trivial

theorem sched_ended (env : Env) (sch : List Nat) (w : World) (ps : List (Prog α)) {i : Nat} {p : Prog α} {o : Outcome α} (hi : ps[i]? = some p)
    (ho : p.outcome = some o) : (sched env sch w ps).2[i]? = some p := by
  induction sch generalizing w ps with
  | nil => exact hi
  | cons j r ih =>
    simp only [sched]
    split
    · rename_i e k hj
      refine ih _ _ ?_
      rw [List.getElem?_set_ne]
      · exact hi
      · rintro rfl
        rw [hj] at hi
        obtain rfl := Option.some.inj hi
        cases ho
    · exact ih _ _ hi

theorem sum_none {β : Type} (l : List β) : (l.map fun _ => 0).sum = 0 := by
  induction l with
  | nil => rfl
  | cons x r ih => rw [List.map_cons, List.sum_cons, ih]

theorem sum_times (f : Event → Nat) (n : Nat) (tr : List Event) : (tr.map fun ev => n * f ev).sum = n * (tr.map f).sum := by
  induction tr with
  | nil => rfl
  | cons x r ih => rw [List.map_cons, List.sum_cons, List.map_cons, List.sum_cons, ih, Nat.mul_add]

/-- The turns of a call that is still in progress. -/
theorem Pays.turns (env : Env) {i : Nat} (sch : List Nat) (k : Nat) (w : World) (ps : List (Prog α)) {p q : Prog α} {n : Nat} {Q : α → Nat}
    (hp : Pays .one g p n Q) (hi : ps[i]? = some p) (hq : (sched env sch w ps).2[i]? = some q) (ho : q.outcome = none) :
    sch.count i < n + ((momentsFrom env k sch w ps i).map fun m => g m.2).sum := by
  have one : ∀ e, Price.one.of e = 1 := fun e => by cases e <;> rfl
  induction sch generalizing k w ps p n with
  | nil =>
    simp only [sched] at hq
    rw [hi] at hq
    obtain rfl := Option.some.inj hq
    cases p with
    | op e k =>
      have := hp.1
      rw [one] at this
      simp only [List.count_nil]
      omega
    | _ => cases ho
  | cons j r ih =>
    have skip : (∀ e k, ps[j]? ≠ some (.op e k)) → (j :: r).count i < n + ((momentsFrom env k (j :: r) w ps i).map fun m => g m.2).sum := fun hj => by
      have h1 : sched env (j :: r) w ps = sched env r w ps := by simp only [sched]
      have h2 : momentsFrom env k (j :: r) w ps i = momentsFrom env (k + 1) r w ps i := by simp only [momentsFrom]
      rw [h1] at hq
      rw [h2]
      have := ih (k + 1) w ps hp hi hq
      by_cases hij : j = i
      · subst hij
        have hpo : ∃ o, p.outcome = some o := by
          cases p with
          | op e k => exact absurd hi (hj e k)
          | _ => exact ⟨_, rfl⟩
        obtain ⟨o, hpo⟩ := hpo
        have := sched_ended env r w ps hi hpo
        rw [hq] at this
        obtain rfl := Option.some.inj this
        rw [ho] at hpo
        cases hpo
      · rw [List.count_cons_of_ne hij]
        exact this
    cases hj : ps[j]? with
    | none => exact skip (by simp [hj])
    | some x =>
      cases x with
      | op e kk =>
        have hlt : j < ps.length := (List.getElem?_eq_some_iff.mp hj).1
        have h1 : sched env (j :: r) w ps = sched env r (w.exec env e).2 (ps.set j (kk (w.exec env e).1)) := by simp only [sched, hj]
        rw [h1] at hq
        by_cases hij : j = i
        · subst hij
          rw [hj] at hi
          obtain rfl := Option.some.inj hi
          have h2 := ih (k + 1) (w.exec env e).2 (ps.set j (kk (w.exec env e).1)) (hp.2 _) (List.getElem?_set_self hlt) hq
          have h3 := hp.1
          rw [one] at h2 h3
          simp only [momentsFrom, hj, if_true, List.map_cons, List.sum_cons, List.count_cons_self]
          omega
        · have h2 := ih (k + 1) (w.exec env e).2 (ps.set j (kk (w.exec env e).1)) hp ((List.getElem?_set_ne hij).trans hi) hq
          simp only [momentsFrom, hj, if_neg hij]
          rw [List.count_cons_of_ne hij]
          exact h2
      | _ => exact skip (by simp [hj])

/-- A call that has had as many turns as it pays for has ended. -/
theorem Pays.ends {p : Prog α} {n : Nat} {Q : α → Nat} (hp : Pays .one g p n Q) (env : Env) (sch : List Nat) (w : World) (ps : List (Prog α)) {i : Nat}
    (hi : ps[i]? = some p) (h : n + ((momentsFrom env 0 sch w ps i).map fun m => g m.2).sum ≤ sch.count i) :
    ∃ q o, (sched env sch w ps).2[i]? = some q ∧ q.outcome = some o := by
  obtain ⟨q, hq⟩ : ∃ q, (sched env sch w ps).2[i]? = some q := by
    have : i < (sched env sch w ps).2.length := by rw [sched_length]; exact (List.getElem?_eq_some_iff.mp hi).1
    exact ⟨_, List.getElem?_eq_getElem this⟩
  cases ho : q.outcome with
  | some o => exact ⟨q, o, hq, ho⟩
  | none =>
    have := hp.turns env sch 0 w ps hi hq ho
    omega

end

section
variable {P : Prims} {d : D1} {s : Standalone} {i : SecureIndex} (c : Price) {m : Nat}

/-- C110 for objects.  If a call of the Identity Provider costs at most `m`, a call of D1 costs at most `m + callCost c x`: for example, `Encrypt` makes at
most five draws of random bytes and two writes, and `Decrypt` two reads.  Whatever the answers of the IO Provider, the random source and the clock are. -/
theorem C110_objects (hd : ∀ t tr o, Yields (d.idProvider t) tr o → total c tr ≤ m) (x : Call) {tr : List Event} {o : Outcome Res}
    (h : Yields (callProg P d x) tr o) : total c tr ≤ m + callCost c x := by
  have := (pays_callProg (g := fun _ => 0) (P := P) (fun t => pays_of_yields (hd t)) x).total h
  rwa [sum_none] at this

/-- C110 for objects when Standalone is the Identity Provider: one more reading of the clock, one read for the user and one for each of its groups. -/
theorem C110_with_standalone (hd : ∀ t, d.idProvider t = s.getIdentity P t) (x : Call) {tr : List Event} {o : Outcome Res}
    (h : Yields (callProg P d x) tr o) : total c tr ≤ c.clock + c.read + c.read * (tr.map (groupsRead P s)).sum + callCost c x := by
  have := (pays_callProg (c := c) (g := fun ev => c.read * groupsRead P s ev) (P := P)
    (fun t => by rw [hd]; exact .getIdentity (fun _ => Nat.le_refl _) t) x).total h
  rw [sum_times] at this
  omega

/-- C110 for Standalone: a call costs at most `dirCost c x`, and one read for each group in a user record that it read. -/
theorem C110_directory (x : DirCall) {tr : List Event} {o : Outcome DirRes} (h : Yields (dirProg P s x) tr o) :
    total c tr ≤ dirCost c x + c.read * (tr.map (groupsRead P s)).sum := by
  have := (pays_dirProg (c := c) (g := fun ev => c.read * groupsRead P s ev) (fun _ => Nat.le_refl _) x).total h
  rwa [sum_times] at this

/-- C110 under concurrency: whatever other calls do, whatever is stored and whatever fails, a call of D1 that has had this many turns has ended. -/
theorem C110_wait_free (hd : ∀ t tr o, Yields (d.idProvider t) tr o → tr.length ≤ m) (env : Env) (sch : List Nat) (w : World) (ps : List (Prog Res))
    {j : Nat} {x : Call} (hj : ps[j]? = some (callProg P d x)) (h : m + callCost .one x ≤ sch.count j) :
    ∃ q o, (sched env sch w ps).2[j]? = some q ∧ q.outcome = some o := by
  refine (pays_callProg (c := .one) (g := fun _ => 0) (P := P) (fun t => pays_of_yields fun tr o hy => by rw [total_one]; exact hd t tr o hy) x).ends env sch w ps hj ?_
  rw [sum_none]
  exact h

/-- The same for Standalone: it takes one more turn for each group in a user record that it reads. -/
theorem C110_directory_wait_free (env : Env) (sch : List Nat) (w : World) (ps : List (Prog DirRes)) {j : Nat} {x : DirCall}
    (hj : ps[j]? = some (dirProg P s x))
    (h : dirCost .one x + ((momentsFrom env 0 sch w ps j).map fun m => groupsRead P s m.2).sum ≤ sch.count j) :
    ∃ q o, (sched env sch w ps).2[j]? = some q ∧ q.outcome = some o :=
  (pays_dirProg (c := .one) (g := groupsRead P s) (fun ev => by rw [show Price.one.read = 1 from rfl]; omega) x).ends env sch w ps hj h

/-- C110 for the index: a call that passes no more than `n` nodes costs at most `m + ixCost c n x`. -/
theorem C110_index (hi : ∀ t tr o, Yields (i.idProvider t) tr o → total c tr ≤ m) (n : Nat) (x : IxCall) {tr : List Event} {o : Outcome IxRes}
    (h : Yields (ixProg P i n x) tr o) : total c tr ≤ m + ixCost c n x := by
  have := (pays_ixProg (g := fun _ => 0) (P := P) (fun t => pays_of_yields (hi t)) n x).total h
  rwa [sum_none] at this

/-- C110 for the index under concurrency: any number of calls run, in any interleaving, any request may fail, and the index never holds more than `N` nodes.
An `Add` or `Search` that has had `m + ixCost .one (N + 1) y` turns has ended, with a result or an error. -/
theorem C110_index_wait_free (L : P.Laws) (hk : i.indexKey.length = 32) (hm : ∀ t tr o, Yields (i.idProvider t) tr o → tr.length ≤ m)
    (hi : IxIdp i) (env : Env) {K : List GoString} {N : Nat} (hN : N < 2 ^ 64) (ha : Apart P i K N) (calls : List IxCall)
    (hc : ∀ c ∈ calls, c.keyword ∈ K) {x : Index} {a : Nat} (haN : a + calls.length ≤ N) {w : World} (h : IxRel P i K N w.store x a)
    (sch : List Nat) {j : Nat} {y : IxCall} (hj : calls[j]? = some y) (hy : ∀ t kw id, y ≠ .delete t kw id)
    (hturns : m + ixCost .one (N + 1) y ≤ sch.count j) :
    ∃ q, (sched env sch w (calls.map (ixProg P i (N + 1)))).2[j]? = some q ∧ ((∃ r, q = .ret r) ∨ ∃ e, q = .err e) := by
  have hp : (calls.map (ixProg P i (N + 1)))[j]? = some (ixProg P i (N + 1) y) := by rw [List.getElem?_map, hj]; rfl
  obtain ⟨q, o, hq, ho⟩ := (pays_ixProg (c := .one) (g := fun _ => 0) (P := P)
    (fun t => pays_of_yields fun tr o hy => by rw [total_one]; exact hm t tr o hy) (N + 1) y).ends env sch w _ hp (by rw [sum_none]; exact hturns)
  refine ⟨q, hq, ?_⟩
  have fin : (∃ r, o = .ok r) ∨ ∃ e, o = .err e := by
    cases hpo : (ixProg P i (N + 1) y).outcome with
    | none =>
      obtain ⟨y', h1, h2⟩ := C65_only_added L hk hi hN ha (Nat.lt_succ_self N) calls hc haN h sch j o
        (((commits_spec sch w _).2 j o).2 ⟨⟨_, hp, hpo⟩, q, hq, ho⟩)
      rw [hj] at h1
      obtain rfl := Option.some.inj h1
      cases o with
      | ok r => exact .inl ⟨r, rfl⟩
      | err e => exact .inr ⟨e, rfl⟩
      | _ => cases y with
        | delete t kw id => exact absurd rfl (hy t kw id)
        | _ => exact h2.elim
    | some o' =>
      have := sched_ended env sch w _ hp hpo
      rw [hq] at this
      obtain rfl := Option.some.inj this
      rw [ho] at hpo
      obtain rfl := Option.some.inj hpo
      obtain ⟨w', hw, -⟩ := run_ixCall L hk toyEnv_noFault toyEnv_randOk hi hN ha
        (show a < N by have := (List.getElem?_eq_some_iff.mp hj).1; omega) (Nat.lt_succ_self N) y (hc y (List.mem_of_getElem? hj)) h
      have hrun : ∀ (p : Prog IxRes) (w : World), p.outcome = some o → (p.run toyEnv w).1 = o := by
        intro p w hp
        cases p <;> first | exact Option.some.inj hp | cases hp
      have hout := hrun _ w ho
      rw [hw] at hout
      simp only at hout
      cases hx : (ixStep sanitize x (ixWho i toyEnv w y.token) y).1 with
      | ok r => rw [hx] at hout; exact .inl ⟨r, hout.symm⟩
      | error e => rw [hx] at hout; exact .inr ⟨e, hout.symm⟩
  rcases fin with ⟨r, rfl⟩ | ⟨e, rfl⟩
  · cases q with
    | ret a => exact .inl ⟨a, rfl⟩
    | _ => cases ho
  · cases q with
    | err a => exact .inr ⟨a, rfl⟩
    | _ => cases ho

end

/-! ## Concrete cases -/

/-- Prices at which every cost tells how many requests of each kind there were. -/
def toyPrice : Price := ⟨1, 10, 100, 1000⟩

theorem toyD1_asksNothing (t : GoString) (tr : List Event) (o : Outcome Identity) (h : Yields (toyD1.idProvider t) tr o) : tr = [] := by
  simp only [toyD1] at h
  split at h <;> cases h <;> rfl

theorem toyIndex_asksNothing (t : GoString) (tr : List Event) (o : Outcome Identity) (h : Yields (toyIndex.idProvider t) tr o) : tr = [] := by
  simp only [toyIndex] at h
  split at h <;> cases h <;> rfl

/-- Every kind of call attains its bound. -/
example : (∀ t tr o, Yields (toyD1.idProvider t) tr o → total toyPrice tr ≤ 0) ∧
    ∀ x ∈ ([.encrypt [7] ⟨some [5], none⟩ [], .update [7] nilOid ⟨some [3], none⟩, .decrypt [8] nilOid, .delete [7] nilOid, .getGroups [7] nilOid,
      .authorize [7] nilOid, .addGroups [7] nilOid [[9]], .removeGroups [7] nilOid [[8]]] : List Call),
      Yields (callProg toyPrims toyD1 x) ((callProg toyPrims toyD1 x).trace toyEnv toyShared) ((callProg toyPrims toyD1 x).run toyEnv toyShared).1 ∧
      total toyPrice ((callProg toyPrims toyD1 x).trace toyEnv toyShared) = callCost toyPrice x := by
  refine ⟨fun t tr o h => ?_, fun x hx => ⟨yields_trace _ _ _, ?_⟩⟩
  · rw [toyD1_asksNothing t tr o h]
    exact Nat.le_refl 0
  · revert x
    decide +kernel

/-- All the calls of `toyBusySch` have had enough turns; with one turn fewer, `Update` has not ended. -/
example : (∀ t tr o, Yields (toyD1.idProvider t) tr o → tr.length ≤ 0) ∧
    (∀ j : Fin 6, callCost .one (toyBusyCalls[j.1]'j.2) ≤ toyBusySch.count j.1) ∧
    ((toyBusySch.take 22).count 3 + 1 = callCost .one (.update [7] nilOid ⟨some [3], none⟩) ∧
      ∃ q, (sched toyEnv (toyBusySch.take 22) toyShared (toyBusyCalls.map (callProg toyPrims toyD1))).2[3]? = some q ∧ q.outcome = none) := by
  refine ⟨fun t tr o h => ?_, by decide, by decide, ?_⟩
  · rw [toyD1_asksNothing t tr o h]
    exact Nat.le_refl 0
  · have : ((sched toyEnv (toyBusySch.take 22) toyShared (toyBusyCalls.map (callProg toyPrims toyD1))).2[3]?.map fun q => q.outcome.isNone) = some true := by
      decide +kernel
    obtain ⟨q, h1, h2⟩ := Option.map_eq_some_iff.mp this
    exact ⟨q, h1, Option.isNone_iff_eq_none.mp h2⟩

def toyDirKinds : List DirCall := [.newUser [], .loginUser [7] [112], .changePassword [7] [112], .getIdentity (toyToken [7]), .newGroup (toyToken [7]) [1],
  .addUser (toyToken [7]) [8] [[20]], .removeUser (toyToken [7]) [8] [[20]], .deleteUser (toyToken [7]) [8]]

/-- What the calls cost in the toy directory, where each user has one group, and the numbers of groups in the user records that they read.  Of the latter,
they read only those of the caller. -/
example : (∀ x ∈ toyDirKinds, Yields (dirProg toyPrims toyStandalone x) ((dirProg toyPrims toyStandalone x).trace toyEnv toyDir)
      ((dirProg toyPrims toyStandalone x).run toyEnv toyDir).1) ∧
    (toyDirKinds.map fun x => (total toyPrice ((dirProg toyPrims toyStandalone x).trace toyEnv toyDir),
      (((dirProg toyPrims toyStandalone x).trace toyEnv toyDir).map (groupsRead toyPrims toyStandalone)).sum)) =
      [(150, 0), (1021, 1), (141, 1), (1002, 1), (1253, 2), (1123, 2), (1123, 2), (1102, 1)] ∧
    toyDirKinds.map (dirCost toyPrice) = [150, 1021, 141, 1001, 1252, 1122, 1122, 1101] :=
  ⟨fun _ _ => yields_trace _ _ _, by decide +kernel, by decide⟩

/-- With Standalone as the Identity Provider, `Encrypt` attains its bound. -/
example : (∀ t, toySystem.idProvider t = toyStandalone.getIdentity toyPrims t) ∧
    let x : Call := .encrypt (toyToken [7]) ⟨some [5], none⟩ []
    let tr := (callProg toyPrims toySystem x).trace toyEnv toyDir
    (tr.map (groupsRead toyPrims toyStandalone)).sum = 1 ∧
      total toyPrice tr = toyPrice.clock + toyPrice.read + toyPrice.read * (tr.map (groupsRead toyPrims toyStandalone)).sum + callCost toyPrice x :=
  ⟨fun _ => rfl, by decide +kernel⟩

/-- An index with room for 30 nodes, two of which are there; `Add` and `Search` attain the bounds for three nodes. -/
example : toyIndex.indexKey.length = 32 ∧ (∀ t tr o, Yields (toyIndex.idProvider t) tr o → tr.length ≤ 0) ∧ IxIdp toyIndex ∧
    Apart toyPrims toyIndex [[107], [108]] 30 ∧ IxRel toyPrims toyIndex [[107], [108]] 30 toyPair.store (emptyIndex.set [107] [[97], [98]]) 2 ∧
    (∀ j : Fin 2, ixCost .one 31 (([.add [1] [107] [99], .search [1] [107]] : List IxCall)[j.1]'j.2) ≤ ((List.replicate 34 [0, 1]).flatten).count j.1) ∧
    ∀ x ∈ ([.add [1] [107] [99], .search [1] [107]] : List IxCall),
      total toyPrice ((ixProg toyPrims toyIndex 3 x).trace toyEnv toyPair) = ixCost toyPrice 3 x := by
  refine ⟨rfl, fun t tr o h => ?_, toyIndex_idp, toyIndex_apart30, toyPair_rel, by decide, by decide +kernel⟩
  rw [toyIndex_asksNothing t tr o h]
  exact Nat.le_refl 0

end D1
