import Verif.Props.Escalate
import Verif.Props.DirCrash
/-!
# Was there a moment at which the caller had access?  C89

D1 with the Standalone provider reads the user record, the group records and the access record of a call one after the other.  If a call succeeds,
each of them said at the moment it was read what the call relied on; but there need not be any moment at which all of them said so.
-/
namespace D1
open Spec Prog

section
variable {α : Type} {env : Env}

/-- The steps of one call under a schedule: the position in the schedule, the effect, and the answer. -/
def momentsFrom (env : Env) (n : Nat) : List Nat → World → List (Prog α) → Nat → List (Nat × Event)
  | [], _, _, _ => []
  | i :: r, w, ps, j => match ps[i]? with
    | some (.op e k) =>
      let rest := momentsFrom env (n + 1) r (w.exec env e).2 (ps.set i (k (w.exec env e).1)) j
      if i = j then (n, ⟨e, (w.exec env e).1⟩) :: rest else rest
    | _ => momentsFrom env (n + 1) r w ps j

/-- The world after the first `n` entries of a schedule. -/
def worldAt (env : Env) (sch : List Nat) (w : World) (ps : List (Prog α)) (n : Nat) : World := (sched env (sch.take n) w ps).1

/-- The steps of a call that has ended are an execution of its program. -/
theorem yields_moments (sch : List Nat) (n : Nat) (w : World) (ps : List (Prog α)) (j : Nat) {p q : Prog α} (hp : ps[j]? = some p)
    (hq : (sched env sch w ps).2[j]? = some q) {o : Outcome α} (ho : q.outcome = some o) :
    Yields p ((momentsFrom env n sch w ps j).map Prod.snd) o := by
  have hend : ∀ q : Prog α, q.outcome = some o → Yields q [] o := by
    intro q h
    cases q <;> simp only [Prog.outcome, Option.some.injEq, reduceCtorEq] at h <;> subst h <;> constructor
  induction sch generalizing n w ps p with
  | nil =>
    simp only [sched] at hq
    rw [hp] at hq
    cases hq
    exact hend _ ho
  | cons i r ih =>
    simp only [sched, momentsFrom] at hq ⊢
    cases hi : ps[i]? with
    | none => rw [hi] at hq; exact ih _ _ _ hp hq
    | some p' =>
      rw [hi] at hq
      cases p' with
      | op e k =>
        simp only at hq ⊢
        have hlen : i < ps.length := (List.getElem?_eq_some_iff.mp hi).1
        by_cases hij : i = j
        · subst hij
          rw [hp] at hi
          cases hi
          rw [if_pos rfl, List.map_cons]
          exact .op _ _ _ _ _ (ih _ _ _ (by rw [List.getElem?_set_self hlen]) hq)
        · rw [if_neg hij]
          exact ih _ _ _ (by rw [List.getElem?_set_ne hij]; exact hp) hq
      | _ => exact ih _ _ _ hp hq

/-- The steps are in order, and each is what the world answered at that moment. -/
theorem moments_spec (sch : List Nat) (n : Nat) (w : World) (ps : List (Prog α)) (j : Nat) :
    (momentsFrom env n sch w ps j).Pairwise (fun a b => a.1 < b.1) ∧ ∀ m ∈ momentsFrom env n sch w ps j, n ≤ m.1 ∧ m.1 < n + sch.length ∧
      m.2.2 = ((worldAt env sch w ps (m.1 - n)).exec env m.2.1).1 := by
  induction sch generalizing n w ps with
  | nil => exact ⟨.nil, by simp [momentsFrom]⟩
  | cons i r ih =>
    have shift : ∀ (w' : World) (ps' : List (Prog α)), (∀ m, worldAt env (i :: r) w ps (m + 1) = worldAt env r w' ps' m) →
        ∀ m ∈ momentsFrom env (n + 1) r w' ps' j, n < m.1 ∧ m.1 < n + (i :: r).length ∧
          m.2.2 = ((worldAt env (i :: r) w ps (m.1 - n)).exec env m.2.1).1 := by
      intro w' ps' hw m hm
      obtain ⟨h1, h2, h3⟩ := (ih (n + 1) w' ps').2 m hm
      refine ⟨by omega, by simp only [List.length_cons]; omega, ?_⟩
      rw [show m.1 - n = (m.1 - (n + 1)) + 1 by omega, hw]
      exact h3
    simp only [momentsFrom]
    cases hi : ps[i]? with
    | none =>
      have h := shift w ps (fun m => by simp only [worldAt, List.take_succ_cons, sched, hi])
      exact ⟨(ih _ w ps).1, fun m hm => ⟨(h m hm).1.le, (h m hm).2⟩⟩
    | some p' =>
      cases p' with
      | op e k =>
        have h := shift (w.exec env e).2 (ps.set i (k (w.exec env e).1)) (fun m => by simp only [worldAt, List.take_succ_cons, sched, hi])
        simp only
        split
        · refine ⟨.cons (fun m hm => (h m hm).1) (ih _ _ _).1, fun m hm => ?_⟩
          rcases List.mem_cons.mp hm with rfl | hm
          · refine ⟨le_rfl, by simp only [List.length_cons]; omega, ?_⟩
            simp only [Nat.sub_self, worldAt, List.take_zero, sched]
          · exact ⟨(h m hm).1.le, (h m hm).2⟩
        · exact ⟨(ih _ _ _).1, fun m hm => ⟨(h m hm).1.le, (h m hm).2⟩⟩
      | _ =>
        have h := shift w ps (fun m => by simp only [worldAt, List.take_succ_cons, sched, hi])
        exact ⟨(ih _ w ps).1, fun m hm => ⟨(h m hm).1.le, (h m hm).2⟩⟩

/-- What a read answers is in the store. -/
theorem exec_get_ok {w : World} {id : Bytes} {dt : DataType} {b : Bytes} (h : (w.exec env (.get id dt)).1 = (.ok b : Except IoErr Bytes)) :
    w.store id dt = some b := by
  unfold World.exec Store.exec at h
  cases hf : env.fault w.t <;> cases hs : w.store id dt <;> rw [hf] at h <;> simp only [hs, Eff.fail] at h <;> cases h
  rfl

end

/-! ## What a successful call relied on -/

/-- A group record that reads as a group with these scopes. -/
def HoldsGroup (P : Prims) (s : Standalone) (b : Bytes) (g : Group) : Prop :=
  ∃ sg, (P.unmarshal b).bind SealedGroup.ofJ = some sg ∧ sg.unseal P s.groupCryptor = .ok g

/-- At one moment the stored records let the user use the scope on the object: the user holds the scope, and it is on the access list itself or
through one of its groups that holds the scope too. -/
def Permits (P : Prims) (d : D1) (s : Standalone) (sc : Scope) (oid : Oid) (uid : GoString) (st : Store) : Prop :=
  ∃ b x bA a, st uid dtUser = some b ∧ HoldsUser P s b x ∧ scopeIn sc x.scopes = true ∧ st oid.1 dtAccess = some bA ∧ Accepts P d oid bA a ∧
    (a.groups.has uid = true ∨ ∃ g ∈ x.groups.getD [], a.groups.has g = true ∧ ∃ bG y, st g dtGroup = some bG ∧ HoldsGroup P s bG y ∧
      scopeIn sc y.scopes = true)

/-- The same, but at three moments: the user record is read first, then the group record, then the access record. -/
def PermitsInPieces (P : Prims) (d : D1) (s : Standalone) (sc : Scope) (oid : Oid) (uid : GoString) (n : Nat) (st : Nat → Store) (len : Nat) : Prop :=
  ∃ n1 n2, n < n1 ∧ n1 < n2 ∧ n2 < len ∧ ∃ b x bA a, st n1 uid dtUser = some b ∧ HoldsUser P s b x ∧ scopeIn sc x.scopes = true ∧
    st n2 oid.1 dtAccess = some bA ∧ Accepts P d oid bA a ∧
    (a.groups.has uid = true ∨ ∃ g ∈ x.groups.getD [], a.groups.has g = true ∧ ∃ m, n1 < m ∧ m < n2 ∧ ∃ bG y, st m g dtGroup = some bG ∧
      HoldsGroup P s bG y ∧ scopeIn sc y.scopes = true)

section
variable {P : Prims} {d : D1} {s : Standalone} {env : Env}

theorem yields_fetchGroups_ok (gs : List GoString) {tr : List Event} {l : List (GoString × AccessGroup)} (h : Yields (s.fetchGroups P gs) tr (.ok l)) :
    ∀ g a, lookupGroup l g = some a → g ∈ gs ∧ ∃ b y, (⟨.get g dtGroup, (.ok b : Except IoErr Bytes)⟩ : Event) ∈ tr ∧ HoldsGroup P s b y ∧ a.scopes = y.scopes := by
  induction gs generalizing tr l with
  | nil =>
    simp only [Standalone.fetchGroups] at h
    obtain ⟨-, h⟩ := yields_ret.mp h
    cases h
    intro g a hg
    cases hg
  | cons x gs ih =>
    simp only [Standalone.fetchGroups, Prog.bind_eq] at h
    obtain ⟨tr1, tr2, y, rfl, h1, h2⟩ := yields_bind_ok.mp h
    obtain ⟨b, sg, rfl, h3, h4⟩ := yields_getGroup_ok h1
    obtain ⟨tr3, tr4, l', rfl, h5, h6⟩ := yields_bind_ok.mp h2
    obtain ⟨rfl, h6⟩ := yields_ret.mp h6
    cases h6
    intro g a hg
    simp only [lookupGroup] at hg
    split at hg
    · rename_i hx
      subst hx
      cases hg
      exact ⟨by simp, b, y, by simp, ⟨sg, h3, h4⟩, rfl⟩
    · obtain ⟨q1, b', y', q2, q3⟩ := ih h5 g a hg
      exact ⟨by simp [q1], b', y', by simp [q2], q3⟩

/-- C89, partial.  Any programs `ps` run concurrently with any IO failures and crashes; the `j`-th is a D1 call on an object, other than
`Delete`, and it succeeds.  Then the token was that of a user at the moment the call looked at the clock, and after that moment, one after the other, the user
record, the record of the group that was used (if the user was not let in itself), and the access record said what the call relied on.  Missing from the full claim:
that there was one moment at which all of them said so (`C89_false`). -/
theorem C89_moments_partial {α : Type} (hd : d.idProvider = s.getIdentity P) {c : Call} {oid : Oid} (hc : c.onOid = some oid) (hdel : ∀ t, c ≠ .delete t oid)
    (sch : List Nat) (w : World) (ps : List (Prog α)) (j : Nat) (f : Res → α) (hj : ps[j]? = some ((callProg P d c).bind fun r => .ret (f r)))
    {a : α} (h : (j, Outcome.ok a) ∈ commits env sch w ps) :
    ∃ n uid, tokenUser P s.tokenCryptor c.token (env.now (worldAt env sch w ps n).t).ns = some uid ∧
      PermitsInPieces P d s (docScope c) oid uid n (fun n => (worldAt env sch w ps n).store) sch.length := by
  obtain ⟨-, q, hq, ho⟩ := ((commits_spec sch w ps).2 j _).mp h
  have hy := yields_moments sch 0 w ps j hj hq ho
  obtain ⟨hord, hans⟩ := moments_spec (env := env) sch 0 w ps j
  generalize momentsFrom env 0 sch w ps j = ms at hy hord hans
  obtain ⟨tr1, tr2, r, htr, h1, -⟩ := yields_bind_ok.mp hy
  obtain ⟨trI, rest, i, bA, acc, rfl, hI, hs, hacc, hl⟩ := C05_authorized hc h1 (.inl ⟨⟨r, rfl⟩, hdel⟩)
  rw [hd] at hI
  obtain ⟨t, now, tr', p, ht, rfl, hle, hdec, hlook⟩ := yields_getIdentity_ok hI
  obtain ⟨trU, trG, x, rfl, hu, hg⟩ := yields_bind_ok.mp hlook
  obtain ⟨b, su, rfl, hb, hx⟩ := yields_getUser_ok hu
  obtain ⟨trG1, trG2, l, rfl, hfetch, hret⟩ := yields_bind_ok.mp hg
  obtain ⟨rfl, hret⟩ := yields_ret.mp hret
  cases hret
  -- the positions in the schedule
  simp only [List.cons_append, List.append_assoc, List.append_nil, List.nil_append] at htr
  obtain ⟨m0, ms, rfl, e0, htr⟩ := List.map_eq_cons_iff.mp htr
  obtain ⟨m1, ms, rfl, e1, htr⟩ := List.map_eq_cons_iff.mp htr
  obtain ⟨msG, ms, rfl, eG, htr⟩ := List.map_eq_append_iff.mp htr
  obtain ⟨m2, ms, rfl, e2, htr⟩ := List.map_eq_cons_iff.mp htr
  simp only [List.pairwise_cons, List.pairwise_append, List.mem_cons, List.mem_append] at hord
  obtain ⟨o0, o1, -, ⟨-, -⟩, o2⟩ := hord
  have a0 := (hans m0 (by simp)).2.2
  have a1 := (hans m1 (by simp)).2.2
  have a2 := (hans m2 (by simp)).2
  obtain ⟨n0, e0'⟩ := m0
  obtain ⟨n1, e1'⟩ := m1
  obtain ⟨n2, e2'⟩ := m2
  simp only at e0 e1 e2
  subst e0 e1 e2
  simp only [Nat.sub_zero, Nat.zero_add] at a0 a1 a2
  refine ⟨n0, p.bytes, ?_, n1, n2, o0 (n1, _) (.inl rfl), o1 (n2, _) (.inr (.inl rfl)), a2.1, b, x, bA, acc, exec_get_ok a1.symm, ⟨su, hb, hx⟩, hs, exec_get_ok a2.2.symm, hacc, ?_⟩
  · have hnow : now = env.now (worldAt env sch w ps n0).t := by
      rw [a0]
      unfold World.exec Store.exec
      cases env.fault (worldAt env sch w ps n0).t <;> rfl
    rw [tokenUser, ht]
    simp only
    rw [if_neg (by rw [← hnow]; omega), hdec]
  · obtain ⟨y, hy1, hy2, hy3⟩ := hl
    by_cases hyu : y = p.bytes
    · exact .inl (hyu ▸ hy2)
    · right
      simp only [Identity.getIDScope, if_neg hyu] at hy3
      cases hlk : lookupGroup l y with
      | none =>
        exfalso
        simp only [Identity.getIDs, mem_foldl_setInsert, List.mem_singleton] at hy1
        rcases hy1 with h | h
        · exact hyu h
        · obtain ⟨⟨k, v⟩, hm, rfl⟩ := List.mem_map.mp h
          exact (lookupGroup_none l k).mp hlk v hm
      | some ag =>
        rw [hlk] at hy3
        obtain ⟨q1, bG, yG, q2, q3, q4⟩ := yields_fetchGroups_ok _ hfetch y ag hlk
        rw [← eG] at q2
        obtain ⟨⟨m, ev⟩, hm, rfl⟩ := List.mem_map.mp q2
        have am := (hans (m, _) (by simp only [List.mem_cons, List.mem_append]; exact .inr (.inr (.inl hm)))).2.2
        simp only [Nat.sub_zero] at am
        exact ⟨y, q1, hy2, m, o1 _ (.inl hm), o2 _ hm _ (.inl rfl), bG, yG, exec_get_ok am.symm, q3, by rw [← q4]; exact hy3⟩

/-- If nobody changes user or group records meanwhile, then there was one moment: when the access record was read. -/
theorem C89_directory_still {α : Type} (hd : d.idProvider = s.getIdentity P) {c : Call} {oid : Oid} (hc : c.onOid = some oid) (hdel : ∀ t, c ≠ .delete t oid)
    (sch : List Nat) (w : World) (ps : List (Prog α)) (j : Nat) (f : Res → α) (hj : ps[j]? = some ((callProg P d c).bind fun r => .ret (f r)))
    {a : α} (h : (j, Outcome.ok a) ∈ commits env sch w ps)
    (hstill : ∀ n x, (worldAt env sch w ps n).store x dtUser = w.store x dtUser ∧ (worldAt env sch w ps n).store x dtGroup = w.store x dtGroup) :
    ∃ n uid, n < sch.length ∧ Permits P d s (docScope c) oid uid (worldAt env sch w ps n).store := by
  obtain ⟨n, uid, -, n1, n2, -, -, h2, b, x, bA, acc, hb, hx, hs, hA, hacc, hlist⟩ := C89_moments_partial hd hc hdel sch w ps j f hj h
  refine ⟨n2, uid, h2, b, x, bA, acc, ?_, hx, hs, hA, hacc, ?_⟩
  · rw [(hstill n2 uid).1, ← (hstill n1 uid).1]; exact hb
  · rcases hlist with h | ⟨g, hg, hm, m, -, -, bG, y, h3, h4⟩
    · exact .inl h
    · exact .inr ⟨g, hg, hm, bG, y, by rw [(hstill n2 g).2, ← (hstill m g).2]; exact h3, h4⟩

/-! ## There need not be one moment -/

/-- A call of D1 or of the Standalone provider, with what the caller sees. -/
def sysProg (P : Prims) (d : D1) (s : Standalone) : SysCall → Prog (Res ⊕ DirRes)
  | .d1 c => (callProg P d c).bind fun r => .ret (.inl r)
  | .dir c => (dirProg P s c).bind fun r => .ret (.inr r)

/-- Scheduling one call until a part of it has ended. -/
theorem sched_part {α β : Type} (q : Prog α) (f : Except Err α → Prog β) {w w1 : World} {a : α} (h : q.run env w = (.ok a, w1)) (ps : List (Prog β)) (j : Nat)
    (hj : ps[j]? = some (q.attempt f)) :
    ∃ n, sched env (List.replicate n j) w ps = (w1, ps.set j (f (.ok a))) ∧
      (∀ m ≤ n, ∃ l, (worldAt env (List.replicate n j) w ps m).store = (q.runN env l w).2.store) ∧
      ((f (.ok a)).outcome = none → commits env (List.replicate n j) w ps = []) := by
  induction q generalizing w ps with
  | ret b =>
    cases h
    refine ⟨0, ?_, ?_, fun _ => rfl⟩
    · simp only [List.replicate_zero, sched, Prod.mk.injEq, true_and]
      obtain ⟨hl, he⟩ := List.getElem?_eq_some_iff.mp hj
      rw [ret_attempt] at he
      rw [← he, List.set_getElem_self]
    · intro m _
      exact ⟨0, by simp [worldAt, sched]⟩
  | op e k ih =>
    have hlen : j < ps.length := (List.getElem?_eq_some_iff.mp hj).1
    obtain ⟨n, h1, h2, h3⟩ := ih _ h (ps.set j ((k (w.exec env e).1).attempt f)) (by rw [List.getElem?_set_self hlen])
    have hs : ∀ r, sched env (j :: r) w ps = sched env r (w.exec env e).2 (ps.set j ((k (w.exec env e).1).attempt f)) := by
      intro r
      simp only [sched, hj, op_attempt]
    refine ⟨n + 1, ?_, ?_, ?_⟩
    · rw [List.replicate_succ, hs, h1, List.set_set]
    · intro m hm
      cases m with
      | zero => exact ⟨0, rfl⟩
      | succ m =>
        obtain ⟨l, hl⟩ := h2 m (by omega)
        refine ⟨l + 1, ?_⟩
        rw [worldAt, List.replicate_succ, List.take_succ_cons, hs]
        exact hl
    · intro hf
      have hc := h3 hf
      simp only [List.replicate_succ, commits, hj, op_attempt]
      rw [hc]
      cases ho : ((k (w.exec env e).1).attempt f).outcome with
      | none => rfl
      | some o =>
        exfalso
        -- then the rest of the call has ended already
        have hx : (k (w.exec env e).1).outcome ≠ none ∨ False := by
          left
          intro hn
          obtain ⟨e', k', he⟩ := outcome_none.mp hn
          rw [he] at ho
          cases ho
        rcases hx with hx | hx
        · cases hk : k (w.exec env e).1 with
          | ret b =>
            have : (k (w.exec env e).1).run env (w.exec env e).2 = (.ok a, w1) := h
            rw [hk] at this ho
            cases this
            rw [ret_attempt, hf] at ho
            cases ho
          | op e' k' => rw [hk] at hx; exact hx rfl
          | _ =>
            have : (k (w.exec env e).1).run env (w.exec env e).2 = (.ok a, w1) := h
            rw [hk] at this
            cases this
        · exact hx
  | _ => cases h

/-- Scheduling one call until it has ended. -/
theorem sched_all {β : Type} (q : Prog β) {w w1 : World} {o : Outcome β} (h : q.run env w = (o, w1)) (hq : q.outcome = none) (ps : List (Prog β)) (j : Nat)
    (hj : ps[j]? = some q) :
    ∃ n q', q'.outcome = some o ∧ sched env (List.replicate n j) w ps = (w1, ps.set j q') ∧
      (∀ m ≤ n, ∃ l, (worldAt env (List.replicate n j) w ps m).store = (q.runN env l w).2.store) ∧
      commits env (List.replicate n j) w ps = [(j, o)] := by
  induction q generalizing w ps with
  | op e k ih =>
    have hlen : j < ps.length := (List.getElem?_eq_some_iff.mp hj).1
    have hs : ∀ r, sched env (j :: r) w ps = sched env r (w.exec env e).2 (ps.set j (k (w.exec env e).1)) := by
      intro r
      simp only [sched, hj]
    have hk : (k (w.exec env e).1).run env (w.exec env e).2 = (o, w1) := h
    cases ho : (k (w.exec env e).1).outcome with
    | some o' =>
      have : some o = some o' ∧ w1 = (w.exec env e).2 := by
        cases hq' : k (w.exec env e).1 <;> rw [hq'] at hk ho <;> cases ho <;> cases hk <;> exact ⟨rfl, rfl⟩
      obtain ⟨ho', rfl⟩ := this
      cases ho'
      refine ⟨1, _, ho, by simp only [List.replicate_succ, List.replicate_zero, hs, sched], ?_, ?_⟩
      · intro m hm
        cases m with
        | zero => exact ⟨0, rfl⟩
        | succ m =>
          refine ⟨1, ?_⟩
          rw [worldAt, List.replicate_succ, List.replicate_zero, List.take_succ_cons, List.take_nil, hs, sched, runN_succ_op]
          cases hq' : k (w.exec env e).1 <;> rw [hq'] at ho <;> first | rfl | cases ho
      · simp only [List.replicate_succ, List.replicate_zero, commits, hj, ho]
    | none =>
      obtain ⟨n, q', h1, h2, h3, h4⟩ := ih _ hk ho (ps.set j (k (w.exec env e).1)) (by rw [List.getElem?_set_self hlen])
      refine ⟨n + 1, q', h1, ?_, ?_, ?_⟩
      · rw [List.replicate_succ, hs, h2, List.set_set]
      · intro m hm
        cases m with
        | zero => exact ⟨0, rfl⟩
        | succ m =>
          obtain ⟨l, hl⟩ := h3 m (by omega)
          refine ⟨l + 1, ?_⟩
          rw [worldAt, List.replicate_succ, List.take_succ_cons, hs]
          exact hl
      · simp only [List.replicate_succ, commits, hj, ho]
        exact h4
  | _ => cases hq

theorem sched_append {β : Type} (a b : List Nat) (w : World) (ps : List (Prog β)) :
    sched env (a ++ b) w ps = sched env b (sched env a w ps).1 (sched env a w ps).2 := by
  induction a generalizing w ps with
  | nil => rfl
  | cons i r ih =>
    simp only [List.cons_append, sched]
    split <;> exact ih _ _

theorem commits_append {β : Type} (a b : List Nat) (w : World) (ps : List (Prog β)) :
    commits env (a ++ b) w ps = commits env a w ps ++ commits env b (sched env a w ps).1 (sched env a w ps).2 := by
  induction a generalizing w ps with
  | nil => rfl
  | cons i r ih =>
    simp only [List.cons_append, commits, sched]
    split
    · rw [ih]
      split <;> rfl
    · exact ih _ _

theorem worldAt_append {β : Type} (a b : List Nat) (w : World) (ps : List (Prog β)) (Q : Store → Prop)
    (h1 : ∀ n ≤ a.length, Q (worldAt env a w ps n).store)
    (h2 : ∀ n ≤ b.length, Q (worldAt env b (sched env a w ps).1 (sched env a w ps).2 n).store) (n : Nat) (hn : n ≤ (a ++ b).length) :
    Q (worldAt env (a ++ b) w ps n).store := by
  by_cases h : n ≤ a.length
  · have := h1 n h
    rwa [worldAt, List.take_append_of_le_length h]
  · rw [List.length_append] at hn
    have := h2 (n - a.length) (by omega)
    rwa [worldAt, List.take_append, List.take_of_length_le (by omega), sched_append]

theorem LastWrite.of_reads {β : Type} {p : Prog β} (h : ReadsOnly p) : LastWrite p := by
  have := LastWrite.reads h (fun a => LastWrite.ret a)
  rwa [bind_ret] at this

/-- `AddGroupsToAccess` makes at most one write, and it is its last effect. -/
theorem lastWrite_addGroups (hd : ∀ t, ReadsOnly (d.idProvider t)) (t : GoString) (oid : Oid) (gs : List GoString) :
    LastWrite (callProg P d (.addGroups t oid gs)) := by
  simp only [callProg]
  refine .map ?_ _
  rw [addGroupsToAccess_eq]
  refine .reads (allEff_guardProg (hd t) rfl _) fun a => ?_
  refine .reads (allEff_ofPanic _) fun a => ?_
  refine .reads (AllEff.bind (reads_encrypt _ _ _) fun _ => trivial) fun sa => ?_
  exact lastWrite_update _ _ _ _

/-- The rest of a call once the Identity Provider has answered. -/
theorem decrypt_after_idp (token : GoString) (oid : Oid) : sysProg P d s (.d1 (.decrypt token oid)) = (d.idProvider token).attempt fun r => match r with
    | .error _ => .err .notAuthenticated
    | .ok i => sysProg P { d with idProvider := fun _ => .ret i } s (.d1 (.decrypt token oid)) := by
  simp only [sysProg, callProg, D1.decrypt, D1.verifyAccess, Prog.bind_eq, attempt_bind]
  congr 1
  funext r
  cases r <;> rfl

theorem LastWrite.sched {β : Type} {q : Prog β} (hq : LastWrite q) {w w1 : World} {o : Outcome β} (h : q.run env w = (o, w1)) (Q : Store → Prop) (h0 : Q w.store)
    (h1 : Q w1.store) {n : Nat} {f : Nat → World} (hf : ∀ m ≤ n, ∃ l, (f m).store = (q.runN env l w).2.store) (m : Nat) (hm : m ≤ n) : Q (f m).store := by
  obtain ⟨l, hl⟩ := hf m hm
  rw [hl]
  rcases hq.states env w l with h' | h'
  · rw [h']; exact h0
  · rw [h', h]; exact h1

theorem bind_running {α β : Type} {p : Prog α} (h : p.outcome = none) (k : α → Prog β) : (p.bind k).outcome = none := by
  obtain ⟨e, c, rfl⟩ := outcome_none.mp h; rfl

theorem attempt_running {α β : Type} {p : Prog α} (h : p.outcome = none) (k : Except Err α → Prog β) : (p.attempt k).outcome = none := by
  obtain ⟨e, c, rfl⟩ := outcome_none.mp h; rfl

theorem getIdentity_running {token uid : GoString} {now : Int} (h : tokenUser P s.tokenCryptor token now = some uid) :
    (s.getIdentity P token).outcome = none := by
  rw [tokenUser] at h
  rw [Standalone.getIdentity]
  cases ht : tokenFromString P token with
  | error e => rw [ht] at h; cases h
  | ok t => exact attempt_running rfl _

/-- C89 is false of the code.  A user is in a group that holds the Decrypt scope, and neither the user nor any of its groups is on the access list of an object.  The
user's `Decrypt` finds out who the user is; then the owner takes the user out of the group, and after that shares the object with the group; then `Decrypt`
goes on, and returns the object.  All three calls succeed, and at no moment of all this does the user have access: a `Decrypt` of the user that runs by itself on the store
as it is at that moment, at whatever time and without failures, is refused. -/
theorem C89_false (L : P.Laws) (hd : d.idProvider = s.getIdentity P) (hf : NoFault env) (hr : RandOk env) {w : World} {v : Dir × Vault}
    (h : SysRel P d s w.store v) {user owner tu tw g : GoString} {oid : Oid} {u uo : DirUser} {e : Entry} {sg : Scope} (hne : user ≠ owner)
    (htu : ∀ t, tokenUser P s.tokenCryptor tu (env.now t).ns = some user) (hto : ∀ t, tokenUser P s.tokenCryptor tw (env.now t).ns = some owner)
    (hu : v.1.users user = some u) (hug : ∀ x ∈ u.groups, (v.1.groups x).isSome) (hus : scopeIn scopeDecrypt u.scopes = true)
    (hg : g ∈ u.groups) (hgu : g ≠ user) (hgs : v.1.groups g = some sg) (hsg : scopeIn scopeDecrypt sg = true)
    (huo : v.1.users owner = some uo) (huog : ∀ x ∈ uo.groups, (v.1.groups x).isSome) (huos : scopeIn scopeModifyAccessGroups uo.scopes = true) (hgo : g ∈ uo.groups)
    (he : v.2 oid = some e) (hmu : e.members user = false) (hmg : ∀ x ∈ u.groups, e.members x = false) (hmo : e.members owner = true) :
    ∃ sch : List Nat,
      commits env sch w ([.d1 (.decrypt tu oid), .dir (.removeUser tw user [g]), .d1 (.addGroups tw oid [g])].map (sysProg P d s)) =
        [(1, .ok (.inr .unit)), (2, .ok (.inl .unit)), (0, .ok (.inl (.object e.object)))] ∧
      ∀ n ≤ sch.length, ∀ (env' : Env) (t : Nat), NoFault env' → RandOk env' → tokenUser P s.tokenCryptor tu (env'.now t).ns = some user → ∀ o w',
        (d.decrypt P tu oid).run env'
          ⟨(worldAt env sch w ([.d1 (.decrypt tu oid), .dir (.removeUser tw user [g]), .d1 (.addGroups tw oid [g])].map (sysProg P d s)) n).store, t⟩ ≠ (.ok o, w') := by
  generalize hps : [SysCall.d1 (.decrypt tu oid), .dir (.removeUser tw user [g]), .d1 (.addGroups tw oid [g])].map (sysProg P d s) = ps
  -- the three states of the system
  let u1 : DirUser := { u with groups := u.groups.filter fun x => ![g].contains x }
  let e1 : Entry := { e with members := fun x => e.members x || [g].any fun y => sanitize y == x }
  let v1 : Dir := v.1.setUser user (some u1)
  let v2 : Vault := v.2.set oid (some e1)
  have hsan : sanitize g = g := by
    have := h.1.1 user
    rw [hu] at this
    obtain ⟨_, _, _, _, _, _, _, hq⟩ := this
    exact hq g hg
  have hn0 : ∀ o, ¬ MayRead v user oid o := by
    rintro o ⟨u', e', h1, -, -, h2, -, h3⟩
    rw [hu] at h1; cases h1
    rw [he] at h2; cases h2
    rcases h3 with h3 | ⟨x, hx, hm, -⟩
    · rw [hmu] at h3; cases h3
    · rw [hmg x hx] at hm; cases hm
  have hv1 : v1.users user = some u1 := if_pos rfl
  have hn1 : ∀ o, ¬ MayRead (v1, v.2) user oid o := by
    rintro o ⟨u', e', h1, -, -, h2, -, h3⟩
    rw [hv1] at h1; cases h1
    rw [he] at h2; cases h2
    rcases h3 with h3 | ⟨x, hx, hm, -⟩
    · rw [hmu] at h3; cases h3
    · rw [hmg x (List.mem_filter.mp hx).1] at hm; cases hm
  have hn2 : ∀ o, ¬ MayRead (v1, v2) user oid o := by
    rintro o ⟨u', e', h1, -, -, h2, -, h3⟩
    rw [hv1] at h1; cases h1
    rw [show (v1, v2).2 oid = some e1 from if_pos rfl] at h2; cases h2
    have hmem : ∀ x, e1.members x = true → e.members x = true ∨ x = g := by
      intro x hx
      simp only [e1, List.any_cons, List.any_nil, Bool.or_false, Bool.or_eq_true, beq_iff_eq] at hx
      exact hx.imp id fun h => by rw [← h, hsan]
    rcases h3 with h3 | ⟨x, hx, hm, -⟩
    · rcases hmem _ h3 with h3 | h3
      · rw [hmu] at h3; cases h3
      · exact hgu h3.symm
    · obtain ⟨hx, hxg⟩ := List.mem_filter.mp hx
      rcases hmem _ hm with h3 | h3
      · rw [hmg x hx] at h3; cases h3
      · subst h3; simp at hxg
  let Q : Store → Prop := fun st => ∃ v', SysRel P d s st v' ∧ ∀ o, ¬ MayRead v' user oid o
  have hQ0 : Q w.store := ⟨v, h, hn0⟩
  -- first, the user is identified
  obtain ⟨w1, hw1, hrun1⟩ := run_getIdentity L hf h.1 tu
  have hid : v.1.identify (some user) = .ok (user, u) := by
    have : (u.groups.all fun g => (v.1.groups g).isSome) = true := List.all_eq_true.mpr hug
    simp only [Dir.identify, hu, this, if_true]
  rw [htu, hid] at hrun1
  let i := dirIdentity v.1 (user, u)
  replace hrun1 : (s.getIdentity P tu).run env w = (.ok i, w1) := hrun1
  let rest := sysProg P { d with idProvider := fun _ => .ret i } s (.d1 (.decrypt tu oid))
  have hp0 : ps[0]? = some ((s.getIdentity P tu).attempt fun r => match r with
    | .error _ => .err .notAuthenticated
    | .ok i => sysProg P { d with idProvider := fun _ => .ret i } s (.d1 (.decrypt tu oid))) := by
    rw [← hps, ← hd]
    exact congrArg some (decrypt_after_idp tu oid)
  obtain ⟨n1, s1, q1, c1⟩ := sched_part _ _ hrun1 ps 0 hp0
  have hrest : rest.outcome = none := by
    have hc : i.scopes.contains scopeDecrypt = true := by rw [← scopeIn_eq]; exact hus
    simp only [rest, sysProg, callProg, D1.decrypt, D1.verifyAccess, Prog.bind_eq, ret_attempt, hc]
    rfl
  replace c1 := c1 hrest
  have hQ1 : Q w1.store := by rw [hw1]; exact hQ0
  replace q1 := (LastWrite.of_reads (reads_getIdentity tu)).sched hrun1 Q hQ0 hQ1 q1
  have hR1 : SysRel P d s w1.store v := by rw [hw1]; exact h
  -- second, the user leaves the group
  have ido : v.1.identify (some owner) = .ok (owner, uo) := by
    have : (uo.groups.all fun g => (v.1.groups g).isSome) = true := List.all_eq_true.mpr huog
    simp only [Dir.identify, huo, this, if_true]
  obtain ⟨w2, hrun2, hD2, hS2⟩ := run_dirCall L hf hr hR1.1 (.removeUser tw user [g])
  have hwho2 : (dirIn P s env w1 (.removeUser tw user [g])).who = some owner := hto w1.t
  have hst2 : dirStep v.1 (dirIn P s env w1 (.removeUser tw user [g])) (.removeUser tw user [g]) = (.ok .unit, v1) := by
    simp only [dirStep, Dir.asCaller, hwho2, ido, List.all_cons, List.all_nil, hgo, or_true, decide_true, Bool.and_true, if_true, hu]
    rfl
  rw [hst2] at hrun2 hD2
  have hR2 : SysRel P d s w2.store (v1, v.2) := ⟨hD2, Rel.congr hS2 hR1.2⟩
  have hQ2 : Q w2.store := ⟨_, hR2, hn1⟩
  have hrun2' : (sysProg P d s (.dir (.removeUser tw user [g]))).run env w1 = (.ok (.inr .unit), w2) := by
    rw [sysProg, Prog.run_bind_ok env hrun2]; rfl
  have hlen : ps.length = 3 := by rw [← hps]; rfl
  have hp1 : (ps.set 0 rest)[1]? = some (sysProg P d s (.dir (.removeUser tw user [g]))) := by
    rw [List.getElem?_set_ne (by decide), ← hps]; rfl
  have hnone2 : (sysProg P d s (.dir (.removeUser tw user [g]))).outcome = none :=
    bind_running (bind_running (bind_running (getIdentity_running (hto w.t)) _) _) _
  obtain ⟨n2, p2, o2, s2, q2, c2⟩ := sched_all _ hrun2' hnone2 _ 1 hp1
  replace q2 := (LastWrite.map (lastWrite_dirProg (P := P) (s := s) (.removeUser tw user [g]) (by rintro t sc ⟨⟩)) Sum.inr).sched hrun2' Q hQ1 hQ2 q2
  -- third, the owner shares the object with the group
  obtain ⟨w3, hrun3, hD3⟩ := run_call L hf hr (standalone_idpOk hd env) hR2.2 (.addGroups tw oid [g])
  have hfr3 := call_frame hd env w2 (.addGroups tw oid [g])
  have ido1 : dirCaller v1 (some owner) = some (dirIdentity v.1 (owner, uo)) := by
    have h1 : v1.users owner = some uo := by
      simp only [v1, Dir.setUser, if_neg hne.symm, huo]
    have : (uo.groups.all fun g => (v1.groups g).isSome) = true := List.all_eq_true.mpr huog
    simp only [dirCaller, Dir.identify, h1, this, if_true]
    rfl
  have hst3 : step sanitize v.2 (some (dirIdentity v.1 (owner, uo))) (freshOid d env w2 tw) (.addGroups tw oid [g]) = (.ok .unit, v2) := by
    have ha : allowed (dirIdentity v.1 (owner, uo)) scopeModifyAccessGroups e.members = true := by
      simp only [allowed, dirIdentity, hmo, huos, Bool.and_self, Bool.true_or]
    have hb : authenticate (some (dirIdentity v.1 (owner, uo))) scopeModifyAccessGroups = .ok (dirIdentity v.1 (owner, uo)) := by
      simp only [authenticate, dirIdentity, huos, if_true]
    simp only [step, guarded, hb, he, ha, if_true]
    rfl
  rw [whoIs_standalone L hd hf hR2.1] at hrun3 hD3
  simp only [Call.token] at hrun3 hD3
  rw [hto, ido1, hst3] at hrun3 hD3
  rw [hrun3] at hfr3
  have hR3 : SysRel P d s w3.store (v1, v2) := ⟨hR2.1.congr hfr3, hD3⟩
  have hQ3 : Q w3.store := ⟨_, hR3, hn2⟩
  have hrun3' : (sysProg P d s (.d1 (.addGroups tw oid [g]))).run env w2 = (.ok (.inl .unit), w3) := by
    rw [sysProg, Prog.run_bind_ok env hrun3]; rfl
  have hp2 : ((ps.set 0 rest).set 1 p2)[2]? = some (sysProg P d s (.d1 (.addGroups tw oid [g]))) := by
    rw [List.getElem?_set_ne (by decide), List.getElem?_set_ne (by decide), ← hps]; rfl
  have hnone3 : (sysProg P d s (.d1 (.addGroups tw oid [g]))).outcome = none :=
    bind_running (bind_running (bind_running (attempt_running (by rw [hd]; exact getIdentity_running (hto w.t)) _) _) _) _
  obtain ⟨n3, p3, o3, s3, q3, c3⟩ := sched_all _ hrun3' hnone3 _ 2 hp2
  replace q3 := (LastWrite.map (lastWrite_addGroups (P := P) (d := d) (fun t => by rw [hd]; exact reads_getIdentity t) tw oid [g]) Sum.inl).sched hrun3' Q hQ2 hQ3 q3
  -- last, the user's call goes on
  have hokI : IdpOk { d with idProvider := fun _ => .ret i } env := fun _ w' =>
    ⟨fun _ => ⟨rfl, rfl⟩, .inl ⟨i, rfl, by
      have := h.1.1 user
      rw [hu] at this
      obtain ⟨_, _, _, _, _, _, hq, _⟩ := this
      simp only [i, dirIdentity, List.map_map]
      rw [show ((Prod.fst : GoString × AccessGroup → GoString) ∘ fun g => (g, (⟨g, (v.1.groups g).getD 0⟩ : AccessGroup))) = id from rfl, List.map_id]
      exact hq⟩⟩
  obtain ⟨w4, hrun4, hD4⟩ := run_call L hf hr hokI (d := { d with idProvider := fun _ => .ret i }) (v := v2) (w := w3) hD3 (.decrypt tu oid)
  have hst4 : step sanitize v2 (some i) (freshOid { d with idProvider := fun _ => .ret i } env w3 tu) (.decrypt tu oid) = (.ok (.object e.object), v2) := by
    have ha : allowed i scopeDecrypt e1.members = true := by
      simp only [allowed, Bool.or_eq_true, List.any_eq_true]
      refine .inr ⟨(g, ⟨g, (v.1.groups g).getD 0⟩), List.mem_map.mpr ⟨g, hg, rfl⟩, ?_⟩
      simp only [hgs, Option.getD_some, hsg, Bool.and_true, Bool.and_eq_true, bne_iff_ne, ne_eq]
      exact ⟨hgu, by simp [e1, hsan]⟩
    have hb : authenticate (some i) scopeDecrypt = .ok i := by
      simp only [authenticate]
      exact if_pos hus
    simp only [step, guarded, hb, show v2 oid = some e1 from if_pos rfl, ha, if_true]
    rfl
  have hwho4 : whoIs { d with idProvider := fun _ => .ret i } env w3 (Call.decrypt tu oid).token = some i := rfl
  rw [hwho4] at hrun4 hD4
  simp only [Call.token] at hrun4 hD4
  rw [hst4] at hrun4 hD4
  have hrun4' : rest.run env w3 = (.ok (.inl (.object e.object)), w4) := by
    exact Prog.run_bind_ok env hrun4
  have hp3 : (((ps.set 0 rest).set 1 p2).set 2 p3)[0]? = some rest := by
    rw [List.getElem?_set_ne (by decide), List.getElem?_set_ne (by decide), List.getElem?_set_self (by omega)]
  obtain ⟨n4, p4, o4, s4, q4, c4⟩ := sched_all _ hrun4' hrest _ 0 hp3
  have hreads : ReadsOnly rest := by
    refine AllEff.bind (AllEff.bind ?_ fun _ => reads_ret _) fun _ => reads_ret _
    rw [decrypt_eq]
    exact AllEff.bind (allEff_guardProg (Q := fun e => e.target = none) (reads_ret _) rfl _) fun _ =>
      AllEff.bind (allEff_getSealedObject (Q := fun e => e.target = none) rfl) fun _ => allEff_ofExcept _
  have hQ4 : Q w4.store := by
    have : w4.store = w3.store := by
      funext x dt
      have := (hreads.mono (Q' := fun e => e.target ≠ some (x, dt)) fun e he => by rw [he]; simp).frame_run env w3
      rw [hrun4'] at this
      exact this
    rw [this]
    exact hQ3
  replace q4 := (LastWrite.of_reads hreads).sched hrun4' Q hQ3 hQ4 q4
  refine ⟨List.replicate n1 0 ++ (List.replicate n2 1 ++ (List.replicate n3 2 ++ List.replicate n4 0)), ?_, ?_⟩
  · rw [commits_append, s1, c1]
    simp only
    rw [commits_append, s2, c2]
    simp only
    rw [commits_append, s3, c3, c4]
    rfl
  · have key : ∀ n ≤ (List.replicate n1 0 ++ (List.replicate n2 1 ++ (List.replicate n3 2 ++ List.replicate n4 0))).length,
        Q (worldAt env (List.replicate n1 0 ++ (List.replicate n2 1 ++ (List.replicate n3 2 ++ List.replicate n4 0))) w ps n).store := by
      refine worldAt_append _ _ _ _ Q (by simpa using q1) ?_
      rw [s1]
      refine worldAt_append _ _ _ _ Q (by simpa using q2) ?_
      rw [s2]
      refine worldAt_append _ _ _ _ Q (by simpa using q3) ?_
      rw [s3]
      simpa using q4
    intro n hn env' t hf' hr' ht o w' hdec
    obtain ⟨v', hR, hno⟩ := key n hn
    exact hno o ((C44_decrypt_iff L hd hf' hr' (w := ⟨_, t⟩) hR ht oid o).mp ⟨w', hdec⟩)

/-! ## A concrete case -/

/-- User `a` (97) and owner `b` (98) are in group `g` (103); the object with ID 7… is shared with `b` only. -/
def raceDir (P : Prims) : Dir where
  users x := if x = [97] ∨ x = [98] then some ⟨fun p => (comparePassword P p (List.replicate 48 0)).getD false, scopeAll, [[103]]⟩ else none
  groups x := if x = [103] then some scopeAll else none

def raceOid : Oid := ⟨List.replicate 16 7, rfl⟩

def raceVault : Vault := fun o => if o = raceOid then some ⟨⟨some [1, 2, 3], some [4]⟩, fun x => decide (x = [98])⟩ else none

def raceKey : BytesN 32 := ⟨List.replicate 32 5, rfl⟩
def raceNonce : BytesN 12 := ⟨List.replicate 12 6, rfl⟩

def raceStore (P : Prims) (d : D1) (s : Standalone) : Store := fun x dt =>
  if dt = dtUser then (if x = [97] ∨ x = [98] then some (sealedUser P s x ⟨some (List.replicate 48 0), scopeAll, some [[103]]⟩ raceKey raceNonce).toJ.render else none)
  else if dt = dtGroup then (if x = [103] then some (sealedGroup P s x ⟨scopeAll⟩ raceKey raceNonce).toJ.render else none)
  else if dt = dtAccess then (if x = raceOid.1 then
    some (sealedAcc P d raceOid ⟨some [[98]], some (kwpBox P d.objectCryptor.kwp raceKey.1)⟩ raceKey raceNonce).toJ.render else none)
  else if dt = dtObject then (if x = raceOid.1 then some (sealedObj P raceOid ⟨some [1, 2, 3], some [4]⟩ raceKey raceNonce).toJ.render else none)
  else none

theorem raceRel : SysRel P d s (raceStore P d s) (raceDir P, raceVault) := by
  refine ⟨⟨fun x => ?_, fun x => ?_⟩, fun o => ?_⟩
  · by_cases h : x = [97] ∨ x = [98]
    · simp only [raceDir, if_pos h]
      refine ⟨List.replicate 48 0, raceKey, raceNonce, by simp only [raceStore, if_true, if_pos h], fun p => ?_, ?_, by simp, ?_⟩
      · simp [comparePassword, saltLength]
      · rcases h with rfl | rfl <;> decide
      · intro g hg
        rw [List.mem_singleton.mp hg]
        decide
    · simp only [raceDir, if_neg h]
      simp only [UserRel, raceStore, if_true, if_neg h]
  · by_cases h : x = [103]
    · simp only [raceDir, if_pos h]
      refine ⟨raceKey, raceNonce, ?_, by rw [h]; decide⟩
      rw [raceStore, if_neg (by decide), if_pos rfl, if_pos h]
    · simp only [raceDir, if_neg h]
      rw [GroupRel, raceStore, if_neg (by decide), if_pos rfl, if_neg h]
  · by_cases h : o = raceOid
    · subst h
      simp only [raceVault, if_true]
      refine ⟨_, ⟨[[98]], some (kwpBox P d.objectCryptor.kwp raceKey.1), raceKey, raceNonce, ?_, rfl⟩, ⟨raceKey, raceNonce, ?_, rfl⟩, fun x => ?_⟩
      · rw [raceStore, if_neg (by decide), if_neg (by decide), if_pos rfl, if_pos rfl]
      · rw [raceStore, if_neg (by decide), if_neg (by decide), if_neg (by decide), if_pos rfl, if_pos rfl]
      · simp only [has_sanList, List.any_cons, List.any_nil, Bool.or_false, show sanitize [98] = [98] by decide]
        rw [Bool.eq_iff_iff, beq_iff_eq, decide_eq_true_eq]
        exact eq_comm
    · have h' : o.1 ≠ raceOid.1 := fun e => h (Subtype.ext e)
      simp only [raceVault, if_neg h]
      constructor
      · rw [raceStore, if_neg (by decide), if_neg (by decide), if_neg (by decide), if_pos rfl, if_neg h']
      · rw [raceStore, if_neg (by decide), if_neg (by decide), if_pos rfl, if_neg h']

/-- The race exists in every deployment of D1 with the Standalone provider. -/
theorem C89_race (L : P.Laws) (hd : d.idProvider = s.getIdentity P) :
    ∃ (env : Env) (w : World) (tu tw user g : GoString) (oid : Oid) (o : Object) (sch : List Nat), NoFault env ∧ RandOk env ∧
      commits env sch w ([.d1 (.decrypt tu oid), .dir (.removeUser tw user [g]), .d1 (.addGroups tw oid [g])].map (sysProg P d s)) =
        [(1, .ok (.inr .unit)), (2, .ok (.inl .unit)), (0, .ok (.inl (.object o)))] ∧
      ∀ n ≤ sch.length, ∀ o' w', (d.decrypt P tu oid).run env
          (worldAt env sch w ([.d1 (.decrypt tu oid), .dir (.removeUser tw user [g]), .d1 (.addGroups tw oid [g])].map (sysProg P d s)) n) ≠ (.ok o', w') := by
  let env : Env := ⟨fun _ n => some ⟨List.replicate n 9, by simp⟩, fun _ => ⟨0, 0⟩, fun _ => .none⟩
  have htok : ∀ (x : GoString) (t : Nat), tokenUser P s.tokenCryptor ((sealedTok P s.tokenCryptor (some x) ⟨0, 0⟩ raceKey raceNonce).string P) (env.now t).ns = some x := by
    intro x t
    rw [tokenUser_string L, if_pos (le_refl _)]
    rfl
  obtain ⟨sch, h1, h2⟩ := C89_false (env := env) (w := ⟨raceStore P d s, 0⟩) (user := [97]) (owner := [98]) (g := [103]) (oid := raceOid) (sg := scopeAll)
    L hd (fun _ => rfl) (fun _ _ => rfl) raceRel (by decide) (htok [97]) (htok [98]) rfl
    (fun x hx => by rw [List.mem_singleton.mp hx]; rfl) (by show scopeIn _ scopeAll = true; decide) (by simp) (by decide) rfl (by decide) rfl
    (fun x hx => by rw [List.mem_singleton.mp hx]; rfl) (by show scopeIn _ scopeAll = true; decide) (by simp) (show raceVault raceOid = some _ from if_pos rfl) (by decide) (fun x hx => by rw [List.mem_singleton.mp hx]; decide) (by decide)
  exact ⟨env, _, _, _, _, _, _, _, sch, fun _ => rfl, fun _ _ => rfl, h1, fun n hn o' w' => h2 n hn env _ (fun _ => rfl) (fun _ _ => rfl) (htok [97] _) o' w'⟩

end
end D1
