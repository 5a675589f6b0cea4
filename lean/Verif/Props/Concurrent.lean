import Verif.Proofs.IndexRely
/-!
# Concurrent calls on the secure index: C32, C33
-/
namespace D1
open Spec Prog

/-- How a call may end at a moment: with the effect of the specification, or refused without any effect. -/
def IxLin (calls : List IxCall) (j : Nat) (x : Index) (o : Outcome IxRes) (x' : Index) : Prop :=
  ∃ c, calls[j]? = some c ∧ match o with
    | .ok r => ixEffect sanitize x c = (r, x')
    | .err e => x' = x ∧ (ixRefused e ∨ e = .nodeAlreadyExists ∧ ∃ t kw id, c = .add t kw id)
    | _ => False

/-- The same with the length of the list of each call's keyword at some earlier moment. -/
def IxLinM (calls : List IxCall) (m : Nat → Nat) (j : Nat) (s : Index × Nat) (o : Outcome IxRes) (s' : Index × Nat) : Prop :=
  ∃ c, calls[j]? = some c ∧ addLin (m j) c s o s'

section
variable {P : Prims} (L : P.Laws) {env : Env} {i : SecureIndex} (hk : i.indexKey.length = 32)

theorem ixLinM_lin {calls : List IxCall} {m : Nat → Nat} {cs : List (Nat × Outcome IxRes)} {s s' : Index × Nat}
    (h : LinRun (IxLinM calls m) cs s s') : LinRun (IxLin calls) cs s.1 s'.1 := by
  induction cs generalizing s with
  | nil => exact congrArg Prod.fst h
  | cons p r ih =>
    obtain ⟨j, o⟩ := p
    obtain ⟨s1, ⟨c, hc, h1⟩, h2⟩ := h
    refine ⟨s1.1, ⟨c, hc, ?_⟩, ih h2⟩
    cases o with
    | ok r => exact h1.1
    | err e =>
      obtain ⟨rfl, h1⟩ := h1
      exact ⟨rfl, h1.imp_right fun h => ⟨h.1, h.2.1⟩⟩
    | panic => exact h1.elim
    | diverge => exact h1.elim

include L hk in
/-- Calls that have not started yet. -/
theorem together_start (hi : IxIdp i) {K : List GoString} {N : Nat} (hN : N < 2 ^ 64) (ha : Apart P i K N) {fuel : Nat} (hfuel : N < fuel)
    {Good : GoString → GoString → Prop} (calls : List IxCall) (hc : ∀ c ∈ calls, c.keyword ∈ K) (hg : ∀ c ∈ calls, Covered Good c)
    {x : Index} {a : Nat} (haN : a + calls.length ≤ N) {st : Store} (h : IxRel P i K N st x a) (hx : ∀ kw ∈ K, ∀ id ∈ x kw, Good kw id) :
    Together (addRules P i K N Good) (IxLinM calls fun j => ((calls[j]?).map fun c => (x c.keyword).length).getD 0) (x, a) st
      (calls.map (ixProg P i fuel)) := by
  refine ⟨⟨h, hx, by simp only; omega⟩, fun j p hp => ?_, ?_⟩
  · rw [List.getElem?_map, Option.map_eq_some_iff] at hp
    obtain ⟨c, hj, rfl⟩ := hp
    have hmem := List.mem_of_getElem? hj
    refine (rg_ixProg L hk hi hN ha hfuel c (hc c hmem) (hg c hmem) (s := (x, a)) (by simp only; omega) h).mono fun s o s' hl => ?_
    refine ⟨c, hj, ?_⟩
    simp only [hj]
    exact hl
  · have : pending (calls.map (ixProg P i fuel)) ≤ (calls.map (ixProg P i fuel)).length := List.countP_le_length
    rw [List.length_map] at this
    simp only [addRules, addRulesG]
    omega

/-- None of the calls is a `Delete`. -/
def NoDelete (calls : List IxCall) : Prop := ∀ c ∈ calls, ∀ t kw id, c ≠ .delete t kw id

theorem NoDelete.covered {calls : List IxCall} (h : NoDelete calls) : ∀ c ∈ calls, Covered (fun _ _ => True) c := by
  intro c hc
  cases c with
  | add => trivial
  | search => trivial
  | delete t kw id => exact absurd rfl (h _ hc t kw id)

/-! ## C32 -/

include L hk in
/-- C32: any number of `Add` and `Search` calls run concurrently in any interleaving of their IO calls, also if some never finish.  Ordered by
the moment at which they end, each has the effect and the result that the specification gives it at that moment: an acknowledged `Add`
appends its identifier once, a `Search` returns the list as it is then, and a call that reports an error has no effect.  An error is a refusal
or, for `Add`, `ErrNodeAlreadyExists`. -/
theorem C32_linearizable (hf : NoFault env) (hi : IxIdp i) {K : List GoString} {N : Nat} (hN : N < 2 ^ 64) (ha : Apart P i K N)
    {fuel : Nat} (hfuel : N < fuel) (calls : List IxCall) (hc : ∀ c ∈ calls, c.keyword ∈ K) (hnd : NoDelete calls) {x : Index} {a : Nat}
    (haN : a + calls.length ≤ N) {w : World} (h : IxRel P i K N w.store x a) (sch : List Nat) :
    ∃ x' a', LinRun (IxLin calls) (commits env sch w (calls.map (ixProg P i fuel))) x x' ∧
      IxRel P i K N (sched env sch w (calls.map (ixProg P i fuel))).1.store x' a' ∧
      a' + pending (sched env sch w (calls.map (ixProg P i fuel))).2 ≤ N := by
  have ht := together_start (Good := fun _ _ => True) L hk hi hN ha hfuel calls hc hnd.covered haN h (fun _ _ _ _ => trivial)
  obtain ⟨s', h1, h2, h3⟩ := ht.sched (env := env) (fun w e => cleanStep hf w e) sch
  refine ⟨s'.1, s'.2, ixLinM_lin h1, h3.inv.1, ?_⟩
  have := h3.bud
  simp only [addRules, addRulesG] at this
  have := h3.inv.2.2
  omega

include L hk in
/-- C32: an `Add` that reports `ErrNodeAlreadyExists` was overtaken.  If call `j` has not begun when the part `sch1` of the schedule is over and
ends with that error during `sch2`, then another `Add` for the same keyword was acknowledged during `sch2` before that. -/
theorem C32_overtaken (hf : NoFault env) (hi : IxIdp i) {K : List GoString} {N : Nat} (hN : N < 2 ^ 64) (ha : Apart P i K N)
    {fuel : Nat} (hfuel : N < fuel) (calls : List IxCall) (hc : ∀ c ∈ calls, c.keyword ∈ K) (hnd : NoDelete calls) {x : Index} {a : Nat}
    (haN : a + calls.length ≤ N) {w : World} (h : IxRel P i K N w.store x a) (sch1 sch2 : List Nat) {j : Nat} (hj : j ∉ sch1)
    (he : (j, Outcome.err Err.nodeAlreadyExists) ∈ commits env sch2 (sched env sch1 w (calls.map (ixProg P i fuel))).1
      (sched env sch1 w (calls.map (ixProg P i fuel))).2) :
    ∃ pre post j' t t' kw id id', commits env sch2 (sched env sch1 w (calls.map (ixProg P i fuel))).1
        (sched env sch1 w (calls.map (ixProg P i fuel))).2 = pre ++ (j, .err .nodeAlreadyExists) :: post ∧
      (j', .ok .unit) ∈ pre ∧ calls[j]? = some (.add t kw id) ∧ calls[j']? = some (.add t' kw id') := by
  have ht := together_start (Good := fun _ _ => True) L hk hi hN ha hfuel calls hc hnd.covered haN h (fun _ _ _ _ => trivial)
  obtain ⟨s1, -, -, h3⟩ := ht.sched (env := env) (fun w e => cleanStep hf w e) sch1
  -- call `j` has not begun
  have hfix : ∀ (s : List Nat) (w : World) (ps : List (Prog IxRes)), j ∉ s → (sched env s w ps).2[j]? = ps[j]? := by
    intro s
    induction s with
    | nil => exact fun _ _ _ => rfl
    | cons b s ih =>
      intro w ps hb
      simp only [List.mem_cons, not_or] at hb
      simp only [sched]
      cases hb' : ps[b]? with
      | none => exact ih _ _ hb.2
      | some p =>
        cases p with
        | op e k => rw [ih _ _ hb.2, List.getElem?_set_ne (Ne.symm hb.1)]
        | _ => exact ih _ _ hb.2
  have hpj := hfix sch1 w (calls.map (ixProg P i fuel)) hj
  generalize (sched env sch1 w (calls.map (ixProg P i fuel))).1 = w1 at *
  generalize (sched env sch1 w (calls.map (ixProg P i fuel))).2 = ps1 at *
  -- watch it from here
  obtain ⟨⟨p0, hp0, -⟩, -⟩ := ((commits_spec sch2 w1 ps1).2 _ _).mp he
  rw [hp0, List.getElem?_map, eq_comm, Option.map_eq_some_iff] at hpj
  obtain ⟨cj, hcj, hprog⟩ := hpj
  have hmemj := List.mem_of_getElem? hcj
  have ht' : Together (addRules P i K N fun _ _ => True) (IxLinM calls fun b => if b = j then (s1.1 cj.keyword).length else 0) s1 w1.store ps1 := by
    refine ⟨h3.inv, fun b p hp => ?_, h3.bud⟩
    by_cases hb : b = j
    · subst hb
      rw [hp0] at hp
      cases hp
      rw [← hprog]
      refine (rg_ixProg L hk hi hN ha hfuel cj (hc cj hmemj) (hnd.covered cj hmemj) h3.inv.2.2 h3.inv.1).mono fun s o s' hl => ⟨cj, hcj, ?_⟩
      simp only [if_true]
      exact hl
    · refine (h3.rg b p hp).mono fun s o s' hl => ?_
      obtain ⟨c, hc1, hc2⟩ := hl
      refine ⟨c, hc1, ?_⟩
      simp only [if_neg hb]
      cases o with
      | ok r => exact hc2
      | err e => exact ⟨hc2.1, hc2.2.imp_right fun g => ⟨g.1, g.2.1, by omega⟩⟩
      | panic => exact hc2
      | diverge => exact hc2
  obtain ⟨s2, g1, -, -⟩ := ht'.sched (env := env) (fun w e => cleanStep hf w e) sch2
  generalize commits env sch2 w1 ps1 = cs at g1 he ⊢
  obtain ⟨pre, post, rfl⟩ := List.append_of_mem he
  obtain ⟨s3, g2, g3⟩ := LinRun.append.mp g1
  obtain ⟨s4, ⟨c, hc1, hc2⟩, -⟩ := g3
  rw [hcj] at hc1
  cases hc1
  obtain ⟨-, hc2⟩ := hc2
  rcases hc2 with hc2 | ⟨-, ⟨t, kw, id, rfl⟩, hlen⟩
  · rcases hc2 with hc2 | hc2 | hc2 <;> cases hc2
  simp only [if_true, IxCall.keyword] at hlen
  -- the list has grown
  have grow : ∀ (cs : List (Nat × Outcome IxRes)) (s s' : Index × Nat) (m : Nat → Nat), LinRun (IxLinM calls m) cs s s' →
      (s.1 kw).length < (s'.1 kw).length → ∃ j' t' id', (j', Outcome.ok IxRes.unit) ∈ cs ∧ calls[j']? = some (.add t' kw id') := by
    intro cs
    induction cs with
    | nil => intro s s' m h1 h2; cases h1; omega
    | cons p r ih =>
      intro s s' m h1 h2
      obtain ⟨b, o⟩ := p
      obtain ⟨s1, ⟨c, hc1, hc2⟩, h1⟩ := h1
      by_cases hl : (s.1 kw).length < (s1.1 kw).length
      · cases o with
        | ok r =>
          cases c with
          | add t' kw' id' =>
            have h5 := hc2.1
            simp only [ixEffect, Prod.mk.injEq] at h5
            obtain ⟨rfl, h5⟩ := h5
            by_cases hkk : kw = kw'
            · subst hkk; exact ⟨b, t', id', by simp, hc1⟩
            · rw [← h5, Index.set, if_neg hkk] at hl; omega
          | search t' kw' =>
            have h5 := hc2.1
            simp only [ixEffect, Prod.mk.injEq] at h5
            rw [h5.2] at hl; omega
          | delete t' kw' id' => exact absurd rfl (hnd _ (List.mem_of_getElem? hc1) t' kw' id')
        | err e => rw [hc2.1] at hl; omega
        | panic => exact hc2.elim
        | diverge => exact hc2.elim
      · obtain ⟨j', t', id', h3, h4⟩ := ih s1 s' m h1 (by omega)
        exact ⟨j', t', id', by simp [h3], h4⟩
  obtain ⟨j', t', id', h5, h6⟩ := grow pre s1 s3 _ g2 hlen
  exact ⟨pre, post, j', t, t', kw, id, id', rfl, h5, hcj, h6⟩

/-! ## C33 -/

include L hk in
/-- C33, a part that holds: `Delete` calls that match nothing (their identifiers are neither in the index nor among the ones being added) can
run along with any number of `Add` and `Search` calls; no acknowledged `Add` is lost.  Missing: `Delete` calls that match
(`C33_lost_add`). -/
theorem C33_no_match_partial (hf : NoFault env) (hi : IxIdp i) {K : List GoString} {N : Nat} (hN : N < 2 ^ 64) (ha : Apart P i K N)
    {fuel : Nat} (hfuel : N < fuel) (calls : List IxCall) (hc : ∀ c ∈ calls, c.keyword ∈ K) {x : Index} {a : Nat}
    (hnm : ∀ t kw id, .delete t kw id ∈ calls → id ∉ x kw ∧ ∀ t' id', .add t' kw id' ∈ calls → sanitize id' ≠ id)
    (haN : a + calls.length ≤ N) {w : World} (h : IxRel P i K N w.store x a) (sch : List Nat) :
    ∃ x' a', LinRun (IxLin calls) (commits env sch w (calls.map (ixProg P i fuel))) x x' ∧
      IxRel P i K N (sched env sch w (calls.map (ixProg P i fuel))).1.store x' a' ∧
      a' + pending (sched env sch w (calls.map (ixProg P i fuel))).2 ≤ N := by
  have ht := together_start (Good := fun kw id => ∀ t, .delete t kw id ∉ calls) L hk hi hN ha hfuel calls hc (fun c hcm => by
      cases c with
      | add t kw id => exact fun t' hm => (hnm t' kw _ hm).2 t id hcm rfl
      | search => trivial
      | delete t kw id => exact fun hg => hg t hcm) haN h (fun kw _ id hid t hm => (hnm t kw id hm).1 hid)
  obtain ⟨s', h1, h2, h3⟩ := ht.sched (env := env) (fun w e => cleanStep hf w e) sch
  refine ⟨s'.1, s'.2, ixLinM_lin h1, h3.inv.1, ?_⟩
  have := h3.bud
  have := h3.inv.2.2
  simp only [addRules, addRulesG] at *
  omega

end

/-! ## Concrete cases -/

/-- An index with identifier `[97]` under keyword `[107]`. -/
def toyOne : World := ((ixProg toyPrims toyIndex 9 (.add [1] [107] [97])).run toyEnv ⟨fun _ _ => none, 0⟩).2

theorem toyOne_rel : IxRel toyPrims toyIndex [[107], [108]] 5 toyOne.store (emptyIndex.set [107] [[97]]) 1 := by
  obtain ⟨w', h1, h2⟩ := run_ixCall toyLaws (i := toyIndex) rfl toyEnv_noFault toyEnv_randOk toyIndex_idp (K := [[107], [108]]) (N := 5)
    (by decide) toyIndex_apart (a := 0) (by decide) (fuel := 9) (by decide) (.add [1] [107] [97]) (by decide) (w := ⟨fun _ _ => none, 0⟩)
    (ixRel_empty fun _ => rfl)
  rw [toyOne, h1]
  exact h2

/-- C33, refutation: an `Add` of `[98]` and a `Delete` of `[97]` run concurrently on the same keyword, whose list is `[97]`.  The `Delete` runs
between the last read and the write of the `Add`.  Both report success, and a later `Search` does not find `[98]`. -/
theorem C33_lost_add : ∃ sch, commits toyEnv sch toyOne
      ([.add [1] [107] [98], .delete [1] [107] [97]].map (ixProg toyPrims toyIndex 9)) = [(1, .ok .unit), (0, .ok .unit)] ∧
    ((toyIndex.search toyPrims 9 [1] [107]).run toyEnv (sched toyEnv sch toyOne
      ([.add [1] [107] [98], .delete [1] [107] [97]].map (ixProg toyPrims toyIndex 9))).1).1 = .ok [] :=
  ⟨[0, 0, 0, 0, 1, 1, 1, 1, 0], by decide +kernel, by decide +kernel⟩

/-- Non-vacuity of C32: two `Add` calls race, one is overtaken, and a `Search` sees the winner. -/
example : commits toyEnv [0, 1, 0, 1, 0, 1, 0, 1, 0, 2, 2, 2, 1] toyOne
      ([.add [1] [107] [98], .add [1] [107] [99], .search [1] [107]].map (ixProg toyPrims toyIndex 9)) =
    [(0, .ok .unit), (2, .ok (.ids [[97], [98]])), (1, .err .nodeAlreadyExists)] := by decide +kernel

example : NoDelete [.add [1] [107] [98], .add [1] [107] [99], .search [1] [107]] := by
  intro c hc t kw id h
  subst h
  simp at hc

end D1
