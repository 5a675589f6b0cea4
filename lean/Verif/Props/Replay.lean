import Verif.Proofs.IndexReplay
import Verif.Props.Concurrent
/-!
# The secure index under faults, crashes, concurrency and replays: C29, C65
-/
namespace D1
open Spec Prog

/-- The identifiers that have a reason to be found under a keyword: those there at the start and those of the `Add` calls made. -/
def AddedTo (x : Index) (calls : List IxCall) (kw y : GoString) : Prop := y ∈ x kw ∨ ∃ t id, .add t kw id ∈ calls ∧ y = sanitize id

/-- Everything in a store was written to it. -/
def histOf (st : Store) : Hist := fun id dt d => st id dt = some d

section
variable {P : Prims} (L : P.Laws) {env : Env} {i : SecureIndex} (hk : i.indexKey.length = 32)

theorem genuine_of_rel {K : List GoString} {N : Nat} {st : Store} {x : Index} {a : Nat} (h : IxRel P i K N st x a) {A : GoString → GoString → Prop}
    (hA : ∀ kw y, y ∈ x kw → A kw y) : Genuine P i K N A a (histOf st) := by
  intro kw hkw c hc b hb
  obtain ⟨l, e, h1, h2, h3, h4, h5⟩ := h kw hkw
  have hn : nodes P i st kw c = some (readNode P i kw c (.ok b)) := by rw [nodes, show st _ _ = some b from hb]; rfl
  by_cases hcl : c ∈ l.map Prod.fst
  · -- a node on the path
    have : ∀ (s : Nat) (l : List (Nat × GoString)), Path (nodes P i st kw) s l e → c ∈ l.map Prod.fst →
        ∃ y c', nodes P i st kw c = some (.ok ⟨y, c'⟩) ∧ c < c' ∧ c' ≤ e ∧ y ∈ l.map Prod.snd := by
      intro s l
      induction l generalizing s with
      | nil => intro _ h; simp at h
      | cons p l ih =>
        intro hp hm
        obtain ⟨c', g1, g2, g3, g4⟩ := path_cons.mp hp
        rw [List.map_cons, List.mem_cons] at hm
        rcases hm with rfl | hm
        · rw [g1]
          exact ⟨p.2, c', g2, g3, g4.le, by simp⟩
        · obtain ⟨y, c2, f1, f2, f3, f4⟩ := ih c' g4 hm
          exact ⟨y, c2, f1, f2, f3, by simp only [List.map_cons, List.mem_cons]; exact .inr f4⟩
    obtain ⟨y, c', f1, f2, f3, f4⟩ := this 0 l h1 hcl
    rw [f1] at hn
    refine ⟨y, c', (Option.some.inj hn).symm, f2, by omega, hA kw y (by rw [← h2]; exact f4)⟩
  · rw [h4 c hc hcl] at hn
    cases hn

theorem rel_sanitized {K : List GoString} {N : Nat} {st : Store} {x : Index} {a : Nat} (h : IxRel P i K N st x a) {kw y : GoString} (hkw : kw ∈ K)
    (hy : y ∈ x kw) : sanitize y = y := by
  obtain ⟨l, e, h1, h2, h3, h4, h5⟩ := h kw hkw
  rw [← h2] at hy
  obtain ⟨p, hp, rfl⟩ := List.mem_map.mp hy
  exact h5 p hp

include L hk in
/-- Calls against a replaying provider, from any genuine history on. -/
theorem replay_outcomes (hi : IxIdp i) {K : List GoString} {N : Nat} (hN : N < 2 ^ 64) (ha : Apart P i K N) {fuel : Nat} (hfuel : N < fuel)
    (calls : List IxCall) (hc : ∀ c ∈ calls, c.keyword ∈ K) {A : GoString → GoString → Prop} (hA : ∀ kw y, A kw y → A kw (sanitize y))
    (hadd : ∀ c ∈ calls, AddsIn A c) {B : Nat} (hB : B + calls.length ≤ N) {h h' : Hist} (hg : Genuine P i K N A B h)
    {cs : List (Nat × Outcome IxRes)} {ps : List (Prog IxRes)} (hr : Runs ReplayStep h (calls.map (ixProg P i fuel)) cs h' ps) :
    ∀ j o, (j, o) ∈ cs → ∃ c, calls[j]? = some c ∧ RepOut A c o := by
  have ht : Together (replayRules P i K N A) (fun j B o B' => ∃ c, calls[j]? = some c ∧ repLin A c B o B') B h (calls.map (ixProg P i fuel)) := by
    refine ⟨⟨by omega, hg⟩, fun j p hp => ?_, ?_⟩
    · rw [List.getElem?_map, Option.map_eq_some_iff] at hp
      obtain ⟨c, hj, rfl⟩ := hp
      have hmem := List.mem_of_getElem? hj
      exact (rg_ixProg_replay L hk hi hN ha hA hfuel c (hc c hmem) (hadd c hmem) B h).mono fun s o s' hl => ⟨c, hj, hl⟩
    · have : pending (calls.map (ixProg P i fuel)) ≤ (calls.map (ixProg P i fuel)).length := List.countP_le_length
      rw [List.length_map] at this
      simp only [replayRules]
      omega
  obtain ⟨s', h1, -, -⟩ := ht.runs hr
  have : ∀ (cs : List (Nat × Outcome IxRes)) (s s' : Nat), LinRun (fun j B o B' => ∃ c, calls[j]? = some c ∧ repLin A c B o B') cs s s' →
      ∀ j o, (j, o) ∈ cs → ∃ c, calls[j]? = some c ∧ RepOut A c o := by
    intro cs
    induction cs with
    | nil => intro _ _ _ j o h; simp at h
    | cons p r ih =>
      intro s s' hl j o hm
      obtain ⟨j', o'⟩ := p
      obtain ⟨s1, ⟨c, h1, h2⟩, h3⟩ := hl
      rcases List.mem_cons.mp hm with hm | hm
      · cases hm
        exact ⟨c, h1, h2.2.2⟩
      · exact ih s1 s' h3 j o hm
  exact this cs B s' h1

/-- A store, whatever the faults, behaves like a replaying provider. -/
theorem anyStep_replay (st : Store) (h : Hist) (e : Eff) (r : e.Resp) (st' : Store) (hR : ∀ id dt d, st id dt = some d → h id dt d)
    (hs : AnyStep st e r st') : ∃ h', ReplayStep h e r h' ∧ ∀ id dt d, st' id dt = some d → h' id dt d := by
  obtain ⟨rnd, clk, hs⟩ := hs
  have hset : ∀ (id : Bytes) (dt : DataType) (b : Bytes) id' dt' d, st.set id dt (some b) id' dt' = some d → h.add id dt b id' dt' d := by
    intro id dt b id' dt' d hd
    simp only [Store.set] at hd
    split at hd
    · rename_i hh; cases hd; exact .inr ⟨hh.1, hh.2, rfl⟩
    · exact .inl (hR _ _ _ hd)
  have hdel : ∀ (id : Bytes) (dt : DataType) id' dt' d, st.set id dt none id' dt' = some d → h id' dt' d := by
    intro id dt id' dt' d hd
    simp only [Store.set] at hd
    split at hd
    · cases hd
    · exact hR _ _ _ hd
  have hst' : st' = st ∨ st' = (st.exec rnd clk e).2 := by
    rcases hs with hs | ⟨-, hs⟩
    · exact .inr (by rw [hs])
    · exact hs
  cases e with
  | put id dt b =>
    refine ⟨h.add id dt b, rfl, fun id' dt' d hd => ?_⟩
    rcases hst' with rfl | rfl
    · exact .inl (hR _ _ _ hd)
    · simp only [Store.exec] at hd
      cases hx : st id dt with
      | none => rw [hx] at hd; exact hset _ _ _ _ _ _ hd
      | some y => rw [hx] at hd; exact .inl (hR _ _ _ hd)
  | update id dt b =>
    refine ⟨h.add id dt b, rfl, fun id' dt' d hd => ?_⟩
    rcases hst' with rfl | rfl
    · exact .inl (hR _ _ _ hd)
    · simp only [Store.exec] at hd
      cases hx : st id dt with
      | none => rw [hx] at hd; exact .inl (hR _ _ _ hd)
      | some y => rw [hx] at hd; exact hset _ _ _ _ _ _ hd
  | get id dt =>
    have hsame : (st.exec rnd clk (.get id dt)).2 = st := by simp only [Store.exec]; cases st id dt <;> rfl
    refine ⟨h, ⟨rfl, fun d hd => ?_⟩, fun id' dt' d hd => ?_⟩
    · rcases hs with hs | ⟨hs, -⟩
      · simp only [Store.exec] at hs
        cases hx : st id dt with
        | none => rw [hx] at hs; cases hs; cases hd
        | some y => rw [hx] at hs; cases hs; cases hd; exact hR _ _ _ hx
      · rw [hs] at hd; cases hd
    · rcases hst' with rfl | rfl
      · exact hR _ _ _ hd
      · rw [hsame] at hd; exact hR _ _ _ hd
  | delete id dt =>
    refine ⟨h, rfl, fun id' dt' d hd => ?_⟩
    rcases hst' with rfl | rfl
    · exact hR _ _ _ hd
    · exact hdel _ _ _ _ _ hd
  | rand n =>
    refine ⟨h, rfl, fun id' dt' d hd => ?_⟩
    rcases hst' with rfl | rfl
    · exact hR _ _ _ hd
    · exact hR _ _ _ hd
  | now =>
    refine ⟨h, rfl, fun id' dt' d hd => ?_⟩
    rcases hst' with rfl | rfl
    · exact hR _ _ _ hd
    · exact hR _ _ _ hd

include L hk in
theorem replay_from_rel (hi : IxIdp i) {K : List GoString} {N : Nat} (hN : N < 2 ^ 64) (ha : Apart P i K N) {fuel : Nat} (hfuel : N < fuel)
    (calls : List IxCall) (hc : ∀ c ∈ calls, c.keyword ∈ K) {x : Index} {a : Nat} (haN : a + calls.length ≤ N) {st : Store}
    (h : IxRel P i K N st x a) {h' : Hist} {cs : List (Nat × Outcome IxRes)} {ps : List (Prog IxRes)}
    (hr : Runs ReplayStep (histOf st) (calls.map (ixProg P i fuel)) cs h' ps) :
    ∀ j o, (j, o) ∈ cs → ∃ c, calls[j]? = some c ∧ RepOut (AddedTo x calls) c o := by
  have hA : ∀ kw y, (kw ∈ K ∧ AddedTo x calls kw y) → kw ∈ K ∧ AddedTo x calls kw (sanitize y) := by
    rintro kw y ⟨hkw, hy⟩
    refine ⟨hkw, ?_⟩
    rcases hy with hy | ⟨t, id, hm, rfl⟩
    · rw [rel_sanitized h hkw hy]; exact .inl hy
    · rw [sanitize_idem]; exact .inr ⟨t, id, hm, rfl⟩
  have hgen : Genuine P i K N (fun kw y => kw ∈ K ∧ AddedTo x calls kw y) a (histOf st) := by
    have := genuine_of_rel h (A := fun kw y => AddedTo x calls kw y) (fun kw y hy => .inl hy)
    intro kw hkw c hc b hb
    obtain ⟨y, c', g1, g2, g3, g4⟩ := this kw hkw c hc b hb
    exact ⟨y, c', g1, g2, g3, hkw, g4⟩
  intro j o hm
  obtain ⟨c, h1, h2⟩ := replay_outcomes L hk hi hN ha hfuel calls hc (A := fun kw y => kw ∈ K ∧ AddedTo x calls kw y) hA
    (fun c hcm => by cases c with
      | add t kw id => exact ⟨hc _ hcm, .inr ⟨t, id, hcm, rfl⟩⟩
      | search => trivial
      | delete => trivial) haN hgen hr j o hm
  refine ⟨c, h1, ?_⟩
  cases c with
  | add t kw id => cases o <;> exact h2
  | delete t kw id => cases o <;> exact h2
  | search t kw =>
    cases o with
    | ok r => exact let ⟨l, g1, g2⟩ := h2; ⟨l, g1, fun y hy => (g2 y hy).2⟩
    | _ => exact h2

/-! ## C65 -/

include L hk in
/-- C65: any number of `Add`, `Search` and `Delete` calls run concurrently, in any interleaving; any IO call may fail, with or without having
taken effect; any call may never finish.  A `Search` that ends reports a refusal or an IO failure, or returns only identifiers that were there
at the start or belong to one of the `Add` calls for that keyword; it never panics, never loops and never meets a record it cannot
decrypt.  An `Add` reports success, a refusal, an IO failure or that it was overtaken. -/
theorem C65_only_added (hi : IxIdp i) {K : List GoString} {N : Nat} (hN : N < 2 ^ 64) (ha : Apart P i K N)
    {fuel : Nat} (hfuel : N < fuel) (calls : List IxCall) (hc : ∀ c ∈ calls, c.keyword ∈ K) {x : Index} {a : Nat}
    (haN : a + calls.length ≤ N) {w : World} (h : IxRel P i K N w.store x a) (sch : List Nat) :
    ∀ j o, (j, o) ∈ commits env sch w (calls.map (ixProg P i fuel)) → ∃ c, calls[j]? = some c ∧ RepOut (AddedTo x calls) c o := by
  obtain ⟨h', hr, -⟩ := (sched_runs (anyStep env) sch w (calls.map (ixProg P i fuel))).simulate (step' := ReplayStep)
    (R := fun st h => ∀ id dt d, st id dt = some d → h id dt d) (fun a b e r a' hR hs => anyStep_replay a b e r a' hR hs)
    (b := histOf w.store) (show ∀ id dt d, w.store id dt = some d → histOf w.store id dt d from fun _ _ _ h => h)
  exact replay_from_rel L hk hi hN ha hfuel calls hc haN h hr

include L hk in
/-- C65: the same against a provider that loses writes and deletions at will and answers every read with any record ever written under that
label, old or new. -/
theorem C65_replayed (hi : IxIdp i) {K : List GoString} {N : Nat} (hN : N < 2 ^ 64) (ha : Apart P i K N)
    {fuel : Nat} (hfuel : N < fuel) (calls : List IxCall) (hc : ∀ c ∈ calls, c.keyword ∈ K) {x : Index} {a : Nat}
    (haN : a + calls.length ≤ N) {st : Store} (h : IxRel P i K N st x a) {h' : Hist} {cs : List (Nat × Outcome IxRes)} {ps : List (Prog IxRes)}
    (hr : Runs ReplayStep (histOf st) (calls.map (ixProg P i fuel)) cs h' ps) {j : Nat} {t kw : GoString}
    (hj : calls[j]? = some (.search t kw)) {l : List GoString} (hl : (j, .ok (.ids l)) ∈ cs) : ∀ y ∈ l, AddedTo x calls kw y := by
  obtain ⟨c, h1, h2⟩ := replay_from_rel L hk hi hN ha hfuel calls hc haN h hr _ _ hl
  rw [hj] at h1
  cases h1
  obtain ⟨l', g1, g2⟩ := h2
  cases g1
  exact g2

/-! ## C29 -/

include L hk in
/-- C29, the part about replays that holds: against a provider that answers reads with any earlier genuine record for the label, and with
any number of concurrent calls, `Add` and `Search` end within a number of iterations that the number of `Add` calls ever made bounds.
Missing: `Delete` (`C29_delete_loops`). -/
theorem C29_replay_partial (hi : IxIdp i) {K : List GoString} {N : Nat} (hN : N < 2 ^ 64) (ha : Apart P i K N)
    {fuel : Nat} (hfuel : N < fuel) (calls : List IxCall) (hc : ∀ c ∈ calls, c.keyword ∈ K) {x : Index} {a : Nat}
    (haN : a + calls.length ≤ N) {st : Store} (h : IxRel P i K N st x a) {h' : Hist} {cs : List (Nat × Outcome IxRes)} {ps : List (Prog IxRes)}
    (hr : Runs ReplayStep (histOf st) (calls.map (ixProg P i fuel)) cs h' ps) {j : Nat} (hj : (j, .diverge) ∈ cs) :
    ∃ t kw id, calls[j]? = some (.delete t kw id) := by
  obtain ⟨c, h1, h2⟩ := replay_from_rel L hk hi hN ha hfuel calls hc haN h hr _ _ hj
  cases c with
  | add t kw id => exact h2.elim
  | search t kw => exact h2.elim
  | delete t kw id => exact ⟨t, kw, id, h1⟩

/-- One effect of a single call. -/
theorem runs_goes {S α : Type} {step : S → (e : Eff) → e.Resp → S → Prop} {s s' s'' : S} {e : Eff} {k : e.Resp → Prog α}
    {cs : List (Nat × Outcome α)} {ps : List (Prog α)} (r : e.Resp) (hs : step s e r s') (ho : (k r).outcome = none)
    (h : Runs step s' [k r] cs s'' ps) : Runs step s [.op e k] cs s'' ps := .goes (j := 0) rfl hs ho h

theorem runs_ends {S α : Type} {step : S → (e : Eff) → e.Resp → S → Prop} {s s' : S} {e : Eff} {k : e.Resp → Prog α} {o : Outcome α}
    (r : e.Resp) (hs : step s e r s') (ho : (k r).outcome = some o) : Runs step s [.op e k] [(0, o)] s' [k r] :=
  .ends (j := 0) rfl hs ho (.done _ _)

include L in
/-- `Delete` goes on as long as the provider brings the last node back. -/
theorem deleteLoop_replays {kw id : GoString} {st : Store} {h : Hist} (hh : ∀ b, st (ixLabel P i kw 0) dtNode = some b → h (ixLabel P i kw 0) dtNode b)
    (h0 : nodes P i st kw 0 = some (.ok ⟨id, 1⟩)) (fuel : Nat) (x : GoString) :
    Runs ReplayStep h [(deleteLoop P (ixTagger P i kw) (ixCryptor P i kw) id (fuel + 1) ⟨x, 0⟩).bind fun _ => .ret IxRes.unit]
      [(0, .diverge)] h [.diverge] := by
  obtain ⟨b, hb⟩ := nodes_some h0
  have hread : readNode P i kw 0 (.ok b) = .ok ⟨id, 1⟩ := by
    rw [nodes, hb] at h0
    exact Option.some.inj h0
  have key : ∀ p : Prog IxRes, (deleteLoop P (ixTagger P i kw) (ixCryptor P i kw) id (fuel + 1) ⟨x, 0⟩).bind (fun _ => .ret IxRes.unit) = p →
      (p.outcome = none) ∧ Runs ReplayStep h [p] [(0, .diverge)] h [.diverge] := by
    induction fuel with
    | zero =>
      intro p hp
      rw [deleteLoop, getNextNode_attempt L, op_bind] at hp
      subst hp
      refine ⟨rfl, runs_goes (.ok b) ⟨rfl, fun d hd => by cases hd; exact hh b hb⟩ ?_ ?_⟩
      all_goals simp only [hread, if_true, bind_eq, nextLabel_eq L, ofPanic_some, ret_bind, deleteNode, getNextNode_attempt L, op_bind]
      · rfl
      refine runs_goes (.error .notFound) ⟨rfl, fun d hd => by cases hd⟩ ?_ ?_
      all_goals simp only [readNode, onNotFound, deleteSealedNode, ioDelete, op_bind]
      · rfl
      exact runs_ends (e := .delete _ _) (.ok ()) rfl rfl
    | succ fuel ih =>
      intro p hp
      rw [deleteLoop, getNextNode_attempt L, op_bind] at hp
      obtain ⟨i1, i2⟩ := ih _ rfl
      subst hp
      refine ⟨rfl, runs_goes (.ok b) ⟨rfl, fun d hd => by cases hd; exact hh b hb⟩ ?_ ?_⟩
      all_goals simp only [hread, if_true, bind_eq, nextLabel_eq L, ofPanic_some, ret_bind, deleteNode, getNextNode_attempt L, op_bind]
      · rfl
      refine runs_goes (.error .notFound) ⟨rfl, fun d hd => by cases hd⟩ ?_ ?_
      all_goals simp only [readNode, onNotFound, deleteSealedNode, ioDelete, op_bind]
      · rfl
      exact runs_goes (e := .delete _ _) (.ok ()) rfl i1 i2
  exact (key _ rfl).2

end

/-- C29, refutation for `Delete`: the index holds `[97]` under keyword `[107]`.  For every number of iterations there is a run of `Delete` of
`[97]` against a replaying provider that uses them all up: the provider acknowledges each deletion and then answers with the old record. -/
theorem C29_delete_loops (fuel : Nat) : ∃ h' ps, Runs ReplayStep (histOf toyOne.store)
    [ixProg toyPrims toyIndex (fuel + 1) (.delete [1] [107] [97])] [(0, .diverge)] h' ps := by
  have h0 : nodes toyPrims toyIndex toyOne.store [107] 0 = some (.ok ⟨[97], 1⟩) := by decide +kernel
  refine ⟨histOf toyOne.store, [.diverge], ?_⟩
  rw [ixProg_eq toyLaws (i := toyIndex) rfl]
  exact deleteLoop_replays toyLaws (fun b hb => hb) h0 fuel []

/-- Non-vacuity of C65: an `Add` reports failure although it took effect, a `Delete` is cut off between its two writes, and a `Search` returns
only what was added. -/
example : commits { toyEnv with fault := fun t => if t = 8 then .after else .none } [0, 0, 0, 0, 0, 1, 1, 1, 1, 1, 2, 2] toyOne
      ([.add [1] [107] [98], .delete [1] [107] [97], .search [1] [107]].map (ixProg toyPrims toyIndex 9)) =
    [(0, .err (.io .failure)), (2, .ok (.ids [[98]]))] := by decide +kernel

end D1
