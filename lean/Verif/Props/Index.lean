import Verif.Proofs.IndexRun
import Verif.Proofs.Frame
import Verif.Props.Guard
/-!
# The secure index, one call at a time: C27, C28, C29, C31, C34, C36
-/
namespace D1
open Spec Prog

/-- The program of a call, with what the caller sees. -/
def ixProg (P : Prims) (i : SecureIndex) (fuel : Nat) : IxCall → Prog IxRes
  | .add t kw id => (i.add P fuel t kw id).bind fun _ => .ret .unit
  | .search t kw => (i.search P fuel t kw).bind fun l => .ret (.ids l)
  | .delete t kw id => (i.delete P fuel t kw id).bind fun _ => .ret .unit

/-- What the index needs from its Identity Provider: it answers with an identity or an error and leaves the records of the index
alone. -/
def IxIdp (i : SecureIndex) : Prop := ∀ token, AllEff (fun e => ∀ x, e.target ≠ some (x, dtNode)) (i.idProvider token) ∧
  AllOut (Returns fun _ => True) (i.idProvider token)

/-- What the Identity Provider says about a token at a given moment. -/
def ixWho (i : SecureIndex) (env : Env) (w : World) (token : GoString) : Option Identity :=
  match ((i.idProvider token).run env w).1 with
  | .ok x => some x
  | _ => none

/-- The store holds this index: for the keywords `K`, with all counters at most `a`, and nothing else at counters up to `N`. -/
def IxRel (P : Prims) (i : SecureIndex) (K : List GoString) (N : Nat) (st : Store) (x : Index) (a : Nat) : Prop :=
  ∀ kw ∈ K, ∃ l e, Path (nodes P i st kw) 0 l e ∧ l.map Prod.snd = x kw ∧ e ≤ a ∧
    (∀ c ≤ N, c ∉ l.map Prod.fst → nodes P i st kw c = none) ∧ ∀ p ∈ l, sanitize p.2 = p.2

section
variable {P : Prims} (L : P.Laws) {env : Env} {i : SecureIndex} (hk : i.indexKey.length = 32)

theorem IxRel.congr {K : List GoString} {N a : Nat} {st st' : Store} {x : Index} (h : IxRel P i K N st x a)
    (hs : ∀ y, st' y dtNode = st y dtNode) : IxRel P i K N st' x a := by
  intro kw hkw
  have : nodes P i st' kw = nodes P i st kw := funext fun c => nodes_congr hs kw c
  rw [this]
  exact h kw hkw

theorem IxRel.mono {K : List GoString} {N a b : Nat} {st : Store} {x : Index} (h : IxRel P i K N st x a) (hab : a ≤ b) :
    IxRel P i K N st x b := by
  intro kw hkw
  obtain ⟨l, e, h1, h2, h3, h4⟩ := h kw hkw
  exact ⟨l, e, h1, h2, by omega, h4⟩

theorem IxIdp.same (h : IxIdp i) (token : GoString) (w : World) (x : Bytes) :
    ((i.idProvider token).run env w).2.store x dtNode = w.store x dtNode :=
  ((h token).1.mono fun _ he => he x).frame_run env w

/-- `verifyAccess` decides as the specification does. -/
theorem run_ixVerifyAccess (h : IxIdp i) (token : GoString) (w : World) : ∃ w1, (∀ x, w1.store x dtNode = w.store x dtNode) ∧
    (i.verifyAccess token).run env w = (match ixWho i env w token with
      | none => (.err .ixNotAuthenticated, w1)
      | some y => if scopeIn scopeIndex y.scopes then (.ok (), w1) else (.err .ixNotAuthorized, w1)) := by
  have hs := h.same (env := env) token w
  have ho := (h token).2.run env w
  refine ⟨((i.idProvider token).run env w).2, hs, ?_⟩
  rw [SecureIndex.verifyAccess, ixWho, run_attempt]
  cases hr : (i.idProvider token).run env w with
  | mk o w1 =>
    rw [hr] at ho
    cases o with
    | ok y =>
      simp only [scopeIn_eq]
      cases y.scopes.contains scopeIndex <;> rfl
    | err e => rfl
    | panic => exact ho.elim
    | diverge => exact ho.elim

/-- What a call does once it is admitted. -/
def ixBody (P : Prims) (i : SecureIndex) (fuel : Nat) : IxCall → Prog IxRes
  | .add _ kw id => (addBody P i fuel kw id).bind fun _ => .ret .unit
  | .search _ kw => (searchLoop P (ixTagger P i kw) (ixCryptor P i kw) fuel zeroNode []).bind fun l => .ret (.ids l)
  | .delete _ kw id => (deleteLoop P (ixTagger P i kw) (ixCryptor P i kw) id fuel zeroNode).bind fun _ => .ret .unit

include L hk in
theorem ixProg_eq (fuel : Nat) (c : IxCall) : ixProg P i fuel c = (i.verifyAccess c.token).bind fun _ => ixBody P i fuel c := by
  cases c <;> simp only [ixProg, add_eq L hk, search_eq L hk, delete_eq L hk, bind_assoc, IxCall.token, ixBody]

include L in
/-- An admitted call is one step of the specification. -/
theorem run_ixBody (hf : NoFault env) (hr : RandOk env) {K : List GoString} {N : Nat} (hN : N < 2 ^ 64) (ha : Apart P i K N) {x : Index}
    {a : Nat} (haN : a < N) {fuel : Nat} (hfuel : N < fuel) (c : IxCall) (hc : c.keyword ∈ K) {w : World}
    (h : IxRel P i K N w.store x a) :
    ∃ w', (ixBody P i fuel c).run env w = (.ok (ixEffect sanitize x c).1, w') ∧
      IxRel P i K N w'.store (ixEffect sanitize x c).2 (a + 1) := by
  obtain ⟨l, e, h1, h2, h3, h4, h5⟩ := h c.keyword hc
  have hm := h1.mem
  have hlen := h1.length_le
  have he : nodes P i w.store c.keyword e = none := h4 e (by omega) (by
    simp only [List.mem_map, not_exists, not_and]
    exact fun p hp hpe => by have := hm p hp; omega)
  -- other keywords
  have others : ∀ {st' : Store} {y : List GoString}, SameElse P i K N c.keyword w.store st' →
      (∃ l e, Path (nodes P i st' c.keyword) 0 l e ∧ l.map Prod.snd = y ∧ e ≤ a + 1 ∧
        (∀ b ≤ N, b ∉ l.map Prod.fst → nodes P i st' c.keyword b = none) ∧ ∀ p ∈ l, sanitize p.2 = p.2) →
      IxRel P i K N st' (x.set c.keyword y) (a + 1) := by
    intro st' y hse hthis kw hkw
    by_cases hkc : kw = c.keyword
    · subst hkc
      simp only [Index.set, if_true]
      exact hthis
    · simp only [Index.set, if_neg hkc]
      obtain ⟨l, e, g1, g2, g3, g4, g5⟩ := h kw hkw
      have := g1.le
      refine ⟨l, e, g1.congr fun b _ hb => hse kw hkw hkc b (by omega), g2, by omega, fun b hb hbl => ?_, g5⟩
      rw [hse kw hkw hkc b hb]
      exact g4 b hb hbl
  cases c with
  | add t kw id =>
    simp only [IxCall.keyword, IxCall.token] at *
    obtain ⟨k, nn, t', hrun⟩ := run_addBody L hf hr h1 he (fuel := fuel) (by omega) id
    refine ⟨_, by rw [ixBody, run_bind_ok env hrun]; rfl, ?_⟩
    refine others (SameElse.set ha hc (by omega) _ _) ⟨_, _, path_add L ha hc h1 (by omega) hN id k nn, by simp [h2], by omega, ?_, ?_⟩
    · intro b hb hbl
      simp only [List.map_append, List.map_cons, List.map_nil, List.mem_append, List.mem_singleton, not_or] at hbl
      rw [nodes_set ha hc hc (by omega) hb, if_neg (fun hh => hbl.2 hh.2)]
      exact h4 b hb hbl.1
    · intro p hp
      rcases List.mem_append.mp hp with hp | hp
      · exact h5 p hp
      · rw [List.mem_singleton.mp hp]
        exact sanitize_idem id
  | search t kw =>
    simp only [IxCall.keyword, IxCall.token] at *
    have hrun := run_searchLoop L hf h1 he fuel (by omega) [] [] w.t
    refine ⟨⟨w.store, w.t + (l.length + 1)⟩, ?_, h.mono (by omega)⟩
    rw [ixBody, run_bind_ok env (show (searchLoop P (ixTagger P i kw) (ixCryptor P i kw) fuel zeroNode []).run env w = _ from hrun)]
    simp [run_ret, ixEffect, h2]
  | delete t kw id =>
    simp only [IxCall.keyword, IxCall.token] at *
    obtain ⟨st', t', l', e', g1, g2, g3, g4, g5, g6, g7⟩ := run_deleteLoop L hf hr hN ha hc id fuel h1 (by omega) (by omega)
      (fun b hb _ => h4 b hb) h5 [] w.t
    refine ⟨⟨st', t'⟩, ?_, others g7 ⟨l', e', g2, by rw [g3, h2], by omega, fun b hb => g5 b hb (by omega), ?_⟩⟩
    · rw [ixBody, run_bind_ok env (show (deleteLoop P (ixTagger P i kw) (ixCryptor P i kw) id fuel zeroNode).run env w = _ from g1)]
      rfl
    · intro p hp
      have : p.2 ∈ (l.map Prod.snd).filter (· ≠ id) := by rw [← g3]; exact List.mem_map.mpr ⟨p, hp, rfl⟩
      obtain ⟨q, hq, hqp⟩ := List.mem_map.mp (List.mem_filter.mp this).1
      rw [← hqp]
      exact h5 q hq

include L hk in
/-- A call is one step of the specification. -/
theorem run_ixCall (hf : NoFault env) (hr : RandOk env) (hi : IxIdp i) {K : List GoString} {N : Nat} (hN : N < 2 ^ 64) (ha : Apart P i K N)
    {x : Index} {a : Nat} (haN : a < N) {fuel : Nat} (hfuel : N < fuel) (c : IxCall) (hc : c.keyword ∈ K) {w : World}
    (h : IxRel P i K N w.store x a) :
    ∃ w', (ixProg P i fuel c).run env w = (toOutcome (ixStep sanitize x (ixWho i env w c.token) c).1, w') ∧
      IxRel P i K N w'.store (ixStep sanitize x (ixWho i env w c.token) c).2 (a + 1) := by
  obtain ⟨w1, hs, hv⟩ := run_ixVerifyAccess (env := env) hi c.token w
  have h1 := h.congr hs
  rw [ixProg_eq L hk]
  cases hw : ixWho i env w c.token with
  | none =>
    rw [hw] at hv
    exact ⟨w1, by rw [run_bind_err env hv]; rfl, h1.mono (by omega)⟩
  | some y =>
    rw [hw] at hv
    simp only at hv
    simp only [ixStep]
    by_cases hsc : scopeIn scopeIndex y.scopes = true
    · rw [if_pos hsc] at hv ⊢
      rw [run_bind_ok env hv]
      exact run_ixBody L hf hr hN ha haN hfuel c hc h1
    · rw [if_neg hsc] at hv ⊢
      exact ⟨w1, by rw [run_bind_err env hv]; rfl, h1.mono (by omega)⟩

/-! ## Histories -/

/-- Run calls one after the other and collect what the callers see. -/
def ixCodeHist (P : Prims) (i : SecureIndex) (fuel : Nat) (env : Env) : World → List IxCall → List (Outcome IxRes)
  | _, [] => []
  | w, c :: r => ((ixProg P i fuel c).run env w).1 :: ixCodeHist P i fuel env ((ixProg P i fuel c).run env w).2 r

/-- The world after a list of calls. -/
def ixCodeAfter (P : Prims) (i : SecureIndex) (fuel : Nat) (env : Env) : World → List IxCall → World
  | w, [] => w
  | w, c :: r => ixCodeAfter P i fuel env ((ixProg P i fuel c).run env w).2 r

/-- What the Identity Provider says at each call. -/
def ixAnnotate (P : Prims) (i : SecureIndex) (fuel : Nat) (env : Env) : World → List IxCall → List (Option Identity × IxCall)
  | _, [] => []
  | w, c :: r => (ixWho i env w c.token, c) :: ixAnnotate P i fuel env ((ixProg P i fuel c).run env w).2 r

/-- The index after a list of calls. -/
def ixAfter (norm : GoString → GoString) : Index → List (Option Identity × IxCall) → Index
  | x, [] => x
  | x, (who, c) :: r => ixAfter norm (ixStep norm x who c).2 r

/-- The empty index. -/
def emptyIndex : Index := fun _ => []

theorem ixRel_empty {K : List GoString} {N : Nat} {st : Store} (h : ∀ x, st x dtNode = none) : IxRel P i K N st emptyIndex 0 :=
  fun _ _ => ⟨[], 0, .nil 0, rfl, Nat.le_refl _, fun _ _ _ => nodes_none.mpr (h _), by simp⟩

/-! ## C27 -/

include L hk in
/-- C27 from any store that holds an index. -/
theorem C27_index_from (hf : NoFault env) (hr : RandOk env) (hi : IxIdp i) {K : List GoString} {N : Nat} (hN : N < 2 ^ 64)
    (ha : Apart P i K N) {fuel : Nat} (hfuel : N < fuel) (calls : List IxCall) (hc : ∀ c ∈ calls, c.keyword ∈ K) {x : Index} {a : Nat}
    (hlen : a + calls.length ≤ N) {w : World} (h : IxRel P i K N w.store x a) :
    ixCodeHist P i fuel env w calls = (ixHist sanitize x (ixAnnotate P i fuel env w calls)).map toOutcome ∧
    IxRel P i K N (ixCodeAfter P i fuel env w calls).store (ixAfter sanitize x (ixAnnotate P i fuel env w calls)) (a + calls.length) := by
  induction calls generalizing x a w with
  | nil => exact ⟨rfl, h⟩
  | cons c r ih =>
    simp only [List.length_cons] at hlen
    obtain ⟨w', h1, h2⟩ := run_ixCall L hk hf hr hi hN ha (by omega) hfuel c (hc c (by simp)) h
    simp only [ixCodeHist, ixAnnotate, ixHist, ixCodeAfter, ixAfter, List.map_cons, List.length_cons]
    rw [h1]
    obtain ⟨h3, h4⟩ := ih (fun c' hc' => hc c' (by simp [hc'])) (by omega) h2
    exact ⟨by rw [h3], by rw [show a + (r.length + 1) = a + 1 + r.length by omega]; exact h4⟩

include L hk in
/-- C27: starting without nodes, any sequence of fewer than `2 ^ 64` calls gives the results of a plain map from keywords to lists.  The
keywords in use must not collide in KMAC (`Apart`; see `C35_labels` for what a collision amounts to).  Any `fuel` above the number of
calls will do, so no call loops. -/
theorem C27_index (hf : NoFault env) (hr : RandOk env) (hi : IxIdp i) (calls : List IxCall) (hN : calls.length < 2 ^ 64)
    (ha : Apart P i (calls.map IxCall.keyword) calls.length) {fuel : Nat} (hfuel : calls.length < fuel) {w : World}
    (h : ∀ x, w.store x dtNode = none) :
    ixCodeHist P i fuel env w calls = (ixHist sanitize emptyIndex (ixAnnotate P i fuel env w calls)).map toOutcome :=
  (C27_index_from L hk hf hr hi hN ha hfuel calls (fun _ hc => List.mem_map_of_mem hc) (by omega) (ixRel_empty h)).1

/-- Two different keyword and counter pairs that share a label are a collision of the sponge on inputs made for these keywords. -/
theorem apart_of_no_collision (L : P.Laws) (hk : i.indexKey.length = 32) {K : List GoString} {N : Nat} (hN : N < 2 ^ 64)
    (h : ∀ kw ∈ K, ∀ kw' ∈ K, ¬ Collides P (taggerInput i kw) (taggerInput i kw') ∧
      ∀ c ≤ N, ∀ c' ≤ N, ¬ Collides P (labelInput P i kw c) (labelInput P i kw' c')) : Apart P i K N := by
  intro kw hkw kw' hkw' c hc c' hc' he
  rcases (C35_labels L i hk).2 kw kw' c c' (ixLabel P i kw c) (by omega) (by omega) (nodeLabel_eq L i hk kw c)
    (by rw [he]; exact nodeLabel_eq L i hk kw' c') with h' | h' | h'
  · exact h'
  · exact absurd h' (h kw hkw kw' hkw').1
  · exact absurd h' ((h kw hkw kw' hkw').2 c hc c' hc')

/-! ## C28 -/

/-- An accepted call has its effect. -/
theorem ixStep_ok {x : Index} {who : Option Identity} {c : IxCall} {r : IxRes} (he : Outcome.ok r = toOutcome (ixStep sanitize x who c).1) :
    r = (ixEffect sanitize x c).1 ∧ (ixStep sanitize x who c).2 = (ixEffect sanitize x c).2 := by
  cases who with
  | none => simp [ixStep, toOutcome] at he
  | some y =>
    simp only [ixStep] at he ⊢
    by_cases hs : scopeIn scopeIndex y.scopes = true
    · rw [if_pos hs] at he ⊢
      simp only [toOutcome, Outcome.ok.injEq] at he
      exact ⟨he, rfl⟩
    · rw [if_neg hs] at he; simp [toOutcome] at he

include L hk in
/-- C28: whatever the index holds, `Delete(kw, id)` takes every `id` out of the result of `Search(kw)`, keeps the rest in order, and changes
the result of no other `Search`. -/
theorem C28_delete (hf : NoFault env) (hr : RandOk env) (hi : IxIdp i) {K : List GoString} {N : Nat} (hN : N < 2 ^ 64)
    (ha : Apart P i K N) {fuel : Nat} (hfuel : N < fuel) {x : Index} {a : Nat} (haN : a + 2 < N) {w w1 w2 w3 : World}
    (h : IxRel P i K N w.store x a) {t1 t2 t3 kw kw' id : GoString} (hkw : kw ∈ K) (hkw' : kw' ∈ K) {l l' : List GoString}
    (h1 : (i.search P fuel t1 kw').run env w = (.ok l, w1)) (h2 : (i.delete P fuel t2 kw id).run env w1 = (.ok (), w2))
    (h3 : (i.search P fuel t3 kw').run env w2 = (.ok l', w3)) :
    l' = if kw' = kw then l.filter (· ≠ id) else l := by
  obtain ⟨v1, g1, r1⟩ := run_ixCall L hk hf hr hi hN ha (by omega) hfuel (.search t1 kw') hkw' h
  simp only [ixProg, run_bind_ok env h1, run_ret, Prod.mk.injEq] at g1
  obtain ⟨g1, rfl⟩ := g1
  obtain ⟨v2, g2, r2⟩ := run_ixCall L hk hf hr hi hN ha (by omega) hfuel (.delete t2 kw id) hkw r1
  simp only [ixProg, run_bind_ok env h2, run_ret, Prod.mk.injEq] at g2
  obtain ⟨g2, rfl⟩ := g2
  obtain ⟨v3, g3, -⟩ := run_ixCall L hk hf hr hi hN ha (by omega) hfuel (.search t3 kw') hkw' r2
  simp only [ixProg, run_bind_ok env h3, run_ret, Prod.mk.injEq] at g3
  obtain ⟨g3, -⟩ := g3
  obtain ⟨e1, s1⟩ := ixStep_ok g1
  obtain ⟨e2, s2⟩ := ixStep_ok g2
  obtain ⟨e3, -⟩ := ixStep_ok g3
  rw [s2, s1] at e3
  simp only [ixEffect, IxRes.ids.injEq, Index.set] at e1 e3
  rw [e3, e1]
  by_cases hkk : kw' = kw
  · simp only [hkk, if_true]
  · simp only [hkk, if_false]

/-! ## C29, on genuine stores -/

include L hk in
/-- C29, first half: on every store that holds an index, every call ends. -/
theorem C29_terminates (hf : NoFault env) (hr : RandOk env) (hi : IxIdp i) {K : List GoString} {N : Nat} (hN : N < 2 ^ 64)
    (ha : Apart P i K N) {x : Index} {a : Nat} (haN : a < N) (c : IxCall) (hc : c.keyword ∈ K) {w : World}
    (h : IxRel P i K N w.store x a) : ∃ r, ∀ fuel, N < fuel → ((ixProg P i fuel c).run env w).1 = r ∧ r ≠ .diverge ∧ r ≠ .panic := by
  refine ⟨toOutcome (ixStep sanitize x (ixWho i env w c.token) c).1, fun fuel hfuel => ?_⟩
  obtain ⟨w', h1, -⟩ := run_ixCall L hk hf hr hi hN ha haN hfuel c hc h
  rw [h1]
  exact ⟨rfl, by cases (ixStep sanitize x (ixWho i env w c.token) c).1 <;> simp [toOutcome],
    by cases (ixStep sanitize x (ixWho i env w c.token) c).1 <;> simp [toOutcome]⟩

/-! ## C34 -/

/-- C34: when the Identity Provider rejects the token, the call ends there with `ErrNotAuthenticated`: nothing was asked of the IO
Provider, the random source or the clock beyond what the Identity Provider itself asked (`tr`). -/
theorem C34_unauthenticated (fuel : Nat) (c : IxCall) {tr : List Event} {e : Err} (hrej : Yields (i.idProvider c.token) tr (.err e)) :
    Yields (ixProg P i fuel c) tr (.err .ixNotAuthenticated) ∧
      ∀ tr' out, Yields (ixProg P i fuel c) tr' out → tr <+: tr' → tr' = tr ∧ out = .err .ixNotAuthenticated := by
  have h : Yields (ixProg P i fuel c) tr (.err .ixNotAuthenticated) := by
    have hv : Yields (i.verifyAccess c.token) tr (.err .ixNotAuthenticated) := by
      rw [SecureIndex.verifyAccess, yields_attempt]
      exact .inr (.inl ⟨tr, [], e, by simp, hrej, .err _⟩)
    cases c <;> simp only [ixProg, SecureIndex.add, SecureIndex.search, SecureIndex.delete, bind_eq, bind_assoc] <;>
      exact yields_bind.mpr (.inr (.inl ⟨_, hv, rfl⟩))
  exact ⟨h, fun tr' out h' hp => yields_unique h h' hp⟩

/-- C34: when the caller lacks the Index scope, the call ends there with `ErrNotAuthorized`. -/
theorem C34_scope (fuel : Nat) (c : IxCall) {tr : List Event} {y : Identity} (hacc : Yields (i.idProvider c.token) tr (.ok y))
    (hs : scopeIn scopeIndex y.scopes = false) :
    Yields (ixProg P i fuel c) tr (.err .ixNotAuthorized) ∧
      ∀ tr' out, Yields (ixProg P i fuel c) tr' out → tr <+: tr' → tr' = tr ∧ out = .err .ixNotAuthorized := by
  have h : Yields (ixProg P i fuel c) tr (.err .ixNotAuthorized) := by
    have hv : Yields (i.verifyAccess c.token) tr (.err .ixNotAuthorized) := by
      rw [SecureIndex.verifyAccess, yields_attempt]
      refine .inl ⟨tr, [], y, by simp, hacc, ?_⟩
      rw [scopeIn_eq] at hs
      simp [hs]
    cases c <;> simp only [ixProg, SecureIndex.add, SecureIndex.search, SecureIndex.delete, bind_eq, bind_assoc] <;>
      exact yields_bind.mpr (.inr (.inl ⟨_, hv, rfl⟩))
  exact ⟨h, fun tr' out h' hp => yields_unique h h' hp⟩

/-- C34: conversely, whenever a call succeeds or asks anything beyond the Identity Provider's own effects, the token was accepted with
the Index scope. -/
theorem C34_needed (fuel : Nat) (c : IxCall) {tr : List Event} {out : Outcome IxRes} (h : Yields (ixProg P i fuel c) tr out) :
    (∃ trI trR y, tr = trI ++ trR ∧ Yields (i.idProvider c.token) trI (.ok y) ∧ scopeIn scopeIndex y.scopes = true) ∨
    (∃ o, Yields (i.idProvider c.token) tr o) ∧ ∀ r, out ≠ .ok r := by
  have hh : ∃ B, ixProg P i fuel c = (i.verifyAccess c.token).bind B := by
    cases c <;> simp only [ixProg, SecureIndex.add, SecureIndex.search, SecureIndex.delete, bind_eq, bind_assoc, IxCall.token] <;>
      exact ⟨_, rfl⟩
  obtain ⟨B, hB⟩ := hh
  rw [hB, yields_bind] at h
  have hv : ∀ {tr o}, Yields (i.verifyAccess c.token) tr o → (o = .ok () → ∃ y, Yields (i.idProvider c.token) tr (.ok y) ∧
      scopeIn scopeIndex y.scopes = true) ∧ ∃ o', Yields (i.idProvider c.token) tr o' := by
    intro tr o hy
    rw [SecureIndex.verifyAccess, yields_attempt] at hy
    rcases hy with ⟨t1, t2, y, rfl, h1, h2⟩ | ⟨t1, t2, e, rfl, h1, h2⟩ | ⟨h1, rfl⟩ | ⟨h1, rfl⟩
    · simp only at h2
      split at h2
      · obtain ⟨rfl, rfl⟩ := yields_err.mp h2
        exact ⟨by simp, _, by rw [List.append_nil]; exact h1⟩
      · rename_i hs
        obtain ⟨rfl, rfl⟩ := yields_ret.mp h2
        refine ⟨fun _ => ⟨y, by rw [List.append_nil]; exact h1, by rw [scopeIn_eq]; simpa using hs⟩, _, by rw [List.append_nil]; exact h1⟩
    · obtain ⟨rfl, rfl⟩ := yields_err.mp h2
      exact ⟨by simp, _, by rw [List.append_nil]; exact h1⟩
    · exact ⟨by simp, _, h1⟩
    · exact ⟨by simp, _, h1⟩
  rcases h with ⟨t1, t2, u, rfl, h1, h2⟩ | ⟨e, h1, rfl⟩ | ⟨h1, rfl⟩ | ⟨h1, rfl⟩
  · obtain ⟨y, g1, g2⟩ := (hv h1).1 rfl
    exact .inl ⟨t1, t2, y, rfl, g1, g2⟩
  · exact .inr ⟨(hv h1).2, by simp⟩
  · exact .inr ⟨(hv h1).2, by simp⟩
  · exact .inr ⟨(hv h1).2, by simp⟩

/-! ## C36 -/

include L hk in
/-- C36, the part that holds: an identifier that is valid UTF-8 is found byte for byte, and `Delete` with the same string removes it.
Missing: other strings (`C36_replaced`). -/
theorem C36_valid_partial (hf : NoFault env) (hr : RandOk env) (hi : IxIdp i) {K : List GoString} {N : Nat} (hN : N < 2 ^ 64)
    (ha : Apart P i K N) {fuel : Nat} (hfuel : N < fuel) {x : Index} {a : Nat} (haN : a + 2 < N) {w w1 w2 : World}
    (h : IxRel P i K N w.store x a) {t1 t2 t3 kw id : GoString} (hkw : kw ∈ K) (hid : validUtf8 id = true)
    (h1 : (i.add P fuel t1 kw id).run env w = (.ok (), w1)) :
    (∀ l w', (i.search P fuel t2 kw).run env w1 = (.ok l, w') → l = x kw ++ [id]) ∧
    ((i.delete P fuel t2 kw id).run env w1 = (.ok (), w2) →
      ∀ l w', (i.search P fuel t3 kw).run env w2 = (.ok l, w') → l = (x kw).filter (· ≠ id)) := by
  obtain ⟨v1, g1, r1⟩ := run_ixCall L hk hf hr hi hN ha (by omega) hfuel (.add t1 kw id) hkw h
  simp only [ixProg, run_bind_ok env h1, run_ret, Prod.mk.injEq] at g1
  obtain ⟨g1, rfl⟩ := g1
  rw [(ixStep_ok g1).2] at r1
  simp only [ixEffect, sanitize_of_valid hid] at r1
  constructor
  · intro l w' hl
    obtain ⟨v2, g2, -⟩ := run_ixCall L hk hf hr hi hN ha (by omega) hfuel (.search t2 kw) hkw r1
    simp only [ixProg, run_bind_ok env hl, run_ret, Prod.mk.injEq] at g2
    have := (ixStep_ok g2.1).1
    simpa [ixEffect, Index.set] using this
  · intro h2 l w' hl
    obtain ⟨v2, g2, r2⟩ := run_ixCall L hk hf hr hi hN ha (by omega) hfuel (.delete t2 kw id) hkw r1
    simp only [ixProg, run_bind_ok env h2, run_ret, Prod.mk.injEq] at g2
    obtain ⟨g2, rfl⟩ := g2
    rw [(ixStep_ok g2).2] at r2
    obtain ⟨v3, g3, -⟩ := run_ixCall L hk hf hr hi hN ha (by omega) hfuel (.search t3 kw) hkw r2
    simp only [ixProg, run_bind_ok env hl, run_ret, Prod.mk.injEq] at g3
    have := (ixStep_ok g3.1).1
    simpa [ixEffect, Index.set] using this

include L hk in
/-- C36, refutation: an identifier that is not valid UTF-8 is recorded as another string.  `Search` after `Add` ends with that other string
(U+FFFD in place of the bad bytes) and never returns the identifier itself; `Delete` with the identifier does not remove it. -/
theorem C36_replaced (hf : NoFault env) (hr : RandOk env) (hi : IxIdp i) {K : List GoString} {N : Nat} (hN : N < 2 ^ 64)
    (ha : Apart P i K N) {fuel : Nat} (hfuel : N < fuel) {x : Index} {a : Nat} (haN : a + 2 < N) {w w1 w2 : World}
    (h : IxRel P i K N w.store x a) {t1 t2 t3 kw id : GoString} (hkw : kw ∈ K) (hid : validUtf8 id = false)
    (h1 : (i.add P fuel t1 kw id).run env w = (.ok (), w1)) (h2 : (i.delete P fuel t2 kw id).run env w1 = (.ok (), w2))
    {l : List GoString} {w' : World} (hl : (i.search P fuel t3 kw).run env w2 = (.ok l, w')) :
    l = (x kw).filter (· ≠ id) ++ [sanitize id] ∧ sanitize id ≠ id ∧ id ∉ l := by
  have hne : sanitize id ≠ id := fun he => by rw [(sanitize_eq_iff id).mp he] at hid; cases hid
  obtain ⟨v1, g1, r1⟩ := run_ixCall L hk hf hr hi hN ha (by omega) hfuel (.add t1 kw id) hkw h
  simp only [ixProg, run_bind_ok env h1, run_ret, Prod.mk.injEq] at g1
  obtain ⟨g1, rfl⟩ := g1
  rw [(ixStep_ok g1).2] at r1
  obtain ⟨v2, g2, r2⟩ := run_ixCall L hk hf hr hi hN ha (by omega) hfuel (.delete t2 kw id) hkw r1
  simp only [ixProg, run_bind_ok env h2, run_ret, Prod.mk.injEq] at g2
  obtain ⟨g2, rfl⟩ := g2
  rw [(ixStep_ok g2).2] at r2
  obtain ⟨v3, g3, -⟩ := run_ixCall L hk hf hr hi hN ha (by omega) hfuel (.search t3 kw) hkw r2
  simp only [ixProg, run_bind_ok env hl, run_ret, Prod.mk.injEq] at g3
  have := (ixStep_ok g3.1).1
  have hres : l = (x kw).filter (· ≠ id) ++ [sanitize id] := by simpa [ixEffect, Index.set, hne] using this
  refine ⟨hres, hne, ?_⟩
  rw [hres]
  simp [Ne.symm hne]

/-! ## C31 -/

/-- Reading a node in any environment: the right answer or a failure, and nothing is written. -/
theorem run_getNextNode_any (L : P.Laws) (env : Env) (kw : GoString) (n : Node) (w : World) :
    ∃ o, (getNextNode P n (ixTagger P i kw) (ixCryptor P i kw)).run env w = (o, w.next w.store) ∧
      (o = .err (.io .failure) ∨ o = (match nodes P i w.store kw n.nextCounter with
        | none => .err .nodeNotFound
        | some (.error e) => .err e
        | some (.ok m) => .ok m)) := by
  rw [getNextNode_eq L, run_op, nodes]
  simp only [World.exec, Store.exec]
  cases env.fault w.t with
  | none =>
    cases w.store (ixLabel P i kw n.nextCounter) dtNode with
    | none => exact ⟨_, rfl, .inr rfl⟩
    | some b =>
      simp only [Option.map_some]
      cases readNode P i kw n.nextCounter (.ok b) <;> exact ⟨_, rfl, .inr rfl⟩
  | before => exact ⟨_, rfl, .inl rfl⟩
  | after =>
    cases w.store (ixLabel P i kw n.nextCounter) dtNode <;> exact ⟨_, rfl, .inl rfl⟩

theorem run_getLastNodeLoop_any (L : P.Laws) (env : Env) {kw : GoString} {st : Store} {c e : Nat} {l : List (Nat × GoString)}
    (h : Path (nodes P i st kw) c l e) (he : nodes P i st kw e = none) (fuel : Nat) (x : GoString) (t : Nat) :
    ∀ {n : Node} {w' : World}, (getLastNodeLoop P (ixTagger P i kw) (ixCryptor P i kw) fuel ⟨x, c⟩).run env ⟨st, t⟩ = (.ok n, w') →
      n.nextCounter = e ∧ w'.store = st := by
  induction h generalizing fuel x t with
  | nil c =>
    intro n w' hrun
    cases fuel with
    | zero => simp [getLastNodeLoop] at hrun
    | succ f =>
      rw [getLastNodeLoop] at hrun
      obtain ⟨o, h1, h2⟩ := run_getNextNode_any L env (i := i) kw ⟨x, c⟩ ⟨st, t⟩
      simp only [he] at h2
      rcases h2 with rfl | rfl <;> rw [run_attempt_err env h1] at hrun
      · simp at hrun
      · simp only [run_ret, Prod.mk.injEq, Outcome.ok.injEq] at hrun
        rw [← hrun.1, ← hrun.2]
        exact ⟨rfl, rfl⟩
  | @cons c c' e y l h1 h2 h3 ih =>
    intro n w' hrun
    cases fuel with
    | zero => simp [getLastNodeLoop] at hrun
    | succ f =>
      rw [getLastNodeLoop] at hrun
      obtain ⟨o, g1, g2⟩ := run_getNextNode_any L env (i := i) kw ⟨x, c⟩ ⟨st, t⟩
      simp only [h1] at g2
      rcases g2 with rfl | rfl
      · rw [run_attempt_err env g1] at hrun
        simp at hrun
      · rw [run_attempt_ok env g1] at hrun
        exact ih he f y _ hrun

include L hk in
/-- C31: cut `Add` off anywhere, with any IO failures and failures of the random source: the store holds the index as it was or the
index with the new identifier. -/
theorem C31_add_atomic (env : Env) (hi : IxIdp i) {K : List GoString} {N : Nat} (hN : N < 2 ^ 64) (ha : Apart P i K N) {x : Index} {a : Nat}
    (haN : a < N) (fuel : Nat) (token kw id : GoString) (hkw : kw ∈ K) {w : World} (h : IxRel P i K N w.store x a) (n : Nat) :
    IxRel P i K N ((i.add P fuel token kw id).runN env n w).2.store x a ∨
    IxRel P i K N ((i.add P fuel token kw id).runN env n w).2.store (x.set kw (x kw ++ [sanitize id])) (a + 1) := by
  have key : Always env (fun st => IxRel P i K N st x a ∨ IxRel P i K N st (x.set kw (x kw ++ [sanitize id])) (a + 1))
      (i.add P fuel token kw id) w := by
    rw [add_eq L hk]
    have hv : ∀ y, AllEff (fun e => e.target ≠ some (y, dtNode)) (i.verifyAccess token) := fun y =>
      allEff_ixVerifyAccess ((hi token).1.mono fun _ he => he y)
    refine always_bind (fun m => .inl (h.congr fun y => (hv y).frame env m w)) fun _ w1 h1 => ?_
    have hs1 : ∀ y, w1.store y dtNode = w.store y dtNode := fun y => by
      have := (hv y).frame_run env w
      rw [h1] at this
      exact this
    replace h := h.congr hs1
    obtain ⟨l, e, g1, g2, g3, g4, g5⟩ := h kw hkw
    have hm := g1.mem
    have he : nodes P i w1.store kw e = none := g4 e (by omega) (by
      simp only [List.mem_map, not_exists, not_and]
      exact fun p hp hpe => by have := hm p hp; omega)
    have hq : ∀ y, AllEff (fun e => e.target ≠ some (y, dtNode)) (getLastNodeLoop P (ixTagger P i kw) (ixCryptor P i kw) fuel zeroNode) :=
      fun y => allEff_getLastNodeLoop (by simp [Eff.target]) _ _ _ _
    rw [addBody, getLastNode]
    refine always_bind (fun m => .inl (h.congr fun y => (hq y).frame env m w1)) fun last w2 h2 => ?_
    obtain ⟨hc, hs2⟩ := run_getLastNodeLoop_any L env g1 he fuel [] w1.t h2
    rw [← hs2] at h he g1 g4
    rw [hc]
    have hse : Quiet env ((⟨id, (e + 1) % 2 ^ 64⟩ : Node).seal P (ixLabel P i kw e) (ixCryptor P i kw)) := by
      rw [node_seal_eq L]
      exact (quiet_rand _).bind fun _ => (quiet_rand _).bind fun _ => quiet_ret _
    refine hse.then (.inl h) fun sn w3 h3 hs3 => ?_
    rw [node_seal_eq L, run_bind_ok_iff] at h3
    obtain ⟨k, w4, -, h3⟩ := h3
    rw [run_bind_ok_iff] at h3
    obtain ⟨nn, w5, -, h3⟩ := h3
    simp only [run_ret, Prod.mk.injEq, Outcome.ok.injEq] at h3
    obtain ⟨rfl, -⟩ := h3
    refine always_ioPut (.inl (hs3 ▸ h)) fun _ => .inr ?_
    rw [hs3]
    intro kw' hkw'
    by_cases hkk : kw' = kw
    · subst hkk
      simp only [Index.set, if_true]
      refine ⟨_, _, path_add L ha hkw g1 (by omega) hN id k nn, by simp [g2], by omega, ?_, ?_⟩
      · intro b hb hbl
        simp only [List.map_append, List.map_cons, List.map_nil, List.mem_append, List.mem_singleton, not_or] at hbl
        rw [nodes_set ha hkw hkw (by omega) hb, if_neg (fun hh => hbl.2 hh.2)]
        exact g4 b hb hbl.1
      · intro p hp
        rcases List.mem_append.mp hp with hp | hp
        · exact g5 p hp
        · rw [List.mem_singleton.mp hp]
          exact sanitize_idem id
    · simp only [Index.set, if_neg hkk]
      obtain ⟨l', e', f1, f2, f3, f4, f5⟩ := h kw' hkw'
      have hsame := SameElse.set ha hkw (show e ≤ N by omega) w2.store (some (sealedNode P i kw e ⟨id, (e + 1) % 2 ^ 64⟩ k nn).toJ.render)
      refine ⟨l', e', f1.congr fun b _ hb => hsame kw' hkw' hkk b (by omega), f2, by omega, fun b hb hbl => ?_, f5⟩
      rw [hsame kw' hkw' hkk b hb]
      exact f4 b hb hbl
  exact key n

end

/-! ## Concrete cases -/

/-- An index for the examples: everybody with a non-empty token has all scopes. -/
def toyIndex : SecureIndex :=
  ⟨fun token => if token = [] then .err .idNotAuthenticated else .ret ⟨token, scopeAll, []⟩, List.replicate 32 3⟩

theorem toyIndex_idp : IxIdp toyIndex := by
  intro token
  simp only [toyIndex]
  split <;> exact ⟨trivial, trivial⟩

theorem toyIndex_apart : Apart toyPrims toyIndex [[107], [108]] 5 := by
  unfold Apart
  decide +kernel

/-- The hypotheses of C27, C28, C29, C31 and C36 hold for it, from the empty store and two keywords. -/
example : toyIndex.indexKey.length = 32 ∧ IxIdp toyIndex ∧ NoFault toyEnv ∧ RandOk toyEnv ∧ toyPrims.Laws ∧
    Apart toyPrims toyIndex [[107], [108]] 5 ∧ IxRel toyPrims toyIndex [[107], [108]] 5 (fun _ _ => none) emptyIndex 0 :=
  ⟨rfl, toyIndex_idp, toyEnv_noFault, toyEnv_randOk, toyLaws, toyIndex_apart, ixRel_empty fun _ => rfl⟩

/-- A history that exercises both cases of `deleteNode`. -/
example : ixCodeHist toyPrims toyIndex 9 toyEnv ⟨fun _ _ => none, 0⟩
    [.add [1] [107] [97], .add [1] [107] [98], .add [1] [107] [97], .search [1] [107], .delete [1] [107] [97], .search [1] [107],
      .add [] [107] [97], .search [1] [108]] =
    [.ok .unit, .ok .unit, .ok .unit, .ok (.ids [[97], [98], [97]]), .ok .unit, .ok (.ids [[98]]), .err .ixNotAuthenticated,
      .ok (.ids [])] := by decide +kernel

end D1
