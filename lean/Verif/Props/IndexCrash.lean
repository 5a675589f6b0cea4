import Verif.Proofs.IndexRely
/-!
# A crash during `Delete` of the secure index: C30
-/
namespace D1
open Spec Prog

theorem Thin.refl (id : GoString) : ∀ l, Thin id l l
  | [] => .nil
  | x :: l => .keep x (Thin.refl id l)

theorem Thin.mem {id : GoString} {l l' : List GoString} (h : Thin id l l') : ∀ x ∈ l', x ∈ l := by
  induction h with
  | nil => simp
  | keep x _ ih => intro y hy; rcases List.mem_cons.mp hy with rfl | hy <;> simp [*]
  | drop _ ih => intro y hy; simp [ih y hy]

/-- Only `id` goes missing. -/
theorem Thin.filter {id : GoString} {l l' : List GoString} (h : Thin id l l') : l'.filter (· ≠ id) = l.filter (· ≠ id) := by
  induction h with
  | nil => rfl
  | keep x _ ih => simp only [List.filter_cons, ih]
  | drop _ ih => simpa using ih

/-- The store holds this index; for the keywords in `D` there may be records left over that no list reaches, at counters below the end of
the list. -/
def IxRelD (P : Prims) (i : SecureIndex) (K D : List GoString) (N : Nat) (st : Store) (x : Index) (a : Nat) : Prop :=
  ∀ kw ∈ K, ∃ l e, Path (nodes P i st kw) 0 l e ∧ l.map Prod.snd = x kw ∧ e ≤ a ∧
    (∀ c ≤ N, c ∉ l.map Prod.fst → (e ≤ c ∨ kw ∉ D) → nodes P i st kw c = none) ∧ ∀ p ∈ l, sanitize p.2 = p.2

section
variable {P : Prims} (L : P.Laws) {env : Env} {i : SecureIndex} (hk : i.indexKey.length = 32)

theorem ixRelD_nil {K : List GoString} {N a : Nat} {st : Store} {x : Index} : IxRelD P i K [] N st x a ↔ IxRel P i K N st x a := by
  simp [IxRelD, IxRel]

theorem IxRelD.congr {K D : List GoString} {N a : Nat} {st st' : Store} {x : Index} (h : IxRelD P i K D N st x a)
    (hs : ∀ y, st' y dtNode = st y dtNode) : IxRelD P i K D N st' x a := by
  intro kw hkw
  have : nodes P i st' kw = nodes P i st kw := funext fun c => nodes_congr hs kw c
  rw [this]
  exact h kw hkw

theorem IxRelD.mono {K D : List GoString} {N a b : Nat} {st : Store} {x : Index} (h : IxRelD P i K D N st x a) (hab : a ≤ b) :
    IxRelD P i K D N st x b := by
  intro kw hkw
  obtain ⟨l, e, h1, h2, h3, h4⟩ := h kw hkw
  exact ⟨l, e, h1, h2, by omega, h4⟩

theorem IxRelD.weaken {K D D' : List GoString} {N a : Nat} {st : Store} {x : Index} (h : IxRelD P i K D N st x a) (hd : ∀ d ∈ D, d ∈ D') :
    IxRelD P i K D' N st x a := by
  intro kw hkw
  obtain ⟨l, e, h1, h2, h3, h4, h5⟩ := h kw hkw
  exact ⟨l, e, h1, h2, h3, fun c hc hcl ho => h4 c hc hcl (ho.imp_right fun hn hd' => hn (hd _ hd')), h5⟩

/-- A call that no leftover record can disturb. -/
def Undisturbed (D : List GoString) : IxCall → Prop
  | .add .. => True
  | .search .. => True
  | .delete _ kw _ => kw ∉ D

include L in
/-- An admitted call is one step of the specification, in spite of leftover records. -/
theorem run_ixBodyD (hf : NoFault env) (hr : RandOk env) {K D : List GoString} {N : Nat} (hN : N < 2 ^ 64) (ha : Apart P i K N) {x : Index}
    {a : Nat} (haN : a < N) {fuel : Nat} (hfuel : N < fuel) (c : IxCall) (hc : c.keyword ∈ K) (hD : Undisturbed D c) {w : World}
    (h : IxRelD P i K D N w.store x a) :
    ∃ w', (ixBody P i fuel c).run env w = (.ok (ixEffect sanitize x c).1, w') ∧
      IxRelD P i K D N w'.store (ixEffect sanitize x c).2 (a + 1) := by
  obtain ⟨l, e, h1, h2, h3, h4, h5⟩ := h c.keyword hc
  have hm := h1.mem
  have hlen := h1.length_le
  have he : nodes P i w.store c.keyword e = none := h4 e (by omega) (by
    simp only [List.mem_map, not_exists, not_and]
    exact fun p hp hpe => by have := hm p hp; omega) (.inl (Nat.le_refl _))
  -- other keywords
  have others : ∀ {st' : Store} {y : List GoString}, SameElse P i K N c.keyword w.store st' →
      (∃ l e, Path (nodes P i st' c.keyword) 0 l e ∧ l.map Prod.snd = y ∧ e ≤ a + 1 ∧
        (∀ b ≤ N, b ∉ l.map Prod.fst → (e ≤ b ∨ c.keyword ∉ D) → nodes P i st' c.keyword b = none) ∧ ∀ p ∈ l, sanitize p.2 = p.2) →
      IxRelD P i K D N st' (x.set c.keyword y) (a + 1) := by
    intro st' y hse hthis kw hkw
    by_cases hkc : kw = c.keyword
    · subst hkc
      simp only [Index.set, if_true]
      exact hthis
    · simp only [Index.set, if_neg hkc]
      obtain ⟨l, e, g1, g2, g3, g4, g5⟩ := h kw hkw
      have := g1.le
      refine ⟨l, e, g1.congr fun b _ hb => hse kw hkw hkc b (by omega), g2, by omega, fun b hb hbl ho => ?_, g5⟩
      rw [hse kw hkw hkc b hb]
      exact g4 b hb hbl ho
  cases c with
  | add t kw id =>
    simp only [IxCall.keyword, IxCall.token] at *
    obtain ⟨k, nn, t', hrun⟩ := run_addBody L hf hr h1 he (fuel := fuel) (by omega) id
    refine ⟨_, by rw [ixBody, run_bind_ok env hrun]; rfl, ?_⟩
    refine others (SameElse.set ha hc (by omega) _ _) ⟨_, _, path_add L ha hc h1 (by omega) hN id k nn, by simp [h2], by omega, ?_, ?_⟩
    · intro b hb hbl ho
      simp only [List.map_append, List.map_cons, List.map_nil, List.mem_append, List.mem_singleton, not_or] at hbl
      rw [nodes_set ha hc hc (by omega) hb, if_neg (fun hh => hbl.2 hh.2)]
      exact h4 b hb hbl.1 (ho.imp_left fun h => by omega)
    · intro p hp
      rcases List.mem_append.mp hp with hp | hp
      · exact h5 p hp
      · rw [List.mem_singleton.mp hp]
        exact sanitize_idem id
  | search t kw =>
    simp only [IxCall.keyword, IxCall.token] at *
    have hrun := run_searchLoop L hf h1 he fuel (by omega) [] [] w.t
    refine ⟨⟨w.store, w.t + (l.length + 1)⟩, ?_, h.mono (by omega)⟩
    rw [ixBody, run_bind_ok env (show (searchLoop P (ixTagger P i kw) (ixCryptor P i kw) fuel zeroNode []).run env w = _ from hrun)]
    simp [run_ret, ixEffect, h2]
  | delete t kw id =>
    simp only [IxCall.keyword, IxCall.token] at *
    obtain ⟨st', t', l', e', g1, g2, g3, g4, g5, g6, g7⟩ := run_deleteLoop L hf hr hN ha hc id fuel h1 (by omega) (by omega)
      (fun b hb _ hbl => h4 b hb hbl (.inr hD)) h5 [] w.t
    refine ⟨⟨st', t'⟩, ?_, others g7 ⟨l', e', g2, by rw [g3, h2], by omega, fun b hb hbl _ => g5 b hb (by omega) hbl, ?_⟩⟩
    · rw [ixBody, run_bind_ok env (show (deleteLoop P (ixTagger P i kw) (ixCryptor P i kw) id fuel zeroNode).run env w = _ from g1)]
      rfl
    · intro p hp
      have : p.2 ∈ (l.map Prod.snd).filter (· ≠ id) := by rw [← g3]; exact List.mem_map.mpr ⟨p, hp, rfl⟩
      obtain ⟨q, hq, hqp⟩ := List.mem_map.mp (List.mem_filter.mp this).1
      rw [← hqp]
      exact h5 q hq

include L hk in
/-- A call is one step of the specification, in spite of leftover records. -/
theorem run_ixCallD (hf : NoFault env) (hr : RandOk env) (hi : IxIdp i) {K D : List GoString} {N : Nat} (hN : N < 2 ^ 64) (ha : Apart P i K N)
    {x : Index} {a : Nat} (haN : a < N) {fuel : Nat} (hfuel : N < fuel) (c : IxCall) (hc : c.keyword ∈ K) (hD : Undisturbed D c) {w : World}
    (h : IxRelD P i K D N w.store x a) :
    ∃ w', (ixProg P i fuel c).run env w = (toOutcome (ixStep sanitize x (ixWho i env w c.token) c).1, w') ∧
      IxRelD P i K D N w'.store (ixStep sanitize x (ixWho i env w c.token) c).2 (a + 1) := by
  obtain ⟨w1, hs, hv⟩ := run_ixVerifyAccess (env := env) hi c.token w
  have h1 := h.congr hs
  rw [ixProg_eq L hk]
  cases hw : ixWho i env w c.token with
  | none =>
    rw [hw] at hv
    exact ⟨w1, by rw [run_bind_err env hv]; rfl, h1.mono (by omega)⟩
  | some y =>
    rw [hw] at hv
    simp only at hv
    simp only [ixStep]
    by_cases hsc : scopeIn scopeIndex y.scopes = true
    · rw [if_pos hsc] at hv ⊢
      rw [run_bind_ok env hv]
      exact run_ixBodyD L hf hr hN ha haN hfuel c hc hD h1
    · rw [if_neg hsc] at hv ⊢
      exact ⟨w1, by rw [run_bind_err env hv]; rfl, h1.mono (by omega)⟩

/-! ## Interrupted `Delete` -/

/-- A read in any environment. -/
theorem exec_read (env : Env) (w : World) (kw : GoString) (c : Nat) :
    (w.exec env (.get (ixLabel P i kw c) dtNode)).2.store = w.store ∧
      (readNode P i kw c (w.exec env (.get (ixLabel P i kw c) dtNode)).1 = .error (.io .failure) ∨
        readNode P i kw c (w.exec env (.get (ixLabel P i kw c) dtNode)).1 =
          match nodes P i w.store kw c with | none => .error .nodeNotFound | some x => x) := by
  simp only [World.exec, Store.exec, nodes]
  cases env.fault w.t <;> cases w.store (ixLabel P i kw c) dtNode <;>
    first
    | exact ⟨rfl, .inr rfl⟩
    | exact ⟨rfl, .inl rfl⟩

include L in
theorem deleteNode_eq (kw : GoString) (c : Nat) (n : Node) : deleteNode P (ixLabel P i kw c) n (ixTagger P i kw) (ixCryptor P i kw) =
    .op (.get (ixLabel P i kw n.nextCounter) dtNode) fun r => match readNode P i kw n.nextCounter r with
      | .error .nodeNotFound => ioDelete .io (ixLabel P i kw c) dtNode
      | .error e => .err e
      | .ok m => (randBytes 32).bind fun k => (randBytes 12).bind fun nn =>
        (ioUpdate (onNotFound .nodeNotFound) (ixLabel P i kw c) dtNode (nodeRec P i kw c m k nn)).bind fun _ =>
        ioDelete .io (ixLabel P i kw n.nextCounter) dtNode := by
  rw [deleteNode, getNextNode_attempt L]
  congr 1
  funext r
  cases readNode P i kw n.nextCounter r with
  | error e => cases e <;> rfl
  | ok m =>
    simp only [Prog.bind_eq, node_seal_eq L, Prog.bind_assoc, ret_bind, nextLabel_eq L, ofPanic_some, putSealedNode, if_true]
    rfl

include L in
/-- `deleteNode` that reports success. -/
theorem deleteNode_ok {kw : GoString} {c : Nat} {n : Node} {st : Store} {t : Nat} {w' : World} {u : Unit}
    (hx : ∀ e, nodes P i st kw n.nextCounter ≠ some (.error e))
    (h : (deleteNode P (ixLabel P i kw c) n (ixTagger P i kw) (ixCryptor P i kw)).run env ⟨st, t⟩ = (.ok u, w')) :
    (nodes P i st kw n.nextCounter = none ∧ w'.store = st.set (ixLabel P i kw c) dtNode none) ∨
    ∃ m k nn, nodes P i st kw n.nextCounter = some (.ok m) ∧
      w'.store = (st.set (ixLabel P i kw c) dtNode (some (nodeRec P i kw c m k nn))).set (ixLabel P i kw n.nextCounter) dtNode none := by
  rw [deleteNode_eq L, run_op] at h
  obtain ⟨hs, hr⟩ := exec_read (P := P) (i := i) env ⟨st, t⟩ kw n.nextCounter
  revert h hs hr
  generalize World.exec env ⟨st, t⟩ (.get (ixLabel P i kw n.nextCounter) dtNode) = x
  intro h hs hr
  rcases hr with hr | hr
  · rw [hr] at h
    simp at h
  · cases hn : nodes P i st kw n.nextCounter with
    | none =>
      simp only [hn] at hr
      rw [hr] at h
      refine .inl ⟨rfl, ?_⟩
      rw [run_ioDelete_ok h, World.next, hs]
    | some y =>
      cases y with
      | error e => exact absurd hn (hx e)
      | ok m =>
        simp only [hn] at hr
        rw [hr] at h
        simp only at h
        obtain ⟨k, w1, h1, h⟩ := (run_bind_ok_iff env).mp h
        obtain ⟨nn, w2, h2, h⟩ := (run_bind_ok_iff env).mp h
        obtain ⟨_, w3, h3, h⟩ := (run_bind_ok_iff env).mp h
        refine .inr ⟨m, k, nn, rfl, ?_⟩
        rw [run_ioDelete_ok h, (run_ioUpdate_ok h3).2, World.next, World.next, (quiet_rand 12).run_eq h2, (quiet_rand 32).run_eq h1, hs]

include L in
/-- Every moment of `deleteNode`. -/
theorem always_deleteNode {Q : Store → Prop} {kw : GoString} {c : Nat} {n : Node} {st : Store} {t : Nat} (h0 : Q st)
    (hx : ∀ e, nodes P i st kw n.nextCounter ≠ some (.error e))
    (hlast : nodes P i st kw n.nextCounter = none → Q (st.set (ixLabel P i kw c) dtNode none))
    (hmid : ∀ m k nn, nodes P i st kw n.nextCounter = some (.ok m) → Q (st.set (ixLabel P i kw c) dtNode (some (nodeRec P i kw c m k nn))) ∧
      Q ((st.set (ixLabel P i kw c) dtNode (some (nodeRec P i kw c m k nn))).set (ixLabel P i kw n.nextCounter) dtNode none)) :
    Always env Q (deleteNode P (ixLabel P i kw c) n (ixTagger P i kw) (ixCryptor P i kw)) ⟨st, t⟩ := by
  rw [deleteNode_eq L, always_op]
  refine ⟨h0, ?_⟩
  obtain ⟨hs, hr⟩ := exec_read (P := P) (i := i) env ⟨st, t⟩ kw n.nextCounter
  revert hs hr
  generalize World.exec env ⟨st, t⟩ (.get (ixLabel P i kw n.nextCounter) dtNode) = x
  intro hs hr
  simp only at hs
  rcases hr with hr | hr
  · rw [hr]
    exact always_err (by rw [hs]; exact h0)
  · cases hn : nodes P i st kw n.nextCounter with
    | none =>
      simp only [hn] at hr
      rw [hr]
      exact always_ioDelete (by rw [hs]; exact h0) (by rw [hs]; exact hlast hn)
    | some y =>
      cases y with
      | error e => exact absurd hn (hx e)
      | ok m =>
        simp only [hn] at hr
        rw [hr]
        refine (quiet_rand 32).then (by rw [hs]; exact h0) fun k w1 _ hs1 => ?_
        refine (quiet_rand 12).then (by rw [hs1, hs]; exact h0) fun nn w2 _ hs2 => ?_
        have hs' : w2.store = st := by rw [hs2, hs1, hs]
        obtain ⟨g1, g2⟩ := hmid m k nn hn
        refine always_bind (always_ioUpdate (by rw [hs']; exact h0) fun _ _ => by rw [hs']; exact g1) fun _ w3 h3 => ?_
        have hs3 : w3.store = _ := congrArg World.store (run_ioUpdate_ok h3).2
        rw [World.next, hs'] at hs3
        exact always_ioDelete (by rw [hs3]; exact g1) (by rw [hs3]; exact g2)

/-- What an interrupted `Delete` may leave behind from a counter on. -/
def DelSafe (P : Prims) (i : SecureIndex) (K : List GoString) (N : Nat) (kw id : GoString) (st : Store) (c e : Nat) (l : List GoString)
    (st' : Store) : Prop :=
  (∃ l' e', Path (nodes P i st' kw) c l' e' ∧ Thin id l (l'.map Prod.snd) ∧ e' ≤ e ∧ (∀ c' ≤ N, e' ≤ c' → nodes P i st' kw c' = none) ∧
    ∀ p ∈ l', sanitize p.2 = p.2) ∧ (∀ c' < c, nodes P i st' kw c' = nodes P i st kw c') ∧ SameElse P i K N kw st st'

include L in
theorem always_deleteLoop (env : Env) {K : List GoString} {N : Nat} (hN : N < 2 ^ 64) (ha : Apart P i K N) {kw : GoString} (hkw : kw ∈ K)
    (id : GoString) (fuel : Nat) {st : Store} {c e : Nat} {l : List (Nat × GoString)} (h : Path (nodes P i st kw) c l e) (he : e ≤ N)
    (hx : ∀ c' ≤ N, c ≤ c' → c' ∉ l.map Prod.fst → nodes P i st kw c' = none) (hs : ∀ p ∈ l, sanitize p.2 = p.2) (x : GoString) (t : Nat) :
    Always env (DelSafe P i K N kw id st c e (l.map Prod.snd)) (deleteLoop P (ixTagger P i kw) (ixCryptor P i kw) id fuel ⟨x, c⟩) ⟨st, t⟩ := by
  induction fuel generalizing st c e l x t with
  | zero =>
    refine always_diverge ⟨⟨l, e, h, Thin.refl _ _, Nat.le_refl _, fun c' hc' hec => hx c' hc' (Nat.le_trans h.le hec) ?_, hs⟩, fun _ _ => rfl, .refl _ _ _ _⟩
    simp only [List.mem_map, not_exists, not_and]
    exact fun p hp hpe => by have := h.mem p hp; omega
  | succ fuel ih =>
    have h0 : DelSafe P i K N kw id st c e (l.map Prod.snd) st := by
      refine ⟨⟨l, e, h, Thin.refl _ _, Nat.le_refl _, fun c' hc' hec => hx c' hc' (Nat.le_trans h.le hec) ?_, hs⟩, fun _ _ => rfl, .refl _ _ _ _⟩
      simp only [List.mem_map, not_exists, not_and]
      exact fun p hp hpe => by have := h.mem p hp; omega
    rw [deleteLoop, getNextNode_attempt L, always_op]
    refine ⟨h0, ?_⟩
    obtain ⟨hst, hr⟩ := exec_read (P := P) (i := i) env ⟨st, t⟩ kw c
    simp only at hst hr ⊢
    generalize World.exec env ⟨st, t⟩ (.get (ixLabel P i kw c) dtNode) = y at hst hr ⊢
    obtain ⟨r, st1, t1⟩ := y
    simp only at hst hr ⊢
    subst hst
    rcases hr with hr | hr
    · rw [hr]
      exact always_err h0
    cases l with
    | nil =>
      obtain rfl := path_nil.mp h
      rw [hx c he (Nat.le_refl _) (by simp)] at hr
      simp only at hr
      rw [hr]
      exact always_ret h0
    | cons p l =>
      obtain ⟨c1, hp, h1, h2, h3⟩ := path_cons.mp h
      obtain ⟨p1, y⟩ := p
      simp only at hp h1
      subst p1
      have hle := h3.le
      have hmem := h3.mem
      rw [h1] at hr
      simp only at hr
      rw [hr]
      simp only [List.map_cons] at h0 hx ⊢
      by_cases hy : y = id
      · simp only [hy, if_true, Prog.bind_eq, nextLabel_eq L, ofPanic_some, ret_bind]
        subst hy
        cases l with
        | nil =>
          obtain rfl := path_nil.mp h3
          have hnone : nodes P i st1 kw c1 = none := hx c1 he (by omega) (by simp only [List.map_nil, List.mem_singleton]; omega)
          have hset : ∀ c' ≤ N, nodes P i (st1.set (ixLabel P i kw c) dtNode none) kw c' = if c' = c then none else nodes P i st1 kw c' := by
            intro c' hc'
            rw [nodes_set ha hkw hkw (by omega) hc']
            simp
          have hse := SameElse.set ha hkw (show c ≤ N by omega) st1 none
          have hx' : ∀ c' ≤ N, c ≤ c' → nodes P i (st1.set (ixLabel P i kw c) dtNode none) kw c' = none := by
            intro c' hc' hcc'
            rw [hset c' hc']
            by_cases hcc : c' = c
            · rw [if_pos hcc]
            · rw [if_neg hcc]; exact hx c' hc' hcc' (by simpa using hcc)
          have hdone : ∀ {st2}, DelSafe P i K N kw y (st1.set (ixLabel P i kw c) dtNode none) c c [] st2 →
              DelSafe P i K N kw y st1 c c1 [y] st2 := by
            rintro st2 ⟨⟨l', e', g1, g2, g3, g4, g5⟩, g6, g7⟩
            refine ⟨⟨l', e', g1, .drop g2, by omega, g4, g5⟩, fun c' hc' => ?_, hse.trans g7⟩
            rw [g6 c' hc', hset c' (by omega), if_neg (by omega)]
          have hempty := fun st2 t2 (hst2 : st2 = st1.set (ixLabel P i kw c) dtNode none) => ih (st := st2) (c := c) (e := c) (l := []) (.nil c)
            (by omega) (fun c' hc' hcc' _ => by rw [hst2]; exact hx' c' hc' hcc') (by simp) x t2
          refine always_bind (always_deleteNode L h0 (by simp [hnone]) (fun _ => ?_) (fun m k nn hm => ?_)) fun _ w2 h4 => ?_
          · exact hdone (hempty _ 0 rfl).start
          · rw [hnone] at hm; cases hm
          · rcases deleteNode_ok L (by simp [hnone]) h4 with ⟨-, h5⟩ | ⟨m, k, nn, h5, -⟩
            · obtain ⟨st2, t2⟩ := w2
              simp only at h5
              refine (hempty st2 t2 h5).mono fun st3 h6 => hdone ?_
              rw [← h5]
              exact h6
            · simp only [hnone] at h5; cases h5
        | cons p l =>
          obtain ⟨c2, hp, h4, h5, h6⟩ := path_cons.mp h3
          obtain ⟨p1, z⟩ := p
          simp only at hp h4
          subst p1
          have hle6 := h6.le
          have hmem6 := h6.mem
          have hnodes1 : ∀ k nn, ∀ c' ≤ N, nodes P i (st1.set (ixLabel P i kw c) dtNode (some (nodeRec P i kw c ⟨z, c2⟩ k nn))) kw c' =
              if c' = c then some (.ok ⟨z, c2⟩) else nodes P i st1 kw c' := by
            intro k nn c' hc'
            rw [nodes_set ha hkw hkw (by omega) hc', Option.map_some, readNode_rec L _ _ _ _ _ (by simp only; omega)]
            simp only [true_and, hs (c1, z) (by simp)]
          have hnodes : ∀ k nn, ∀ c' ≤ N, nodes P i ((st1.set (ixLabel P i kw c) dtNode (some (nodeRec P i kw c ⟨z, c2⟩ k nn))).set
              (ixLabel P i kw c1) dtNode none) kw c' = if c' = c1 then none else if c' = c then some (.ok ⟨z, c2⟩) else nodes P i st1 kw c' := by
            intro k nn c' hc'
            rw [nodes_set ha hkw hkw (by omega) hc', hnodes1 k nn c' hc']
            simp
          have hse1 := fun k nn => SameElse.set ha hkw (show c ≤ N by omega) st1 (some (nodeRec P i kw c ⟨z, c2⟩ k nn))
          have hse := fun k nn => (hse1 k nn).trans (SameElse.set ha hkw (show c1 ≤ N by omega) _ none)
          have hs' : ∀ p ∈ (c, z) :: l, sanitize p.2 = p.2 := fun p hp => by
            rcases List.mem_cons.mp hp with rfl | hp
            · exact hs (c1, z) (by simp)
            · exact hs p (by simp [hp])
          have hdone : ∀ {k nn st2}, DelSafe P i K N kw y ((st1.set (ixLabel P i kw c) dtNode (some (nodeRec P i kw c ⟨z, c2⟩ k nn))).set
                (ixLabel P i kw c1) dtNode none) c e (z :: l.map Prod.snd) st2 →
              DelSafe P i K N kw y st1 c e (y :: z :: l.map Prod.snd) st2 := by
            rintro k nn st2 ⟨⟨l', e', g1, g2, g3, g4, g5⟩, g6, g7⟩
            refine ⟨⟨l', e', g1, .drop g2, g3, g4, g5⟩, fun c' hc' => ?_, (hse k nn).trans g7⟩
            rw [g6 c' hc', hnodes k nn c' (by omega), if_neg (by omega), if_neg (by omega)]
          have hgo := fun k nn st2 t2 (hst2 : st2 = (st1.set (ixLabel P i kw c) dtNode (some (nodeRec P i kw c ⟨z, c2⟩ k nn))).set
              (ixLabel P i kw c1) dtNode none) => ih (st := st2) (c := c) (e := e) (l := (c, z) :: l)
            (.cons (by rw [hst2, hnodes k nn c (by omega), if_neg (by omega), if_pos rfl]) (by omega) (h6.congr fun c' hc' hc'' => by
              rw [hst2, hnodes k nn c' (by omega), if_neg (by omega), if_neg (by omega)])) he
            (fun c' hc' hcc' hn => by
              simp only [List.map_cons, List.mem_cons, not_or] at hn
              rw [hst2, hnodes k nn c' hc', if_neg hn.1]
              by_cases hc1 : c' = c1
              · rw [if_pos hc1]
              · rw [if_neg hc1]
                refine hx c' hc' hcc' ?_
                simp only [List.map_cons, List.mem_cons, not_or]
                exact ⟨hn.1, hc1, hn.2⟩) hs' x t2
          refine always_bind (always_deleteNode L h0 (by simp [h4]) (fun hn => ?_) (fun m k nn hm => ?_)) fun _ w2 h7 => ?_
          · simp only [h4] at hn; cases hn
          · simp only [h4, Option.some.injEq, Except.ok.injEq] at hm
            subst hm
            refine ⟨⟨⟨(c, z) :: l, e, .cons (by rw [hnodes1 k nn c (by omega), if_pos rfl]) (by omega) (h6.congr fun c' hc' hc'' => by
                rw [hnodes1 k nn c' (by omega), if_neg (by omega)]), .drop (Thin.refl _ _), Nat.le_refl _, fun c' hc' hec => ?_, hs'⟩,
              fun c' hc' => by rw [hnodes1 k nn c' (by omega), if_neg (by omega)], hse1 k nn⟩, hdone (hgo k nn _ 0 rfl).start⟩
            rw [hnodes1 k nn c' hc', if_neg (by omega)]
            refine hx c' hc' (by omega) ?_
            simp only [List.map_cons, List.mem_cons, not_or, List.mem_map, not_exists, not_and]
            exact ⟨by omega, by omega, fun p hp hpe => by have := hmem6 p hp; omega⟩
          · rcases deleteNode_ok L (by simp [h4]) h7 with ⟨h8, -⟩ | ⟨m, k, nn, h8, h9⟩
            · simp only [h4] at h8; cases h8
            · simp only [h4, Option.some.injEq, Except.ok.injEq] at h8
              subst h8
              obtain ⟨st2, t2⟩ := w2
              simp only at h9
              refine (hgo k nn st2 t2 h9).mono fun st3 h10 => hdone (k := k) (nn := nn) ?_
              rw [← h9]
              exact h10
      · simp only [hy, if_false]
        refine (ih h3 he (fun c' hc' hcc' hn => hx c' hc' (by omega) (by
          simp only [List.mem_cons, not_or]; exact ⟨by omega, hn⟩)) (fun p hp => hs p (by simp [hp])) y t1).mono ?_
        rintro st2 ⟨⟨l', e', g1, g2, g3, g4, g5⟩, g6, g7⟩
        refine ⟨⟨(c, y) :: l', e', .cons (by rw [g6 c h2]; exact h1) h2 g1, .keep y g2, g3, g4, fun p hp => ?_⟩,
          fun c' hc' => g6 c' (by omega), g7⟩
        rcases List.mem_cons.mp hp with rfl | hp
        · exact hs (c, y) (by simp)
        · exact g5 p hp

include L hk in
/-- C30, first half: wherever `Delete` is cut off or fails, each occurrence of the identifier has been removed or not, and nothing else has
changed, except for records left over that no list reaches. -/
theorem C30_delete_states_partial (env : Env) (hi : IxIdp i) {K : List GoString} {N : Nat} (hN : N < 2 ^ 64) (ha : Apart P i K N) {x : Index}
    {a : Nat} (haN : a < N) (fuel : Nat) (token kw id : GoString) (hkw : kw ∈ K) {w : World} (h : IxRel P i K N w.store x a) (n : Nat) :
    ∃ l, Thin id (x kw) l ∧ IxRelD P i K [kw] N ((i.delete P fuel token kw id).runN env n w).2.store (x.set kw l) a := by
  have key : Always env (fun st => ∃ l, Thin id (x kw) l ∧ IxRelD P i K [kw] N st (x.set kw l) a) (i.delete P fuel token kw id) w := by
    have hsame : ∀ {st : Store}, (∀ y, st y dtNode = w.store y dtNode) → ∃ l, Thin id (x kw) l ∧ IxRelD P i K [kw] N st (x.set kw l) a := by
      intro st hst
      refine ⟨x kw, Thin.refl _ _, ?_⟩
      have : x.set kw (x kw) = x := by
        funext k
        simp only [Index.set]
        split
        · rename_i hh; rw [hh]
        · rfl
      rw [this]
      exact (ixRelD_nil.mpr (h.congr hst)).weaken (by simp)
    rw [delete_eq L hk]
    have hv : ∀ y, AllEff (fun e => e.target ≠ some (y, dtNode)) (i.verifyAccess token) := fun y =>
      allEff_ixVerifyAccess ((hi token).1.mono fun _ he => he y)
    refine always_bind (fun m => hsame fun y => (hv y).frame env m w) fun _ w1 h1 => ?_
    have hs1 : ∀ y, w1.store y dtNode = w.store y dtNode := fun y => by
      have := (hv y).frame_run env w
      rw [h1] at this
      exact this
    replace h := h.congr hs1
    obtain ⟨l, e, g1, g2, g3, g4, g5⟩ := h kw hkw
    refine (always_deleteLoop L env hN ha hkw id fuel g1 (by omega) (fun b hb _ => g4 b hb) g5 [] w1.t).mono ?_
    rintro st ⟨⟨l', e', f1, f2, f3, f4, f5⟩, -, f7⟩
    refine ⟨l'.map Prod.snd, by rw [← g2]; exact f2, fun kw' hkw' => ?_⟩
    by_cases hkk : kw' = kw
    · subst hkk
      simp only [Index.set, if_true]
      exact ⟨l', e', f1, rfl, by omega, fun c hc _ ho => f4 c hc (ho.resolve_right (by simp)), f5⟩
    · simp only [Index.set, if_neg hkk]
      obtain ⟨l2, e2, i1, i2, i3, i4, i5⟩ := h kw' hkw'
      refine ⟨l2, e2, i1.congr fun b _ hb => f7 kw' hkw' hkk b (by omega), i2, i3, fun b hb hbl _ => ?_, i5⟩
      rw [f7 kw' hkw' hkk b hb]
      exact i4 b hb hbl
  exact key n

include L hk in
/-- C30, second half: after the cut-off `Delete`, every history of `Add` and `Search` calls, and of `Delete` calls for other keywords, gives the
results of the specification for some list with some occurrences removed.  Missing: a later `Delete` for the same keyword
(`C30_resurrected`). -/
theorem C30_later_partial {envC env : Env} (hf : NoFault env) (hr : RandOk env) (hi : IxIdp i) {K : List GoString} {N : Nat} (hN : N < 2 ^ 64)
    (ha : Apart P i K N) {fuel : Nat} (hfuel : N < fuel) {x : Index} {a : Nat} (haN : a < N) (fuelC : Nat) (token kw id : GoString)
    (hkw : kw ∈ K) {w : World} (h : IxRel P i K N w.store x a) (n : Nat) :
    ∃ l, Thin id (x kw) l ∧ ∀ (t : Nat) (calls : List IxCall), (∀ c ∈ calls, c.keyword ∈ K ∧ Undisturbed [kw] c) → a + calls.length ≤ N →
      ixCodeHist P i fuel env ⟨((i.delete P fuelC token kw id).runN envC n w).2.store, t⟩ calls =
        (ixHist sanitize (x.set kw l) (ixAnnotate P i fuel env ⟨((i.delete P fuelC token kw id).runN envC n w).2.store, t⟩ calls)).map toOutcome := by
  obtain ⟨l, hl, hrel⟩ := C30_delete_states_partial L hk envC hi hN ha haN fuelC token kw id hkw h n
  refine ⟨l, hl, fun t calls hc hlen => ?_⟩
  generalize ((i.delete P fuelC token kw id).runN envC n w).2.store = st at hrel ⊢
  have gen : ∀ (calls : List IxCall) (w : World) (x : Index) (a : Nat), IxRelD P i K [kw] N w.store x a →
      (∀ c ∈ calls, c.keyword ∈ K ∧ Undisturbed [kw] c) → a + calls.length ≤ N →
      ixCodeHist P i fuel env w calls = (ixHist sanitize x (ixAnnotate P i fuel env w calls)).map toOutcome := by
    intro calls
    induction calls with
    | nil => intros; rfl
    | cons c r ih =>
      intro w x a h hc hlen
      simp only [List.length_cons] at hlen
      obtain ⟨w', h1, h2⟩ := run_ixCallD L hk hf hr hi hN ha (by omega) hfuel c (hc c (by simp)).1 (hc c (by simp)).2 h
      simp only [ixCodeHist, ixAnnotate, ixHist, List.map_cons]
      rw [h1, ih w' _ _ h2 (fun c' hc' => hc c' (by simp [hc'])) (by omega)]
  exact gen calls ⟨st, t⟩ _ a hrel hc hlen

end

/-- C30, refutation: `[97]` and `[98]` are added under a keyword, `Delete` of `[97]` is cut off between its update and its delete, `Delete` of `[98]` and `Add` of
`[120]` report success.  `Search` then returns `[98]` again, which is neither the specification with `[97]` removed nor without. -/
theorem C30_resurrected : ∃ n,
    ixCodeHist toyPrims toyIndex 9 toyEnv
      ((toyIndex.delete toyPrims 9 [1] [107] [97]).runN toyEnv n
        (ixCodeAfter toyPrims toyIndex 9 toyEnv ⟨fun _ _ => none, 0⟩ [.add [1] [107] [97], .add [1] [107] [98]])).2
      [.delete [1] [107] [98], .search [1] [107], .add [1] [107] [120], .search [1] [107]] =
    [.ok .unit, .ok (.ids []), .ok .unit, .ok (.ids [[120], [98]])] := ⟨5, by decide +kernel⟩

/-- What the specification gives in the two cases. -/
example : ∀ l, Thin [97] [[97], [98]] l →
    (ixHist sanitize (emptyIndex.set [107] l) ([.delete [1] [107] [98], .search [1] [107], .add [1] [107] [120], .search [1] [107]].map
      fun c => (some ⟨[1], scopeAll, []⟩, c)))[3]? ≠ some (.ok (.ids [[120], [98]])) := by
  intro l h
  have : l = [[97], [98]] ∨ l = [[98]] := by
    cases h with
    | keep _ h =>
      cases h with
      | keep _ h => cases h; exact .inl rfl
    | drop h =>
      cases h with
      | keep _ h => cases h; exact .inr rfl
  rcases this with rfl | rfl <;> decide +kernel

end D1
