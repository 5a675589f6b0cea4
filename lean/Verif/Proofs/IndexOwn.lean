import Verif.Proofs.IndexRely
/-!
# `Delete` on a keyword that nobody else touches

`Own R G Post p st`: from store `st` on, whatever the others do within `R`, every effect of `p` is within `G`, and when `p` ends `Post` holds.
-/
namespace D1
open Spec Prog

/-- A step without faults in which the random source does not fail. -/
def SureStep (st : Store) (e : Eff) (r : e.Resp) (st' : Store) : Prop :=
  ∃ rnd clk, (∀ n, (rnd n).isSome = true) ∧ st.exec rnd clk e = (r, st')

theorem SureStep.clean {st st' : Store} {e : Eff} {r : e.Resp} (h : SureStep st e r st') : CleanStep st e r st' :=
  let ⟨rnd, clk, _, h⟩ := h
  ⟨rnd, clk, h⟩

theorem sureStep {env : Env} (hf : NoFault env) (hr : RandOk env) (w : World) (e : Eff) :
    SureStep w.store e (w.exec env e).1 (w.exec env e).2.store :=
  ⟨env.rand w.t, env.now w.t, hr w.t, by simp only [World.exec, hf w.t]⟩

theorem sureStep_rand {st st' : Store} {n : Nat} {r : Option (BytesN n)} (h : SureStep st (.rand n) r st') : st = st' ∧ ∃ b, r = some b := by
  obtain ⟨rnd, clk, h1, h⟩ := h
  cases h
  exact ⟨rfl, Option.isSome_iff_exists.mp (h1 n)⟩

def Own {α : Type} (R G : Store → Store → Prop) (Post : Outcome α → Store → Prop) : Prog α → Store → Prop
  | .op e k, st => ∀ st', R st st' → ∀ r st'', SureStep st' e r st'' → G st' st'' ∧ Own R G Post (k r) st''
  | p, st => ∃ o, p.outcome = some o ∧ Post o st

section
variable {α β : Type} {R G : Store → Store → Prop}

theorem Own.ended {Post : Outcome α → Store → Prop} {p : Prog α} {st : Store} (h : Own R G Post p st) {o : Outcome α} (ho : p.outcome = some o) :
    Post o st := by
  have key : ∀ {q : Prog α}, q.outcome = some o → (∃ o, q.outcome = some o ∧ Post o st) → Post o st := by
    rintro q hq ⟨o', h1, h2⟩
    rw [hq] at h1
    cases h1
    exact h2
  cases p with
  | op e k => cases ho
  | _ => exact key ho h

/-- A call that succeeds, and what comes after it. -/
theorem Own.bind {Post1 : β → Store → Prop} {Post : Outcome α → Store → Prop} {p : Prog β} {k : β → Prog α} {st : Store}
    (h : Own R G (fun o st => ∃ a, o = .ok a ∧ Post1 a st) p st) (hk : ∀ a st', Post1 a st' → Own R G Post (k a) st') :
    Own R G Post (p.bind k) st := by
  induction p generalizing st with
  | op e c ih =>
    intro st' h1 r st'' h2
    obtain ⟨h3, h4⟩ := h st' h1 r st'' h2
    exact ⟨h3, ih r h4⟩
  | ret a =>
    obtain ⟨o, h1, b, rfl, h2⟩ := h
    cases h1
    exact hk _ _ h2
  | err e => obtain ⟨o, h1, b, rfl, h2⟩ := h; cases h1
  | panic => obtain ⟨o, h1, b, rfl, h2⟩ := h; cases h1
  | diverge => obtain ⟨o, h1, b, rfl, h2⟩ := h; cases h1

theorem Own.mono {Post Post' : Outcome α → Store → Prop} (hp : ∀ o st, Post o st → Post' o st) {p : Prog α} {st : Store} (h : Own R G Post p st) :
    Own R G Post' p st := by
  have key : ∀ {q : Prog α}, (∃ o, q.outcome = some o ∧ Post o st) → ∃ o, q.outcome = some o ∧ Post' o st :=
    fun ⟨o, h1, h2⟩ => ⟨o, h1, hp o _ h2⟩
  induction p generalizing st with
  | op e c ih =>
    intro st' h1 r st'' h2
    obtain ⟨h3, h4⟩ := h st' h1 r st'' h2
    exact ⟨h3, ih r h4 (fun ⟨o, h1, h2⟩ => ⟨o, h1, hp o _ h2⟩)⟩
  | _ => exact key h

end

section
variable {P : Prims} (L : P.Laws) {i : SecureIndex} {K : List GoString} {N : Nat} {kw : GoString} {α : Type}

/-- The nodes of the keyword stay as they are. -/
def SameAt (P : Prims) (i : SecureIndex) (N : Nat) (kw : GoString) (st st' : Store) : Prop := ∀ c ≤ N, nodes P i st' kw c = nodes P i st kw c

/-- The nodes of the keyword are these. -/
def NodesAre (P : Prims) (i : SecureIndex) (N : Nat) (kw : GoString) (M : Nat → Option (Except Err Node)) (st : Store) : Prop :=
  ∀ c ≤ N, nodes P i st kw c = M c

theorem NodesAre.same {M : Nat → Option (Except Err Node)} {st st' : Store} (h : NodesAre P i N kw M st) (hs : SameAt P i N kw st st') :
    NodesAre P i N kw M st' := fun c hc => (hs c hc).trans (h c hc)

include L in
theorem own_read {Post : Outcome α → Store → Prop} {M : Nat → Option (Except Err Node)} {n : Node} (hc : n.nextCounter ≤ N)
    {k : Except Err Node → Prog α} {st : Store} (h : NodesAre P i N kw M st)
    (hk : ∀ st', NodesAre P i N kw M st' → Own (SameAt P i N kw) (SameElse P i K N kw) Post
      (k (match M n.nextCounter with | none => .error .nodeNotFound | some x => x)) st') :
    Own (SameAt P i N kw) (SameElse P i K N kw) Post ((getNextNode P n (ixTagger P i kw) (ixCryptor P i kw)).attempt k) st := by
  rw [getNextNode_attempt L]
  intro st' h1 r st'' h2
  obtain ⟨rfl, h3⟩ := cleanStep_read h2.clean
  have h' := h.same h1
  refine ⟨.refl _ _ _ _, ?_⟩
  simp only
  rw [h3, h' _ hc]
  exact hk _ h'

theorem own_rand {Post : Outcome α → Store → Prop} {M : Nat → Option (Except Err Node)} {n : Nat} {k : Option (BytesN n) → Prog α}
    {st : Store} (h : NodesAre P i N kw M st)
    (hk : ∀ b st', NodesAre P i N kw M st' → Own (SameAt P i N kw) (SameElse P i K N kw) Post (k (some b)) st') :
    Own (SameAt P i N kw) (SameElse P i K N kw) Post (.op (.rand n) k) st := by
  intro st' h1 r st'' h2
  obtain ⟨rfl, b, rfl⟩ := sureStep_rand h2
  exact ⟨.refl _ _ _ _, hk b _ (h.same h1)⟩

theorem NodesAre.set (ha : Apart P i K N) (hkw : kw ∈ K) {M : Nat → Option (Except Err Node)} {c : Nat} (hc : c ≤ N) {st : Store}
    (h : NodesAre P i N kw M st) (v : Option Bytes) : NodesAre P i N kw (Function.update M c (v.map fun b => readNode P i kw c (.ok b)))
      (st.set (ixLabel P i kw c) dtNode v) := by
  intro c' hc'
  rw [nodes_set ha hkw hkw hc hc']
  by_cases hcc : c' = c
  · subst hcc
    rw [if_pos ⟨rfl, rfl⟩, Function.update_self]
  · rw [if_neg (fun hh => hcc hh.2), Function.update_of_ne hcc]
    exact h c' hc'

theorem own_update (ha : Apart P i K N) (hkw : kw ∈ K) {Post : Outcome α → Store → Prop} {M : Nat → Option (Except Err Node)} {c : Nat}
    (hc : c ≤ N) {b : Bytes} {k : Except IoErr Unit → Prog α} {st : Store} (h : NodesAre P i N kw M st) (hM : M c ≠ none)
    (hk : ∀ st', NodesAre P i N kw (Function.update M c (some (readNode P i kw c (.ok b)))) st' →
      Own (SameAt P i N kw) (SameElse P i K N kw) Post (k (.ok ())) st') :
    Own (SameAt P i N kw) (SameElse P i K N kw) Post (.op (.update (ixLabel P i kw c) dtNode b) k) st := by
  intro st' h1 r st'' h2
  have h' := h.same h1
  obtain ⟨rnd, clk, -, h2⟩ := h2
  simp only [Store.exec] at h2
  cases hs : st' (ixLabel P i kw c) dtNode with
  | none => rw [← h' c hc, nodes, hs] at hM; exact absurd rfl hM
  | some x =>
    rw [hs] at h2
    cases h2
    exact ⟨.set ha hkw hc _ _, hk _ (h'.set ha hkw hc (some b))⟩

theorem own_delete (ha : Apart P i K N) (hkw : kw ∈ K) {Post : Outcome α → Store → Prop} {M : Nat → Option (Except Err Node)} {c : Nat}
    (hc : c ≤ N) {k : Except IoErr Unit → Prog α} {st : Store} (h : NodesAre P i N kw M st)
    (hk : ∀ st', NodesAre P i N kw (Function.update M c none) st' → Own (SameAt P i N kw) (SameElse P i K N kw) Post (k (.ok ())) st') :
    Own (SameAt P i N kw) (SameElse P i K N kw) Post (.op (.delete (ixLabel P i kw c) dtNode) k) st := by
  intro st' h1 r st'' h2
  have h' := h.same h1
  obtain ⟨rnd, clk, -, h2⟩ := h2
  cases h2
  exact ⟨.set ha hkw hc _ _, hk _ (h'.set ha hkw hc none)⟩

include L in
/-- `deleteNode` on the last node. -/
theorem own_deleteNode_last (ha : Apart P i K N) (hkw : kw ∈ K) {M : Nat → Option (Except Err Node)} {st : Store} (h : NodesAre P i N kw M st)
    {c : Nat} (hc : c ≤ N) {n : Node} (hn : n.nextCounter ≤ N) (hM : M n.nextCounter = none) :
    Own (SameAt P i N kw) (SameElse P i K N kw) (fun o st => ∃ a : Unit, o = .ok a ∧ NodesAre P i N kw (Function.update M c none) st)
      (deleteNode P (ixLabel P i kw c) n (ixTagger P i kw) (ixCryptor P i kw)) st := by
  rw [deleteNode]
  refine own_read L hn h fun st' h' => ?_
  rw [hM]
  exact own_delete ha hkw hc h' fun st'' h'' => ⟨_, rfl, (), rfl, h''⟩

include L in
/-- `deleteNode` on another node. -/
theorem own_deleteNode_mid (ha : Apart P i K N) (hN : N < 2 ^ 64) (hkw : kw ∈ K) {M : Nat → Option (Except Err Node)} {st : Store}
    (h : NodesAre P i N kw M st) {c : Nat} (hc : c ≤ N) (hMc : M c ≠ none) {n m : Node} (hn : n.nextCounter ≤ N)
    (hM : M n.nextCounter = some (.ok m)) (hm : m.nextCounter ≤ N) (hs : sanitize m.identifier = m.identifier) :
    Own (SameAt P i N kw) (SameElse P i K N kw) (fun o st => ∃ a : Unit, o = .ok a ∧
        NodesAre P i N kw (Function.update (Function.update M c (some (.ok m))) n.nextCounter none) st)
      (deleteNode P (ixLabel P i kw c) n (ixTagger P i kw) (ixCryptor P i kw)) st := by
  rw [deleteNode]
  refine own_read L hn h fun st1 h1 => ?_
  rw [hM]
  simp only [bind_eq, nextLabel_eq L, ofPanic_some, ret_bind]
  rw [node_seal_eq L, Prog.bind_assoc, randBytes, op_bind]
  refine own_rand h1 fun k st2 h2 => ?_
  simp only [ret_bind]
  rw [randBytes]
  simp only [Prog.bind_assoc, op_bind]
  refine own_rand h2 fun nn st3 h3 => ?_
  simp only [ret_bind, putSealedNode, if_true, ioUpdate, op_bind]
  refine own_update ha hkw hc h3 hMc fun st4 h4 => ?_
  simp only [ret_bind, deleteSealedNode]
  have hrec := readNode_rec L (i := i) kw c m k nn (by omega)
  have h5 : NodesAre P i N kw (Function.update M c (some (.ok m))) st4 := by
    have e1 : (⟨sanitize m.identifier, m.nextCounter⟩ : Node) = m := by rw [hs]
    rw [e1] at hrec
    rw [← hrec]
    exact h4
  exact own_delete ha hkw hn h5 fun st'' h'' => ⟨_, rfl, (), rfl, h''⟩

include L in
/-- `Delete` from a given node on. -/
theorem own_deleteLoop (ha : Apart P i K N) (hN : N < 2 ^ 64) (hkw : kw ∈ K) (id : GoString) (fuel : Nat) {M : Nat → Option (Except Err Node)}
    {st : Store} (hst : NodesAre P i N kw M st) {c e : Nat} {l : List (Nat × GoString)} (h : Path M c l e) (he : e ≤ N)
    (hfuel : l.length < fuel) (hx : ∀ c' ≤ N, c ≤ c' → c' ∉ l.map Prod.fst → M c' = none) (hs : ∀ p ∈ l, sanitize p.2 = p.2) (x : GoString) :
    Own (SameAt P i N kw) (SameElse P i K N kw) (fun o st' => ∃ a : Unit, o = .ok a ∧ ∃ M' l' e', NodesAre P i N kw M' st' ∧ Path M' c l' e' ∧
        l'.map Prod.snd = (l.map Prod.snd).filter (· ≠ id) ∧ e' ≤ e ∧ (∀ c' ≤ N, c ≤ c' → c' ∉ l'.map Prod.fst → M' c' = none) ∧
        ∀ c' < c, M' c' = M c')
      (deleteLoop P (ixTagger P i kw) (ixCryptor P i kw) id fuel ⟨x, c⟩) st := by
  induction fuel generalizing M st c e l x with
  | zero => omega
  | succ fuel ih =>
    have hle0 := h.le
    rw [deleteLoop]
    refine own_read L (show c ≤ N by omega) hst fun st1 h1 => ?_
    simp only
    cases l with
    | nil =>
      obtain rfl := path_nil.mp h
      rw [hx c he (Nat.le_refl _) (by simp)]
      exact ⟨_, rfl, (), rfl, M, [], c, h1, .nil c, rfl, Nat.le_refl _, hx, fun _ _ => rfl⟩
    | cons p l =>
      obtain ⟨c1, hp, g1, g2, g3⟩ := path_cons.mp h
      obtain ⟨p1, y⟩ := p
      simp only at hp g1
      subst p1
      have hle := g3.le
      have hmem := g3.mem
      rw [g1]
      simp only [List.length_cons] at hfuel
      by_cases hy : y = id
      · subst hy
        simp only [if_true, bind_eq, nextLabel_eq L, ofPanic_some, ret_bind]
        cases l with
        | nil =>
          obtain rfl := path_nil.mp g3
          refine (own_deleteNode_last L ha hkw h1 (c := c) (n := ⟨y, c1⟩) (by omega) he
            (hx c1 he (by omega) (by simp only [List.map_cons, List.map_nil, List.mem_singleton]; omega))).bind fun _ st2 h2 => ?_
          refine (ih h2 (l := []) (e := c) (.nil c) (by omega) (by simp only [List.length_nil]; omega) (fun c' hc' hcc' _ => ?_) (by simp) x).mono ?_
          · by_cases hcc : c' = c
            · rw [hcc, Function.update_self]
            · rw [Function.update_of_ne hcc]
              exact hx c' hc' hcc' (by simpa using hcc)
          · rintro o st3 ⟨a, ho, M', l', e', k1, k2, k3, k4, k5, k6⟩
            refine ⟨a, ho, M', l', e', k1, k2, by rw [k3]; simp, by omega, k5, fun c' hc' => ?_⟩
            rw [k6 c' hc', Function.update_of_ne (by omega)]
        | cons p l =>
          obtain ⟨c2, hp, g4, g5, g6⟩ := path_cons.mp g3
          obtain ⟨p1, z⟩ := p
          simp only at hp g4
          subst p1
          have hle6 := g6.le
          have hmem6 := g6.mem
          refine (own_deleteNode_mid L ha hN hkw h1 (c := c) (n := ⟨y, c1⟩) (m := ⟨z, c2⟩) (by omega) (by rw [g1]; simp) (by simp only; omega) g4
            (by simp only; omega) (hs (c1, z) (by simp))).bind fun _ st2 h2 => ?_
          simp only at h2
          have hupd : ∀ c', Function.update (Function.update M c (some (.ok ⟨z, c2⟩))) c1 none c' =
              if c' = c1 then none else if c' = c then some (.ok ⟨z, c2⟩) else M c' := by
            intro c'
            simp only [Function.update_apply]
          refine (ih h2 (l := (c, z) :: l) (e := e) (.cons (by rw [hupd, if_neg (by omega), if_pos rfl]) (by omega)
            (g6.congr fun c' hc' hc'' => by rw [hupd, if_neg (by omega), if_neg (by omega)])) he
            (by simp only [List.length_cons] at hfuel ⊢; omega) (fun c' hc' hcc' hn => ?_) (fun p hp => ?_) x).mono ?_
          · simp only [List.map_cons, List.mem_cons, not_or] at hn
            rw [hupd, if_neg hn.1]
            by_cases hc1 : c' = c1
            · rw [if_pos hc1]
            · rw [if_neg hc1]
              refine hx c' hc' hcc' ?_
              simp only [List.map_cons, List.mem_cons, not_or]
              exact ⟨hn.1, hc1, hn.2⟩
          · rcases List.mem_cons.mp hp with rfl | hp
            · exact hs (c1, z) (by simp)
            · exact hs p (by simp [hp])
          · rintro o st3 ⟨a, ho, M', l', e', k1, k2, k3, k4, k5, k6⟩
            refine ⟨a, ho, M', l', e', k1, k2, by rw [k3]; simp, by omega, k5, fun c' hc' => ?_⟩
            rw [k6 c' hc', hupd, if_neg (by omega), if_neg (by omega)]
      · simp only [hy, if_false]
        refine (ih h1 g3 he (by omega) (fun c' hc' hcc' hn => hx c' hc' (by omega) (by
          simp only [List.map_cons, List.mem_cons, not_or]
          exact ⟨by omega, hn⟩)) (fun p hp => hs p (by simp [hp])) y).mono ?_
        rintro o st3 ⟨a, ho, M', l', e', k1, k2, k3, k4, k5, k6⟩
        refine ⟨a, ho, M', (c, y) :: l', e', k1, .cons (by rw [k6 c g2]; exact g1) g2 k2, ?_, k4, ?_, fun c' hc' => k6 c' (by omega)⟩
        · simp only [List.map_cons, k3, List.filter_cons, ne_eq, hy, not_false_eq_true, decide_true, if_true]
        · intro c' hc' hcc' hn
          simp only [List.map_cons, List.mem_cons, not_or] at hn
          by_cases hlt : c' < c1
          · rw [k6 c' hlt]
            refine hx c' hc' hcc' ?_
            simp only [List.map_cons, List.mem_cons, not_or, List.mem_map, not_exists, not_and]
            exact ⟨hn.1, fun p hp hpc => by have := hmem p hp; omega⟩
          · exact k5 c' hc' (by omega) hn.2

include L in
/-- A whole `Delete`, once it is admitted. -/
theorem own_deleteBody (ha : Apart P i K N) (hN : N < 2 ^ 64) (hkw : kw ∈ K) {fuel : Nat} (hfuel : N < fuel) (t id : GoString) {st : Store}
    {x : Index} {a : Nat} (h : IxRel P i [kw] N st x a) (haN : a ≤ N) :
    Own (SameAt P i N kw) (SameElse P i K N kw)
      (fun o st' => o = .ok .unit ∧ ∀ x' : Index, x' kw = (x kw).filter (· ≠ id) → IxRel P i [kw] N st' x' a)
      (ixBody P i fuel (.delete t kw id)) st := by
  obtain ⟨l, e, h1, h2, h3, h4, h5⟩ := h kw (by simp)
  have hlen := h1.length_le
  rw [ixBody]
  refine Own.bind (own_deleteLoop L ha hN hkw id fuel (M := nodes P i st kw) (fun _ _ => rfl) h1 (by omega) (by omega)
    (fun c hc _ hn => h4 c hc hn) h5 []) fun _ st' hp => ⟨_, rfl, rfl, fun x' hx' kw' hkw' => ?_⟩
  obtain ⟨M', l', e', g1, g2, g3, g4, g5, g6⟩ := hp
  rw [List.mem_singleton] at hkw'
  subst hkw'
  refine ⟨l', e', g2.congr fun c _ hc => g1 c (by omega), by rw [g3, h2, hx'], by omega, fun c hc hn => ?_, fun p hp => ?_⟩
  · rw [g1 c hc]; exact g5 c hc (Nat.zero_le _) hn
  · have : p.2 ∈ (l.map Prod.snd).filter (· ≠ id) := by rw [← g3]; exact List.mem_map.mpr ⟨p, hp, rfl⟩
    obtain ⟨q, hq, hqp⟩ := List.mem_map.mp (List.mem_filter.mp this).1
    rw [← hqp]
    exact h5 q hq

end
end D1
