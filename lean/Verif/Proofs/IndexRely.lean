import Verif.Proofs.Rely
import Verif.Props.Index
/-!
# Concurrent `Add`, `Search` and `Delete` without a match
-/
namespace D1
open Spec Prog

section
variable {P : Prims} (L : P.Laws) {env : Env} {i : SecureIndex} (hk : i.indexKey.length = 32)

include L in
theorem getNextNode_attempt {α : Type} (kw : GoString) (n : Node) (k : Except Err Node → Prog α) :
    (getNextNode P n (ixTagger P i kw) (ixCryptor P i kw)).attempt k =
      .op (.get (ixLabel P i kw n.nextCounter) dtNode) fun r => k (readNode P i kw n.nextCounter r) := by
  rw [getNextNode_eq L, op_attempt]
  congr 1
  funext r
  cases readNode P i kw n.nextCounter r <;> rfl

/-- A read answers with the node as it is. -/
theorem cleanStep_read {st st' : Store} {kw : GoString} {c : Nat} {r : Except IoErr Bytes}
    (h : CleanStep st (.get (ixLabel P i kw c) dtNode) r st') :
    st = st' ∧ readNode P i kw c r = (match nodes P i st kw c with | none => .error .nodeNotFound | some x => x) := by
  obtain ⟨rnd, clk, h⟩ := h
  simp only [Store.exec, nodes] at h ⊢
  cases hs : st (ixLabel P i kw c) dtNode with
  | none => rw [hs] at h; cases h; exact ⟨rfl, rfl⟩
  | some b => rw [hs] at h; cases h; exact ⟨rfl, rfl⟩

theorem cleanStep_rand {st st' : Store} {n : Nat} {r : Option (BytesN n)} (h : CleanStep st (.rand n) r st') : st = st' := by
  obtain ⟨rnd, clk, h⟩ := h
  cases h
  rfl

theorem cleanStep_put {st st' : Store} {id b : Bytes} {dt : DataType} {r : Except IoErr Unit} (h : CleanStep st (.put id dt b) r st') :
    (st id dt = none ∧ r = .ok () ∧ st' = st.set id dt (some b)) ∨ ((∃ x, st id dt = some x) ∧ r = .error .alreadyExists ∧ st = st') := by
  obtain ⟨rnd, clk, h⟩ := h
  simp only [Store.exec] at h
  cases hs : st id dt with
  | none => rw [hs] at h; cases h; exact .inl ⟨rfl, rfl, rfl⟩
  | some x => rw [hs] at h; cases h; exact .inr ⟨⟨x, rfl⟩, rfl, rfl⟩

/-- A path that reaches a node is a prefix of the path to the end. -/
theorem Path.split {M : Nat → Option (Except Err Node)} {a c e : Nat} {l l' : List (Nat × GoString)} (h : Path M a l c)
    (h' : Path M a l' e) (he : M e = none) : ∃ r, l' = l ++ r ∧ Path M c r e := by
  induction h generalizing l' with
  | nil => exact ⟨l', rfl, h'⟩
  | cons h1 h2 h3 ih =>
    cases l' with
    | nil =>
      rw [path_nil] at h'
      rw [← h', h1] at he
      cases he
    | cons p l' =>
      obtain ⟨c', g1, g2, g3, g4⟩ := path_cons.mp h'
      rw [h1] at g2
      obtain ⟨p1, p2⟩ := p
      simp only at g1
      cases g2
      obtain ⟨r, rfl, hr⟩ := ih g4
      exact ⟨r, by rw [g1]; rfl, hr⟩

/-- Existing nodes stay as they are. -/
def Extends (P : Prims) (i : SecureIndex) (K : List GoString) (N : Nat) (st st' : Store) : Prop :=
  ∀ kw ∈ K, ∀ c ≤ N, ∀ x, nodes P i st kw c = some x → nodes P i st' kw c = some x

theorem Path.extends {K : List GoString} {N : Nat} {st st' : Store} (hx : Extends P i K N st st') {kw : GoString} (hkw : kw ∈ K) {a e : Nat}
    (he : e ≤ N) {l : List (Nat × GoString)} (h : Path (nodes P i st kw) a l e) : Path (nodes P i st' kw) a l e := by
  induction h with
  | nil => exact .nil _
  | cons h1 h2 h3 ih =>
    have := h3.le
    exact .cons (hx kw hkw _ (by omega) _ h1) h2 (ih he)

/-- The end of the list of a keyword. -/
theorem IxRel.at {K : List GoString} {N a : Nat} {st : Store} {x : Index} (h : IxRel P i K N st x a) (ha : a < N) {kw : GoString} (hkw : kw ∈ K) :
    ∃ l e, Path (nodes P i st kw) 0 l e ∧ l.map Prod.snd = x kw ∧ e ≤ a ∧ nodes P i st kw e = none := by
  obtain ⟨l, e, h1, h2, h3, h4, h5⟩ := h kw hkw
  refine ⟨l, e, h1, h2, h3, h4 e (by omega) ?_⟩
  simp only [List.mem_map, not_exists, not_and]
  exact fun p hp hpe => by have := h1.mem p hp; omega

include L in
/-- Writing a node at the end is an `Add`. -/
theorem IxRel.add {K : List GoString} {N a : Nat} (hN : N < 2 ^ 64) (ha : Apart P i K N) {st : Store} {x : Index}
    (h : IxRel P i K N st x a) (haN : a < N) {kw : GoString} (hkw : kw ∈ K) {l : List (Nat × GoString)} {e : Nat}
    (hp : Path (nodes P i st kw) 0 l e) (he : nodes P i st kw e = none) (id : GoString) (k : BytesN 32) (nn : BytesN 12) :
    IxRel P i K N (st.set (ixLabel P i kw e) dtNode (some (nodeRec P i kw e ⟨id, (e + 1) % 2 ^ 64⟩ k nn)))
      (x.set kw (x kw ++ [sanitize id])) (a + 1) ∧
    Extends P i K N st (st.set (ixLabel P i kw e) dtNode (some (nodeRec P i kw e ⟨id, (e + 1) % 2 ^ 64⟩ k nn))) := by
  obtain ⟨l1, e1, g1, g2, g3, g4, g5⟩ := h kw hkw
  have hm := g1.mem
  have he1 : nodes P i st kw e1 = none := g4 e1 (by omega) (by
    simp only [List.mem_map, not_exists, not_and]
    exact fun p hp hpe => by have := hm p hp; omega)
  obtain ⟨rfl, rfl⟩ := Path.det hp g1 he he1
  refine ⟨fun kw' hkw' => ?_, fun kw' hkw' c hc y hy => ?_⟩
  · by_cases hkk : kw' = kw
    · subst hkk
      simp only [Index.set, if_true]
      refine ⟨_, _, path_add L ha hkw g1 (by omega) hN id k nn, by simp [g2], by omega, ?_, ?_⟩
      · intro b hb hbl
        simp only [List.map_append, List.map_cons, List.map_nil, List.mem_append, List.mem_singleton, not_or] at hbl
        rw [nodes_set ha hkw hkw (by omega) hb, if_neg (fun hh => hbl.2 hh.2)]
        exact g4 b hb hbl.1
      · intro p hp
        rcases List.mem_append.mp hp with hp | hp
        · exact g5 p hp
        · rw [List.mem_singleton.mp hp]
          exact sanitize_idem id
    · simp only [Index.set, if_neg hkk]
      obtain ⟨l', e', f1, f2, f3, f4, f5⟩ := h kw' hkw'
      have hsame := SameElse.set ha hkw (show e ≤ N by omega) st (some (nodeRec P i kw e ⟨id, (e + 1) % 2 ^ 64⟩ k nn))
      refine ⟨l', e', f1.congr fun b _ hb => hsame kw' hkw' hkk b (by omega), f2, by omega, fun b hb hbl => ?_, f5⟩
      rw [hsame kw' hkw' hkk b hb]
      exact f4 b hb hbl
  · rw [nodes_set ha hkw hkw' (by omega) hc, if_neg]
    · exact hy
    · rintro ⟨rfl, rfl⟩
      rw [he] at hy
      cases hy

/-- The rules for `Add`, `Search` and `Delete` of identifiers that are not there (`Good` says which can be there), with the steps `stp` and
the guarantee `G`. -/
def addRulesG (stp : Store → (e : Eff) → e.Resp → Store → Prop) (G : Store → Store → Prop) (P : Prims) (i : SecureIndex) (K : List GoString)
    (N : Nat) (Good : GoString → GoString → Prop) : Rules (Index × Nat) Store where
  step := stp
  inv s st := IxRel P i K N st s.1 s.2 ∧ (∀ kw ∈ K, ∀ id ∈ s.1 kw, Good kw id) ∧ s.2 ≤ N
  rely _ st _ st' := Extends P i K N st st'
  refl _ _ _ _ _ _ _ h := h
  trans h h' kw hkw c hc x hx := h' kw hkw c hc x (h kw hkw c hc x hx)
  budget s := N - s.2
  guar := G

/-- The same with any step without faults. -/
abbrev addRules (P : Prims) (i : SecureIndex) (K : List GoString) (N : Nat) (Good : GoString → GoString → Prop) : Rules (Index × Nat) Store :=
  addRulesG CleanStep (fun _ _ => True) P i K N Good

/-- The errors of a caller that is turned away, or whose random source fails. -/
def ixRefused (e : Err) : Prop := e = .ixNotAuthenticated ∨ e = .ixNotAuthorized ∨ e = .rand

/-- How a call may end at a moment with index `s.1`.  `m` is a length that the list of the keyword is known to have had at the start, `Rf` says
with which other errors it may end. -/
def addLinG (Rf : Err → Prop) (m : Nat) (c : IxCall) (s : Index × Nat) (o : Outcome IxRes) (s' : Index × Nat) : Prop :=
  match o with
  | .ok r => ixEffect sanitize s.1 c = (r, s'.1) ∧ s'.2 = s.2 + 1
  | .err e => s' = s ∧ (Rf e ∨ e = .nodeAlreadyExists ∧ (∃ t kw id, c = .add t kw id) ∧ m < (s.1 c.keyword).length)
  | _ => False

abbrev addLin (m : Nat) (c : IxCall) (s : Index × Nat) (o : Outcome IxRes) (s' : Index × Nat) : Prop := addLinG ixRefused m c s o s'

variable {K : List GoString} {N : Nat} {Good : GoString → GoString → Prop} {stp : Store → (e : Eff) → e.Resp → Store → Prop}
  (hstp : ∀ {st e r st'}, stp st e r st' → CleanStep st e r st') {G : Store → Store → Prop} (hG : ∀ st, G st st) {Rf : Err → Prop}

include L hstp hG in
/-- `Search` from a node on. -/
theorem rg_search {t kw : GoString} (hkw : kw ∈ K) {m : Nat} (fuel : Nat) (x : GoString) (acc : List GoString) (s : Index × Nat) (st : Store)
    (c : Nat) (l : List (Nat × GoString)) (hc : c ≤ N) (hl : Path (nodes P i st kw) 0 l c) (hacc : acc = l.map Prod.snd) (hf : N < fuel + l.length) :
    Rg (addRulesG stp G P i K N Good) (addLinG Rf m (.search t kw))
      ((searchLoop P (ixTagger P i kw) (ixCryptor P i kw) fuel ⟨x, c⟩ acc).bind fun l => .ret (.ids l)) s st := by
  induction fuel generalizing x acc s st c l with
  | zero => trivial
  | succ fuel ih =>
    rw [searchLoop, getNextNode_attempt L, op_bind]
    intro s' st' h1 h2 h3 r st'' h4
    obtain ⟨rfl, hr⟩ := cleanStep_read (hstp h4)
    have haN : s'.2 < N := by simp only [addRulesG] at h3; omega
    have hl' := Path.extends h1 hkw hc hl
    obtain ⟨l1, e, g1, g2, g3, g4⟩ := h2.1.at haN hkw
    obtain ⟨rest, rfl, hrest⟩ := hl'.split g1 g4
    simp only
    cases rest with
    | nil =>
      obtain rfl := path_nil.mp hrest
      rw [g4] at hr
      simp only at hr
      rw [hr]
      simp only [ret_bind, Prog.outcome]
      refine ⟨(s'.1, s'.2 + 1), ⟨?_, rfl⟩, ⟨h2.1.mono (Nat.le_succ _), h2.2.1, by simp only; omega⟩, (addRulesG stp G P i K N Good).refl s' st', hG st', ?_⟩
      · rw [ixEffect, ← g2, hacc, List.append_nil]
      · simp only [addRulesG]; omega
    | cons p rest =>
      obtain ⟨c', f1, f2, f3, f4⟩ := path_cons.mp hrest
      obtain ⟨p1, y⟩ := p
      simp only at f1 f2
      subst p1
      rw [f2] at hr
      simp only at hr
      rw [hr]
      have hle := f4.le
      have hlen := g1.length_le
      simp only [List.length_append, List.length_cons] at hlen
      obtain ⟨f, rfl⟩ : ∃ f, fuel = f + 1 := ⟨fuel - 1, by omega⟩
      have hn := ih y (acc ++ [y]) s' st' c' (l ++ [(c, y)]) (by omega) (hl'.snoc f2 f3) (by simp [hacc])
        (by simp only [List.length_append, List.length_cons, List.length_nil]; omega)
      simp only
      rw [searchLoop, getNextNode_attempt L, op_bind] at hn ⊢
      exact ⟨h2, (addRulesG stp G P i K N Good).refl s' st', hG st', hn⟩

include L hstp hG in
/-- `Delete` of an identifier that is not there, from a node on. -/
theorem rg_delete {t kw id : GoString} (hkw : kw ∈ K) (hg : ¬ Good kw id) {m : Nat} (fuel : Nat) (x : GoString) (s : Index × Nat) (st : Store)
    (c : Nat) (l : List (Nat × GoString)) (hc : c ≤ N) (hl : Path (nodes P i st kw) 0 l c) (hf : N < fuel + l.length) :
    Rg (addRulesG stp G P i K N Good) (addLinG Rf m (.delete t kw id))
      ((deleteLoop P (ixTagger P i kw) (ixCryptor P i kw) id fuel ⟨x, c⟩).bind fun _ => .ret .unit) s st := by
  induction fuel generalizing x s st c l with
  | zero => trivial
  | succ fuel ih =>
    rw [deleteLoop, getNextNode_attempt L, op_bind]
    intro s' st' h1 h2 h3 r st'' h4
    obtain ⟨rfl, hr⟩ := cleanStep_read (hstp h4)
    have haN : s'.2 < N := by simp only [addRulesG] at h3; omega
    have hl' := Path.extends h1 hkw hc hl
    obtain ⟨l1, e, g1, g2, g3, g4⟩ := h2.1.at haN hkw
    obtain ⟨rest, rfl, hrest⟩ := hl'.split g1 g4
    simp only
    cases rest with
    | nil =>
      obtain rfl := path_nil.mp hrest
      rw [g4] at hr
      simp only at hr
      rw [hr]
      simp only [ret_bind, Prog.outcome]
      refine ⟨(s'.1, s'.2 + 1), ⟨?_, rfl⟩, ⟨h2.1.mono (Nat.le_succ _), h2.2.1, by simp only; omega⟩, (addRulesG stp G P i K N Good).refl s' st', hG st', ?_⟩
      · have : (s'.1 kw).filter (· ≠ id) = s'.1 kw := by
          rw [List.filter_eq_self]
          intro a ha
          have := h2.2.1 kw hkw a ha
          simp only [ne_eq, decide_not, Bool.not_eq_eq_eq_not, Bool.not_true, decide_eq_false_iff_not]
          rintro rfl
          exact hg this
        rw [ixEffect, this]
        congr 1
        funext k
        simp only [Index.set]
        split
        · rename_i hh; rw [hh]
        · rfl
      · simp only [addRulesG]; omega
    | cons p rest =>
      obtain ⟨c', f1, f2, f3, f4⟩ := path_cons.mp hrest
      obtain ⟨p1, y⟩ := p
      simp only at f1 f2
      subst p1
      rw [f2] at hr
      simp only at hr
      rw [hr]
      have hle := f4.le
      have hlen := g1.length_le
      simp only [List.length_append, List.length_cons] at hlen
      obtain ⟨f, rfl⟩ : ∃ f, fuel = f + 1 := ⟨fuel - 1, by omega⟩
      have hn := ih y s' st' c' (l ++ [(c, y)]) (by omega) (hl'.snoc f2 f3)
        (by simp only [List.length_append, List.length_cons, List.length_nil]; omega)
      have hy : y ≠ id := by
        rintro rfl
        exact hg (h2.2.1 kw hkw y (by rw [← g2]; simp))
      simp only [hy, if_false]
      rw [deleteLoop, getNextNode_attempt L, op_bind] at hn ⊢
      exact ⟨h2, (addRulesG stp G P i K N Good).refl s' st', hG st', hn⟩

include L hstp hG in
/-- `Add` once it has found the end. -/
theorem rg_addEnd (hN : N < 2 ^ 64) (ha : Apart P i K N) {t kw id : GoString} (hkw : kw ∈ K) (hg : Good kw (sanitize id)) (hrf : ∀ {st n st'}, stp st (.rand n) none st' → Rf .rand)
    (hset : ∀ st c v, c ≤ N → G st (st.set (ixLabel P i kw c) dtNode v)) {m : Nat} (s : Index × Nat)
    (st : Store) (c : Nat) (l : List (Nat × GoString)) (hc : c ≤ N) (hl : Path (nodes P i st kw) 0 l c) (hm : m ≤ l.length) :
    Rg (addRulesG stp G P i K N Good) (addLinG Rf m (.add t kw id))
      ((((⟨id, (c + 1) % 2 ^ 64⟩ : Node).seal P (ixLabel P i kw c) (ixCryptor P i kw)).bind fun sn =>
        ioPut (onAlreadyExists .nodeAlreadyExists) (ixLabel P i kw c) dtNode sn.toJ.render).bind fun _ => .ret .unit) s st := by
  rw [node_seal_eq L, Prog.bind_assoc, Prog.bind_assoc, randBytes, op_bind]
  intro s1 st1 h1 h2 h3 r st1' h4
  obtain rfl := cleanStep_rand (hstp h4)
  have hl1 := Path.extends h1 hkw hc hl
  cases r with
  | none => exact ⟨s1, ⟨rfl, .inl (hrf h4)⟩, h2, (addRulesG stp G P i K N Good).refl s1 st1, hG st1, Nat.le_succ _⟩
  | some k =>
    refine ⟨h2, (addRulesG stp G P i K N Good).refl s1 st1, hG st1, ?_⟩
    simp only [ret_bind]
    rw [randBytes]
    simp only [Prog.bind_assoc, op_bind]
    intro s2 st2 h1 h2 h3 r st2' h4
    obtain rfl := cleanStep_rand (hstp h4)
    have hl2 := Path.extends h1 hkw hc hl1
    cases r with
    | none => exact ⟨s2, ⟨rfl, .inl (hrf h4)⟩, h2, (addRulesG stp G P i K N Good).refl s2 st2, hG st2, Nat.le_succ _⟩
    | some nn =>
      refine ⟨h2, (addRulesG stp G P i K N Good).refl s2 st2, hG st2, ?_⟩
      simp only [ret_bind]
      rw [ioPut, op_bind]
      intro s3 st3 h1 h2 h3 r st3' h4
      have haN : s3.2 < N := by simp only [addRulesG] at h3; omega
      have hl3 := Path.extends h1 hkw hc hl2
      rcases cleanStep_put (hstp h4) with ⟨g1, rfl, rfl⟩ | ⟨⟨b, g1⟩, rfl, rfl⟩
      · obtain ⟨i1, i2⟩ := h2.1.add L hN ha haN hkw hl3 (nodes_none.mpr g1) id k nn
        refine ⟨(s3.1.set kw (s3.1 kw ++ [sanitize id]), s3.2 + 1), ⟨rfl, rfl⟩, ⟨i1, ?_, by simp only; omega⟩, i2, hset _ _ _ hc, by simp only [addRulesG]; omega⟩
        intro kw' hkw' a ha'
        simp only [Index.set] at ha'
        split at ha'
        · rename_i hh
          subst hh
          rcases List.mem_append.mp ha' with ha' | ha'
          · exact h2.2.1 _ hkw' a ha'
          · rw [List.mem_singleton.mp ha']; exact hg
        · exact h2.2.1 _ hkw' a ha'
      · refine ⟨s3, ⟨rfl, .inr ⟨rfl, ⟨t, kw, id, rfl⟩, ?_⟩⟩, h2, (addRulesG stp G P i K N Good).refl s3 st3, hG st3, Nat.le_succ _⟩
        obtain ⟨l1, e, f1, f2, f3, f4⟩ := h2.1.at haN hkw
        obtain ⟨rest, rfl, hrest⟩ := hl3.split f1 f4
        simp only [IxCall.keyword]
        rw [← f2]
        cases rest with
        | nil =>
          obtain rfl := path_nil.mp hrest
          rw [nodes_none.mp f4] at g1
          cases g1
        | cons p rest => simp only [List.length_map, List.length_append, List.length_cons]; omega

include L hstp hG in
/-- `Add` from a node on. -/
theorem rg_add (hN : N < 2 ^ 64) (ha : Apart P i K N) {t kw id : GoString} (hkw : kw ∈ K) (hg : Good kw (sanitize id)) (hrf : ∀ {st n st'}, stp st (.rand n) none st' → Rf .rand)
    (hset : ∀ st c v, c ≤ N → G st (st.set (ixLabel P i kw c) dtNode v)) {m : Nat} (fuel : Nat)
    (x : GoString) (s : Index × Nat) (st : Store) (c : Nat) (l : List (Nat × GoString)) (hc : c ≤ N) (hl : Path (nodes P i st kw) 0 l c)
    (hm : ∃ l0 e0, e0 ≤ N ∧ Path (nodes P i st kw) 0 l0 e0 ∧ m ≤ l0.length) (hf : N < fuel + l.length) :
    Rg (addRulesG stp G P i K N Good) (addLinG Rf m (.add t kw id))
      ((((getLastNodeLoop P (ixTagger P i kw) (ixCryptor P i kw) fuel ⟨x, c⟩).bind fun last =>
        ((⟨id, (last.nextCounter + 1) % 2 ^ 64⟩ : Node).seal P (ixLabel P i kw last.nextCounter) (ixCryptor P i kw)).bind fun sn =>
        ioPut (onAlreadyExists .nodeAlreadyExists) (ixLabel P i kw last.nextCounter) dtNode sn.toJ.render)).bind fun _ => .ret .unit) s st := by
  induction fuel generalizing x s st c l with
  | zero => trivial
  | succ fuel ih =>
    rw [getLastNodeLoop, getNextNode_attempt L, op_bind, op_bind]
    intro s' st' h1 h2 h3 r st'' h4
    obtain ⟨rfl, hr⟩ := cleanStep_read (hstp h4)
    have haN : s'.2 < N := by simp only [addRulesG] at h3; omega
    have hl' := Path.extends h1 hkw hc hl
    obtain ⟨l0, e0, he0, hp0, hm0⟩ := hm
    have hp0' := Path.extends h1 hkw he0 hp0
    obtain ⟨l1, e, g1, g2, g3, g4⟩ := h2.1.at haN hkw
    obtain ⟨rest, rfl, hrest⟩ := hl'.split g1 g4
    simp only
    cases rest with
    | nil =>
      obtain rfl := path_nil.mp hrest
      rw [g4] at hr
      simp only at hr
      rw [hr]
      simp only [ret_bind]
      have hend := rg_addEnd (Good := Good) L hstp hG hN ha (t := t) hkw hg hrf hset s' st' c l hc hl' (m := m) (by
        obtain ⟨r0, hr0, -⟩ := hp0'.split g1 g4
        rw [List.append_nil] at hr0
        rw [hr0, List.length_append]; omega)
      rw [node_seal_eq L, Prog.bind_assoc, Prog.bind_assoc, randBytes, op_bind] at hend ⊢
      exact ⟨h2, (addRulesG stp G P i K N Good).refl s' st', hG st', hend⟩
    | cons p rest =>
      obtain ⟨c', f1, f2, f3, f4⟩ := path_cons.mp hrest
      obtain ⟨p1, y⟩ := p
      simp only at f1 f2
      subst p1
      rw [f2] at hr
      simp only at hr
      rw [hr]
      have hle := f4.le
      have hlen := g1.length_le
      simp only [List.length_append, List.length_cons] at hlen
      obtain ⟨f, rfl⟩ : ∃ f, fuel = f + 1 := ⟨fuel - 1, by omega⟩
      have hn := ih y s' st' c' (l ++ [(c, y)]) (by omega) (hl'.snoc f2 f3) ⟨l0, e0, he0, hp0', hm0⟩
        (by simp only [List.length_append, List.length_cons, List.length_nil]; omega)
      simp only
      rw [getLastNodeLoop, getNextNode_attempt L, op_bind, op_bind] at hn ⊢
      exact ⟨h2, (addRulesG stp G P i K N Good).refl s' st', hG st', hn⟩

/-- Which calls are covered. -/
def Covered (Good : GoString → GoString → Prop) : IxCall → Prop
  | .add _ kw id => Good kw (sanitize id)
  | .search _ _ => True
  | .delete _ kw id => ¬ Good kw id

include L hk in
/-- A call that has not started. -/
theorem rg_ixProg (hi : IxIdp i) (hN : N < 2 ^ 64) (ha : Apart P i K N) {fuel : Nat} (hfuel : N < fuel) (c : IxCall) (hc : c.keyword ∈ K)
    (hg : Covered Good c) {s : Index × Nat} {st : Store} (hb : s.2 ≤ N) (h : IxRel P i K N st s.1 s.2) :
    Rg (addRules P i K N Good) (addLin (s.1 c.keyword).length c) (ixProg P i fuel c) s st := by
  obtain ⟨l0, e0, f1, f2, f3, -, -⟩ := h c.keyword hc
  rw [ixProg_eq L hk]
  refine Rg.bind_frame (Q := fun e => ∀ x, e.target ≠ some (x, dtNode)) ?_ ?_ ?_ ?_ ?_ ?_
  · intro e he s st r st' h1 h2
    have hs : ∀ x, st' x dtNode = st x dtNode := fun x => h2.any.frame (he x)
    exact ⟨⟨h1.1.congr hs, h1.2⟩, fun kw _ c _ x hx => by rw [nodes_congr hs]; exact hx, trivial⟩
  · refine AllEff.attempt (hi c.token).1 fun r => ?_
    cases r with
    | error e => trivial
    | ok y => simp only; split <;> trivial
  · refine returns_attempt (hi c.token).2 (fun a _ => ?_) (fun e => trivial)
    simp only; split <;> trivial
  · intro a
    cases c with
    | add t kw id =>
      obtain ⟨f, rfl⟩ : ∃ f, fuel = f + 1 := ⟨fuel - 1, by omega⟩
      rw [ixBody, addBody, getLastNode, getLastNodeLoop, getNextNode_attempt L, op_bind, op_bind]
      exact ⟨_, _, rfl⟩
    | search t kw =>
      obtain ⟨f, rfl⟩ : ∃ f, fuel = f + 1 := ⟨fuel - 1, by omega⟩
      rw [ixBody, searchLoop, getNextNode_attempt L, op_bind]
      exact ⟨_, _, rfl⟩
    | delete t kw id =>
      obtain ⟨f, rfl⟩ : ∃ f, fuel = f + 1 := ⟨fuel - 1, by omega⟩
      rw [ixBody, deleteLoop, getNextNode_attempt L, op_bind]
      exact ⟨_, _, rfl⟩
  · intro s e
    refine AllOut.attempt (hi c.token).2 (fun y _ => ?_) (fun e' _ => ?_) (fun h => h.elim) (fun h => h.elim)
    · simp only
      split
      · rintro ⟨⟩
        exact ⟨rfl, .inl (.inr (.inl rfl))⟩
      · rintro ⟨⟩
    · rintro ⟨⟩
      exact ⟨rfl, .inl (.inl rfl)⟩
  · intro _ s' st' hx
    cases c with
    | add t kw id =>
      refine rg_add L (fun h => h) (fun _ => trivial) hN ha hc hg (fun _ => .inr (.inr rfl)) (fun _ _ _ _ => trivial) fuel [] s' st' 0 [] (Nat.zero_le _) (.nil 0) ⟨l0, e0, by omega, Path.extends hx hc (by omega) f1, ?_⟩
        (by simpa using hfuel)
      rw [← f2, List.length_map]
    | search t kw => exact rg_search L (fun h => h) (fun _ => trivial) hc fuel [] [] s' st' 0 [] (Nat.zero_le _) (.nil 0) rfl (by simpa using hfuel)
    | delete t kw id => exact rg_delete L (fun h => h) (fun _ => trivial) hc hg fuel [] s' st' 0 [] (Nat.zero_le _) (.nil 0) (by simpa using hfuel)

end
end D1
