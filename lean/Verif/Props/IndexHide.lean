import Verif.Props.IndexLeak
import Mathlib.Logic.Equiv.Basic
/-!
# What the IO Provider does not learn from the index: the identifiers (C81)

For every renaming of the identifiers, separately for each keyword, there is an AEAD under which any sequence of calls with renamed identifiers
sends the same requests as the sequence itself.  So neither the identifiers nor how many different ones there are can be told from the requests.
-/
namespace D1
open Spec Prog

/-! ## Two programs in lockstep -/

/-- In environment `env` the programs perform the same effects and end alike: with results related by `R`, or with the same error. -/
def Lock {α β : Type} (env : Env) (R : α → β → World → Prop) (E : World → Prop) : Prog α → Prog β → World → Prop
  | .ret a, .ret b, w => R a b w
  | .err e, .err e', w => e = e' ∧ E w
  | .panic, .panic, w => E w
  | .diverge, .diverge, w => E w
  | .op e k, q, w => ∃ k', q = .op e k' ∧ Lock env R E (k (w.exec env e).1) (k' (w.exec env e).1) (w.exec env e).2
  | _, _, _ => False

section
variable {α β γ δ : Type} {env : Env}

theorem Lock.bind {R : α → β → World → Prop} {R' : γ → δ → World → Prop} {E E' : World → Prop} {p : Prog α} {q : Prog β}
    {k : α → Prog γ} {k' : β → Prog δ} {w : World} (h : Lock env R E p q w) (hE : ∀ w, E w → E' w)
    (hk : ∀ a b w, R a b w → Lock env R' E' (k a) (k' b) w) : Lock env R' E' (p.bind k) (q.bind k') w := by
  induction p generalizing q w with
  | op e c ih =>
    obtain ⟨c', rfl, h⟩ := h
    exact ⟨_, rfl, ih _ h⟩
  | ret a => cases q with
    | ret b => exact hk a b w h
    | _ => exact h.elim
  | err a => cases q with
    | err b => exact ⟨h.1, hE w h.2⟩
    | _ => exact h.elim
  | panic => cases q with
    | panic => exact hE w h
    | _ => exact h.elim
  | diverge => cases q with
    | diverge => exact hE w h
    | _ => exact h.elim

/-- The two worlds and outcomes after a run in lockstep. -/
def EndAlike (R : α → β → World → Prop) (E : World → Prop) : Outcome α → Outcome β → World → Prop
  | .ok a, .ok b, w => R a b w
  | .err e, .err e', w => e = e' ∧ E w
  | .panic, .panic, w => E w
  | .diverge, .diverge, w => E w
  | _, _, _ => False

theorem Lock.run {R : α → β → World → Prop} {E : World → Prop} {p : Prog α} {q : Prog β} {w : World} (h : Lock env R E p q w) :
    q.trace env w = p.trace env w ∧ (q.run env w).2 = (p.run env w).2 ∧ EndAlike R E (p.run env w).1 (q.run env w).1 (p.run env w).2 := by
  induction p generalizing q w with
  | op e c ih =>
    obtain ⟨c', rfl, h⟩ := h
    obtain ⟨h1, h2, h3⟩ := ih _ h
    refine ⟨?_, h2, h3⟩
    simp only [Prog.trace, h1]
  | ret a => cases q with
    | ret b => exact ⟨rfl, rfl, h⟩
    | _ => exact h.elim
  | err a => cases q with
    | err b => exact ⟨rfl, rfl, h⟩
    | _ => exact h.elim
  | panic => cases q with
    | panic => exact ⟨rfl, rfl, h⟩
    | _ => exact h.elim
  | diverge => cases q with
    | diverge => exact ⟨rfl, rfl, h⟩
    | _ => exact h.elim

/-- A program that leaves something alone is in lockstep with itself. -/
theorem lock_refl {I : Store → Prop} {Q : Eff → Prop} (hq : ∀ e (w : World), Q e → I w.store → I (w.exec env e).2.store) {p : Prog α}
    (hp : AllEff Q p) {w : World} (h : I w.store) : Lock env (fun a b w => a = b ∧ I w.store) (fun w => I w.store) p p w := by
  induction p generalizing w with
  | op e c ih => exact ⟨c, rfl, ih _ (hp.2 _) (hq e w hp.1 h)⟩
  | ret a => exact ⟨rfl, h⟩
  | err a => exact ⟨rfl, h⟩
  | panic => exact h
  | diverge => exact h

end

/-! ## Renaming identifiers -/

/-- The same call about another identifier. -/
def renameCall (τ : GoString → Equiv.Perm GoString) : IxCall → IxCall
  | .add t kw id => .add t kw (τ kw id)
  | .search t kw => .search t kw
  | .delete t kw id => .delete t kw (τ kw id)

/-- The result of the call about other identifiers. -/
def renameRes (τ : GoString → Equiv.Perm GoString) (c : IxCall) : Outcome IxRes → Outcome IxRes
  | .ok (.ids l) => .ok (.ids (l.map (τ c.keyword)))
  | o => o

/-- Text that is valid UTF-8 stays so and keeps its encoded size. -/
structure KeepsText (τ : GoString → Equiv.Perm GoString) : Prop where
  valid : ∀ kw x, sanitize (τ kw x) = τ kw x ↔ sanitize x = x
  size : ∀ kw x, (renderStr (τ kw x)).length = (renderStr x).length

theorem KeepsText.symm {τ : GoString → Equiv.Perm GoString} (h : KeepsText τ) : KeepsText fun kw => (τ kw).symm where
  valid kw x := by
    have := h.valid kw ((τ kw).symm x)
    rw [Equiv.apply_symm_apply] at this
    exact this.symm
  size kw x := by
    have := h.size kw ((τ kw).symm x)
    rw [Equiv.apply_symm_apply] at this
    exact this.symm

section
variable {P : Prims} (i : SecureIndex) (K : List GoString) (N : Nat)

/-- The text `p` is that of a node of the keyword to which the associated data `a` belongs. -/
def IsNode (P : Prims) (a p : Bytes) (q : (GoString × Nat) × (GoString × Nat)) : Prop :=
  q.1.1 ∈ K ∧ q.1.2 ≤ N ∧ a = (J.ofBytes (some (ixLabel P i q.1.1 q.1.2))).render ∧ sanitize q.2.1 = q.2.1 ∧
    p = (⟨q.2.1, q.2.2⟩ : Node).toJ.render

open Classical in
/-- Rename the identifier in the text of a node. -/
noncomputable def renameText (P : Prims) (τ : GoString → Equiv.Perm GoString) (a p : Bytes) : Bytes :=
  if h : ∃ q, IsNode i K N P a p q then (⟨τ h.choose.1.1 h.choose.2.1, h.choose.2.2⟩ : Node).toJ.render else p

variable {i K N}

theorem node_render_inj (L : P.Laws) {n m : Node} (hn : sanitize n.identifier = n.identifier) (hm : sanitize m.identifier = m.identifier)
    (h : n.toJ.render = m.toJ.render) : n = m := by
  have := render_san L h
  simp only [Node.toJ, J.san, JFields.san, J.obj.injEq, JFields.cons.injEq, J.str.injEq, J.num.injEq, true_and, and_true, hn, hm] at this
  cases n; cases m
  simp_all

theorem IsNode.unique (L : P.Laws) (ha : Apart P i K N) {a p : Bytes} {q q' : (GoString × Nat) × (GoString × Nat)}
    (h : IsNode i K N P a p q) (h' : IsNode i K N P a p q') : q = q' := by
  obtain ⟨⟨kw, c⟩, id, ctr⟩ := q
  obtain ⟨⟨kw', c'⟩, id', ctr'⟩ := q'
  obtain ⟨h1, h2, h3, h4, h5⟩ := h
  obtain ⟨g1, g2, g3, g4, g5⟩ := h'
  obtain ⟨rfl, rfl⟩ := ha _ h1 _ g1 _ h2 _ g2 (Option.some.inj (ofBytes_render_inj L (h3.symm.trans g3)))
  have := node_render_inj L (n := ⟨id, ctr⟩) (m := ⟨id', ctr'⟩) h4 g4 (h5.symm.trans g5)
  cases this
  rfl

theorem renameText_node (L : P.Laws) (ha : Apart P i K N) (τ : GoString → Equiv.Perm GoString) {a p : Bytes}
    {q : (GoString × Nat) × (GoString × Nat)} (h : IsNode i K N P a p q) :
    renameText i K N P τ a p = (⟨τ q.1.1 q.2.1, q.2.2⟩ : Node).toJ.render := by
  have hex : ∃ q, IsNode i K N P a p q := ⟨q, h⟩
  rw [renameText, dif_pos hex, IsNode.unique L ha hex.choose_spec h]

theorem IsNode.rename {τ : GoString → Equiv.Perm GoString} (hτ : KeepsText τ) {a p : Bytes} {q : (GoString × Nat) × (GoString × Nat)}
    (h : IsNode i K N P a p q) :
    IsNode i K N P a (⟨τ q.1.1 q.2.1, q.2.2⟩ : Node).toJ.render (q.1, (τ q.1.1 q.2.1, q.2.2)) :=
  ⟨h.1, h.2.1, h.2.2.1, (hτ.valid _ _).mpr h.2.2.2.1, rfl⟩

theorem renameText_symm (L : P.Laws) (ha : Apart P i K N) {τ : GoString → Equiv.Perm GoString} (hτ : KeepsText τ) (a p : Bytes) :
    renameText i K N P (fun kw => (τ kw).symm) a (renameText i K N P τ a p) = p := by
  by_cases h : ∃ q, IsNode i K N P a p q
  · obtain ⟨q, h⟩ := h
    rw [renameText_node L ha τ h, renameText_node L ha _ (h.rename hτ)]
    simp only [Equiv.symm_apply_apply]
    exact h.2.2.2.2.symm
  · rw [renameText, renameText, dif_neg h, dif_neg h]

theorem node_render_length (a b : GoString) (c : Nat) (h : (renderStr a).length = (renderStr b).length) :
    (⟨a, c⟩ : Node).toJ.render.length = (⟨b, c⟩ : Node).toJ.render.length := by
  simp only [Node.toJ, J.render, JFields.render, List.length_append, h]

theorem renameText_length (L : P.Laws) (ha : Apart P i K N) {τ : GoString → Equiv.Perm GoString} (hτ : KeepsText τ) (a p : Bytes) :
    (renameText i K N P τ a p).length = p.length := by
  by_cases h : ∃ q, IsNode i K N P a p q
  · obtain ⟨q, h⟩ := h
    rw [renameText_node L ha τ h, h.2.2.2.2]
    exact node_render_length _ _ _ (hτ.size _ _)
  · rw [renameText, dif_neg h]

/-- The primitives with an AEAD that renames identifiers. -/
noncomputable def renamedIds (P : Prims) (i : SecureIndex) (K : List GoString) (N : Nat) (τ : GoString → Equiv.Perm GoString) : Prims :=
  P.withAead (fun k n a p => P.gcmSeal k n a (renameText i K N P (fun kw => (τ kw).symm) a p))
    (fun k n a c => (P.gcmOpen k n a c).map (renameText i K N P τ a))

variable (L : P.Laws) (ha : Apart P i K N) {τ : GoString → Equiv.Perm GoString} (hτ : KeepsText τ)

include L ha hτ in
theorem renamedIds_laws : (renamedIds P i K N τ).Laws where
  aes_len := L.aes_len
  aes_dec_enc := L.aes_dec_enc
  aes_dec_len := L.aes_dec_len
  aes_enc_dec := L.aes_enc_dec
  gcm_len k n a p := by
    show (P.gcmSeal k n a (renameText i K N P (fun kw => (τ kw).symm) a p)).length = _
    rw [L.gcm_len, renameText_length L ha hτ.symm]
  gcm_open_seal k n a p := by
    show (P.gcmOpen k n a (P.gcmSeal k n a (renameText i K N P (fun kw => (τ kw).symm) a p))).map (renameText i K N P τ a) = _
    rw [L.gcm_open_seal]
    exact congrArg some (renameText_symm L ha hτ.symm a p)
  gcm_seal_open k n a c p h := by
    have h' : (P.gcmOpen k n a c).map (renameText i K N P τ a) = some p := h
    obtain ⟨q, hq, rfl⟩ := Option.map_eq_some_iff.mp h'
    show c = P.gcmSeal k n a (renameText i K N P (fun kw => (τ kw).symm) a (renameText i K N P τ a q))
    rw [renameText_symm L ha hτ]
    exact L.gcm_seal_open _ _ _ _ _ hq
  sponge_len := L.sponge_len
  pbkdf2_len := L.pbkdf2_len
  unmarshal_render := L.unmarshal_render
  uuid_parse := L.uuid_parse
  time_parse := L.time_parse
  time_plain := L.time_plain

include L ha in
/-- Sealing the renamed node gives the bytes of the node. -/
theorem renamedIds_seal {kw : GoString} (hkw : kw ∈ K) {c : Nat} (hc : c ≤ N) {id : GoString} (hid : sanitize id = id) (hτ : KeepsText τ) (ctr : Nat)
    (k : BytesN 32) (nn : BytesN 12) :
    sealedNode (renamedIds P i K N τ) i kw c ⟨τ kw id, ctr⟩ k nn = sealedNode P i kw c ⟨id, ctr⟩ k nn := by
  have h := renameText_node L ha (fun kw => (τ kw).symm) (a := (J.ofBytes (some (ixLabel P i kw c))).render)
    (p := (⟨τ kw id, ctr⟩ : Node).toJ.render) (q := ((kw, c), (τ kw id, ctr)))
    ⟨hkw, hc, rfl, (hτ.valid kw id).mpr hid, rfl⟩
  simp only [Equiv.symm_apply_apply] at h
  show (⟨some (P.gcmSeal k.1 nn.1 _ (renameText i K N P (fun kw => (τ kw).symm) _ _) ++ nn.1), _⟩ : SealedNode) = _
  rw [show ixLabel (renamedIds P i K N τ) i kw c = ixLabel P i kw c from rfl, h]
  rfl

/-- Every record of the index in use reads as a node, and as the renamed node with the other AEAD.  Counters are at most `M`. -/
def Twin (P : Prims) (i : SecureIndex) (K : List GoString) (N : Nat) (τ : GoString → Equiv.Perm GoString) (M : Nat) (st : Store) : Prop :=
  ∀ kw ∈ K, ∀ c ≤ N, nodes P i st kw c = none ∨ ∃ id ctr, sanitize id = id ∧ ctr ≤ M ∧ nodes P i st kw c = some (.ok ⟨id, ctr⟩) ∧
    nodes (renamedIds P i K N τ) i st kw c = some (.ok ⟨τ kw id, ctr⟩)

variable {M : Nat} {env : Env}

theorem Twin.mono {M' : Nat} {st : Store} (h : Twin P i K N τ M st) (hm : M ≤ M') : Twin P i K N τ M' st := by
  intro kw hkw c hc
  rcases h kw hkw c hc with h | ⟨id, ctr, h1, h2, h3⟩
  · exact .inl h
  · exact .inr ⟨id, ctr, h1, by omega, h3⟩

theorem Twin.congr {st st' : Store} (h : Twin P i K N τ M st) (hs : ∀ x, st' x dtNode = st x dtNode) : Twin P i K N τ M st' := by
  intro kw hkw c hc
  rw [nodes_congr hs, nodes_congr hs]
  exact h kw hkw c hc

include ha in
theorem Twin.erase {st : Store} (h : Twin P i K N τ M st) {kw : GoString} (hkw : kw ∈ K) {c : Nat} (hc : c ≤ N) :
    Twin P i K N τ M (st.set (ixLabel P i kw c) dtNode none) := by
  intro kw' hkw' c' hc'
  have hL : nodes (renamedIds P i K N τ) i (st.set (ixLabel P i kw c) dtNode none) kw' c' = _ :=
    nodes_set (P := renamedIds P i K N τ) ha hkw hkw' hc hc' st none
  rw [nodes_set ha hkw hkw' hc hc', hL]
  by_cases he : kw' = kw ∧ c' = c
  · rw [if_pos he]; exact .inl rfl
  · rw [if_neg he, if_neg he]; exact h kw' hkw' c' hc'

include L ha hτ in
theorem Twin.write {st : Store} (h : Twin P i K N τ M st) {kw : GoString} (hkw : kw ∈ K) {c : Nat} (hc : c ≤ N) {id : GoString}
    (hid : sanitize id = id) {ctr : Nat} (hm : ctr ≤ M) (hctr : ctr < 2 ^ 64) (k : BytesN 32) (nn : BytesN 12) :
    Twin P i K N τ M (st.set (ixLabel P i kw c) dtNode (some (nodeRec P i kw c ⟨id, ctr⟩ k nn))) := by
  intro kw' hkw' c' hc'
  have hL : nodes (renamedIds P i K N τ) i (st.set (ixLabel P i kw c) dtNode (some (nodeRec P i kw c ⟨id, ctr⟩ k nn))) kw' c' = _ :=
    nodes_set (P := renamedIds P i K N τ) ha hkw hkw' hc hc' st _
  rw [nodes_set ha hkw hkw' hc hc', hL]
  by_cases he : kw' = kw ∧ c' = c
  · rw [if_pos he, if_pos he]
    obtain ⟨rfl, rfl⟩ := he
    refine .inr ⟨id, ctr, hid, hm, ?_, ?_⟩
    · rw [Option.map_some, readNode_rec L _ _ _ _ _ hctr]
      simp only [hid]
    · have e : nodeRec P i kw' c' ⟨id, ctr⟩ k nn = nodeRec (renamedIds P i K N τ) i kw' c' ⟨τ kw' id, ctr⟩ k nn :=
        congrArg (fun s : SealedNode => s.toJ.render) (renamedIds_seal L ha hkw' hc' hid hτ ctr k nn).symm
      rw [Option.map_some, e, readNode_rec (renamedIds_laws L ha hτ) _ _ _ _ _ hctr]
      simp only [(hτ.valid kw' id).mpr hid]
  · rw [if_neg he, if_neg he]; exact h kw' hkw' c' hc'

/-- What a read gives, with both AEADs. -/
theorem Twin.read {w : World} (h : Twin P i K N τ M w.store) {kw : GoString} (hkw : kw ∈ K) {c : Nat} (hc : c ≤ N) :
    (w.exec env (.get (ixLabel P i kw c) dtNode)).2.store = w.store ∧
    ((∃ e, readNode P i kw c (w.exec env (.get (ixLabel P i kw c) dtNode)).1 = .error e ∧
      readNode (renamedIds P i K N τ) i kw c (w.exec env (.get (ixLabel P i kw c) dtNode)).1 = .error e) ∨
    ∃ id ctr, sanitize id = id ∧ ctr ≤ M ∧ readNode P i kw c (w.exec env (.get (ixLabel P i kw c) dtNode)).1 = .ok ⟨id, ctr⟩ ∧
      readNode (renamedIds P i K N τ) i kw c (w.exec env (.get (ixLabel P i kw c) dtNode)).1 = .ok ⟨τ kw id, ctr⟩) := by
  refine ⟨(exec_read env w kw c).1, ?_⟩
  have hh := h kw hkw c hc
  simp only [World.exec, Store.exec]
  cases hs : w.store (ixLabel P i kw c) dtNode with
  | none => cases env.fault w.t <;> exact .inl ⟨_, rfl, rfl⟩
  | some b =>
    cases env.fault w.t with
    | none =>
      rcases hh with hh | ⟨id, ctr, h1, h2, h3, h4⟩
      · rw [nodes_none, hs] at hh; cases hh
      · right
        rw [nodes, hs] at h3
        have h4' : (w.store (ixLabel P i kw c) dtNode).map (fun b => readNode (renamedIds P i K N τ) i kw c (.ok b)) = _ := h4
        rw [hs] at h4'
        exact ⟨id, ctr, h1, h2, Option.some.inj h3, Option.some.inj h4'⟩
    | before => exact .inl ⟨_, rfl, rfl⟩
    | after => exact .inl ⟨_, rfl, rfl⟩

/-! ## The methods in lockstep -/

/-- Both see the invariant at the end. -/
abbrev Tw (P : Prims) (i : SecureIndex) (K : List GoString) (N : Nat) (τ : GoString → Equiv.Perm GoString) (M : Nat) (w : World) : Prop :=
  Twin P i K N τ M w.store

include L ha hτ in
theorem lock_search (hMN : M ≤ N) {kw : GoString} (hkw : kw ∈ K) (fuel : Nat) : ∀ {x y : GoString} {c : Nat} {acc : List GoString} {w : World},
    c ≤ N → Twin P i K N τ M w.store →
    Lock env (fun l l' w => l' = l.map (τ kw) ∧ Tw P i K N τ M w) (Tw P i K N τ M)
      (searchLoop P (ixTagger P i kw) (ixCryptor P i kw) fuel ⟨x, c⟩ acc)
      (searchLoop (renamedIds P i K N τ) (ixTagger P i kw) (ixCryptor P i kw) fuel ⟨y, c⟩ (acc.map (τ kw))) w := by
  induction fuel with
  | zero => intro x y c acc w _ h; exact h
  | succ fuel ih =>
    intro x y c acc w hc h
    have e2 := getNextNode_attempt (renamedIds_laws L ha hτ) (i := i) kw ⟨y, c⟩ (α := List GoString)
    rw [show ixTagger (renamedIds P i K N τ) i kw = ixTagger P i kw from rfl,
      show ixCryptor (renamedIds P i K N τ) i kw = ixCryptor P i kw from rfl] at e2
    rw [searchLoop, searchLoop, getNextNode_attempt L, e2]
    refine ⟨_, rfl, ?_⟩
    obtain ⟨hst, hr⟩ := h.read (env := env) hkw hc
    have h' : Twin P i K N τ M (w.exec env (.get (ixLabel P i kw c) dtNode)).2.store := by rw [hst]; exact h
    rcases hr with ⟨e, h1, h2⟩ | ⟨id, ctr, h1, h2, h3, h4⟩
    · simp only [h1, h2]
      cases e <;> first | exact ⟨rfl, h'⟩
    · simp only [h3, h4]
      have := ih (x := id) (y := τ kw id) (c := ctr) (acc := acc ++ [id]) (by omega) h'
      rwa [List.map_append] at this

include L ha hτ in
theorem lock_getLast (hMN : M ≤ N) {kw : GoString} (hkw : kw ∈ K) (fuel : Nat) : ∀ {x y : GoString} {c : Nat} {w : World},
    c ≤ M → Twin P i K N τ M w.store →
    Lock env (fun n n' w => n'.nextCounter = n.nextCounter ∧ n.nextCounter ≤ M ∧ Tw P i K N τ M w) (Tw P i K N τ M)
      (getLastNodeLoop P (ixTagger P i kw) (ixCryptor P i kw) fuel ⟨x, c⟩)
      (getLastNodeLoop (renamedIds P i K N τ) (ixTagger P i kw) (ixCryptor P i kw) fuel ⟨y, c⟩) w := by
  induction fuel with
  | zero => intro x y c w _ h; exact h
  | succ fuel ih =>
    intro x y c w hc h
    have e2 := getNextNode_attempt (renamedIds_laws L ha hτ) (i := i) kw ⟨y, c⟩ (α := Node)
    rw [show ixTagger (renamedIds P i K N τ) i kw = ixTagger P i kw from rfl,
      show ixCryptor (renamedIds P i K N τ) i kw = ixCryptor P i kw from rfl] at e2
    rw [getLastNodeLoop, getLastNodeLoop, getNextNode_attempt L, e2]
    refine ⟨_, rfl, ?_⟩
    obtain ⟨hst, hr⟩ := h.read (env := env) hkw (show c ≤ N by omega)
    have h' : Twin P i K N τ M (w.exec env (.get (ixLabel P i kw c) dtNode)).2.store := by rw [hst]; exact h
    rcases hr with ⟨e, h1, h2⟩ | ⟨id, ctr, h1, h2, h3, h4⟩
    · simp only [h1, h2]
      cases e <;> first | exact ⟨rfl, h'⟩ | exact ⟨rfl, hc, h'⟩
    · simp only [h3, h4]
      exact ih h2 h'

theorem exec_put (env : Env) (w : World) (id : Bytes) (dt : DataType) (b : Bytes) : (w.exec env (.put id dt b)).2.store = w.store ∨
    (w.exec env (.put id dt b)).2.store = w.store.set id dt (some b) := by
  simp only [World.exec, Store.exec]
  cases env.fault w.t <;> cases w.store id dt <;> first | exact .inl rfl | exact .inr rfl

theorem exec_update (env : Env) (w : World) (id : Bytes) (dt : DataType) (b : Bytes) : (w.exec env (.update id dt b)).2.store = w.store ∨
    (w.exec env (.update id dt b)).2.store = w.store.set id dt (some b) := by
  simp only [World.exec, Store.exec]
  cases env.fault w.t <;> cases w.store id dt <;> first | exact .inl rfl | exact .inr rfl

theorem exec_delete (env : Env) (w : World) (id : Bytes) (dt : DataType) : (w.exec env (.delete id dt)).2.store = w.store ∨
    (w.exec env (.delete id dt)).2.store = w.store.set id dt none := by
  simp only [World.exec, Store.exec]
  cases env.fault w.t <;> first | exact .inl rfl | exact .inr rfl

theorem exec_rand_store (env : Env) (w : World) (n : Nat) : (w.exec env (.rand n)).2.store = w.store := by
  simp only [World.exec, Store.exec]
  cases env.fault w.t <;> rfl

theorem lock_rand {n : Nat} {w : World} (h : Twin P i K N τ M w.store) :
    Lock env (fun a b w => a = b ∧ Tw P i K N τ M w) (Tw P i K N τ M) (randBytes n) (randBytes n) w := by
  refine ⟨_, rfl, ?_⟩
  have h' : Twin P i K N τ M (w.exec env (.rand n)).2.store := by rw [exec_rand_store]; exact h
  cases (w.exec env (.rand n)).1 with
  | none => exact ⟨rfl, h'⟩
  | some b => exact ⟨rfl, h'⟩

include L ha hτ in
theorem lock_add (hMN : M < N) (hN : N < 2 ^ 64) {kw : GoString} (hkw : kw ∈ K) {id : GoString} (hid : sanitize id = id) (fuel : Nat) {w : World}
    (h : Twin P i K N τ M w.store) :
    Lock env (fun _ _ w => Tw P i K N τ (M + 1) w) (Tw P i K N τ (M + 1)) (addBody P i fuel kw id) (addBody (renamedIds P i K N τ) i fuel kw (τ kw id)) w := by
  rw [addBody, addBody, getLastNode, getLastNode]
  refine (lock_getLast L ha hτ (by omega) hkw fuel (c := 0) (by omega) h).bind (fun _ h => h.mono (by omega)) ?_
  rintro n n' w ⟨h1, h2, h⟩
  rw [h1, node_seal_eq L, node_seal_eq (renamedIds_laws L ha hτ), Prog.bind_assoc, Prog.bind_assoc]
  refine (lock_rand h).bind (fun _ h => h.mono (by omega)) ?_
  rintro k _ w ⟨rfl, h⟩
  rw [Prog.bind_assoc, Prog.bind_assoc]
  refine (lock_rand h).bind (fun _ h => h.mono (by omega)) ?_
  rintro nn _ w ⟨rfl, h⟩
  rw [ret_bind, ret_bind, renamedIds_seal L ha hkw (show n.nextCounter ≤ N by omega) hid hτ]
  refine ⟨_, rfl, ?_⟩
  have h' : Twin P i K N τ (M + 1) (w.exec env (.put (ixLabel P i kw n.nextCounter) dtNode
      (sealedNode P i kw n.nextCounter ⟨id, (n.nextCounter + 1) % 2 ^ 64⟩ k nn).toJ.render)).2.store := by
    rcases exec_put env w (ixLabel P i kw n.nextCounter) dtNode
      (sealedNode P i kw n.nextCounter ⟨id, (n.nextCounter + 1) % 2 ^ 64⟩ k nn).toJ.render with hs | hs
    · rw [hs]; exact h.mono (by omega)
    · rw [hs]
      exact (h.mono (by omega)).write L ha hτ hkw (by omega) hid (by omega) (by omega) k nn
  cases (w.exec env (.put (ixLabel P i kw n.nextCounter) dtNode
      (sealedNode P i kw n.nextCounter ⟨id, (n.nextCounter + 1) % 2 ^ 64⟩ k nn).toJ.render)).1 with
  | ok u => exact h'
  | error e => exact ⟨rfl, h'⟩

include ha in
theorem lock_erase {kw : GoString} (hkw : kw ∈ K) {c : Nat} (hc : c ≤ N) {w : World} (h : Twin P i K N τ M w.store) :
    Lock env (fun _ _ w => Tw P i K N τ M w) (Tw P i K N τ M) (ioDelete .io (ixLabel P i kw c) dtNode) (ioDelete .io (ixLabel P i kw c) dtNode) w := by
  refine ⟨_, rfl, ?_⟩
  have h' : Twin P i K N τ M (w.exec env (.delete (ixLabel P i kw c) dtNode)).2.store := by
    rcases exec_delete env w (ixLabel P i kw c) dtNode with hs | hs <;> rw [hs]
    · exact h
    · exact h.erase ha hkw hc
  cases (w.exec env (.delete (ixLabel P i kw c) dtNode)).1 with
  | ok u => exact h'
  | error e => exact ⟨rfl, h'⟩

include L ha hτ in
theorem lock_deleteNode (hMN : M ≤ N) (hN : N < 2 ^ 64) {kw : GoString} (hkw : kw ∈ K) {c : Nat} (hc : c ≤ N) {n n' : Node}
    (hn : n'.nextCounter = n.nextCounter) (hnN : n.nextCounter ≤ N) {w : World} (h : Twin P i K N τ M w.store) :
    Lock env (fun _ _ w => Tw P i K N τ M w) (Tw P i K N τ M) (deleteNode P (ixLabel P i kw c) n (ixTagger P i kw) (ixCryptor P i kw))
      (deleteNode (renamedIds P i K N τ) (ixLabel P i kw c) n' (ixTagger P i kw) (ixCryptor P i kw)) w := by
  have e2 := deleteNode_eq (renamedIds_laws L ha hτ) (i := i) kw c n'
  rw [show ixTagger (renamedIds P i K N τ) i kw = ixTagger P i kw from rfl, show ixCryptor (renamedIds P i K N τ) i kw = ixCryptor P i kw from rfl,
    show ixLabel (renamedIds P i K N τ) i kw c = ixLabel P i kw c from rfl, hn] at e2
  rw [deleteNode_eq L, e2]
  refine ⟨_, rfl, ?_⟩
  obtain ⟨hst, hr⟩ := h.read (env := env) hkw hnN
  have h' : Twin P i K N τ M (w.exec env (.get (ixLabel P i kw n.nextCounter) dtNode)).2.store := by rw [hst]; exact h
  rcases hr with ⟨e, h1, h2⟩ | ⟨id, ctr, h1, h2, h3, h4⟩
  · simp only [h1, h2]
    cases e <;> first | exact ⟨rfl, h'⟩ | exact lock_erase ha hkw hc h'
  · simp only [h3, h4]
    refine (lock_rand h').bind (fun _ h => h) ?_
    rintro k _ w ⟨rfl, h⟩
    refine (lock_rand h).bind (fun _ h => h) ?_
    rintro nn _ w ⟨rfl, h⟩
    have e : nodeRec (renamedIds P i K N τ) i kw c ⟨τ kw id, ctr⟩ k nn = nodeRec P i kw c ⟨id, ctr⟩ k nn :=
      congrArg (fun s : SealedNode => s.toJ.render) (renamedIds_seal L ha hkw hc h1 hτ ctr k nn)
    rw [e]
    have hu : Lock env (fun _ _ w => Tw P i K N τ M w) (Tw P i K N τ M)
        (ioUpdate (onNotFound .nodeNotFound) (ixLabel P i kw c) dtNode (nodeRec P i kw c ⟨id, ctr⟩ k nn))
        (ioUpdate (onNotFound .nodeNotFound) (ixLabel P i kw c) dtNode (nodeRec P i kw c ⟨id, ctr⟩ k nn)) w := by
      refine ⟨_, rfl, ?_⟩
      have h' : Twin P i K N τ M (w.exec env (.update (ixLabel P i kw c) dtNode (nodeRec P i kw c ⟨id, ctr⟩ k nn))).2.store := by
        rcases exec_update env w (ixLabel P i kw c) dtNode (nodeRec P i kw c ⟨id, ctr⟩ k nn) with hs | hs <;> rw [hs]
        · exact h
        · exact h.write L ha hτ hkw hc h1 h2 (by omega) k nn
      cases (w.exec env (.update (ixLabel P i kw c) dtNode (nodeRec P i kw c ⟨id, ctr⟩ k nn))).1 with
      | ok u => exact h'
      | error e => exact ⟨rfl, h'⟩
    exact hu.bind (fun _ h => h) fun _ _ w h => lock_erase ha hkw hnN h

include L ha hτ in
theorem lock_delete (hMN : M ≤ N) (hN : N < 2 ^ 64) {kw : GoString} (hkw : kw ∈ K) (id : GoString) (fuel : Nat) : ∀ {x y : GoString} {c : Nat} {w : World},
    c ≤ N → Twin P i K N τ M w.store →
    Lock env (fun _ _ w => Tw P i K N τ M w) (Tw P i K N τ M)
      (deleteLoop P (ixTagger P i kw) (ixCryptor P i kw) id fuel ⟨x, c⟩)
      (deleteLoop (renamedIds P i K N τ) (ixTagger P i kw) (ixCryptor P i kw) (τ kw id) fuel ⟨y, c⟩) w := by
  induction fuel with
  | zero => intro x y c w _ h; exact h
  | succ fuel ih =>
    intro x y c w hc h
    have e2 := getNextNode_attempt (renamedIds_laws L ha hτ) (i := i) kw ⟨y, c⟩ (α := Unit)
    have e3 := nextLabel_eq (renamedIds_laws L ha hτ) (i := i) kw ⟨y, c⟩
    rw [show ixTagger (renamedIds P i K N τ) i kw = ixTagger P i kw from rfl,
      show ixCryptor (renamedIds P i K N τ) i kw = ixCryptor P i kw from rfl] at e2
    rw [show ixTagger (renamedIds P i K N τ) i kw = ixTagger P i kw from rfl] at e3
    rw [deleteLoop, deleteLoop, getNextNode_attempt L, e2]
    refine ⟨_, rfl, ?_⟩
    obtain ⟨hst, hr⟩ := h.read (env := env) hkw hc
    have h' : Twin P i K N τ M (w.exec env (.get (ixLabel P i kw c) dtNode)).2.store := by rw [hst]; exact h
    rcases hr with ⟨e, h1, h2⟩ | ⟨id', ctr, h1, h2, h3, h4⟩
    · simp only [h1, h2]
      cases e <;> first | exact ⟨rfl, h'⟩ | exact h'
    · simp only [h3, h4]
      by_cases hid : id' = id
      · rw [if_pos hid, if_pos (by rw [hid]), bind_eq, bind_eq, nextLabel_eq L, e3, ofPanic_some, ofPanic_some, ret_bind, ret_bind]
        exact (lock_deleteNode L ha hτ hMN hN hkw hc rfl (show ctr ≤ N by omega) h').bind (fun _ h => h) fun _ _ w h => ih hc h
      · rw [if_neg hid, if_neg fun h => hid ((τ kw).injective h)]
        exact ih (by omega) h'

variable (hk : i.indexKey.length = 32)

/-- What an `Add` records is valid text. -/
def TextOk : IxCall → Prop
  | .add _ _ id => sanitize id = id
  | _ => True

include L ha hτ hk in
theorem lock_call (hi : IxIdp i) (hMN : M < N) (hN : N < 2 ^ 64) (fuel : Nat) {c : IxCall} (hc : c.keyword ∈ K) (ht : TextOk c) {w : World}
    (h : Twin P i K N τ M w.store) :
    Lock env (fun r r' w => (Outcome.ok r' = renameRes τ c (.ok r)) ∧ Tw P i K N τ (M + 1) w) (Tw P i K N τ (M + 1))
      (ixProg P i fuel c) (ixProg (renamedIds P i K N τ) i fuel (renameCall τ c)) w := by
  rw [ixProg_eq L hk, ixProg_eq (renamedIds_laws L ha hτ) hk]
  have htok : (renameCall τ c).token = c.token := by cases c <;> rfl
  rw [htok]
  have hv : AllEff (fun e => ∀ x, e.target ≠ some (x, dtNode)) (i.verifyAccess c.token) := by
    rw [SecureIndex.verifyAccess]
    refine (hi c.token).1.attempt fun r => ?_
    cases r with
    | error e => trivial
    | ok y =>
      simp only
      split <;> trivial
  refine (lock_refl (I := Twin P i K N τ M) (fun e w hq h => h.congr fun x => exec_frame (hq x)) hv h).bind (fun _ h => h.mono (by omega)) ?_
  rintro _ _ w ⟨-, h⟩
  cases c with
  | add t kw id =>
    exact (lock_add L ha hτ hMN hN hc ht fuel h).bind (fun _ h => h) fun _ _ w h => ⟨rfl, h⟩
  | search t kw =>
    exact (lock_search L ha hτ (by omega) hc fuel (acc := []) (Nat.zero_le _) h).bind (fun _ h => h.mono (by omega))
      fun l l' w h => ⟨by rw [h.1]; rfl, h.2.mono (by omega)⟩
  | delete t kw id =>
    exact (lock_delete L ha hτ (by omega) hN hc id fuel (Nat.zero_le _) h).bind (fun _ h => h.mono (by omega))
      fun _ _ w h => ⟨rfl, h.mono (by omega)⟩

theorem twin_empty {st : Store} (h : ∀ x, st x dtNode = none) : Twin P i K N τ 0 st := fun _ _ _ _ => .inl (nodes_none.mpr (h _))

include L ha hτ hk in
theorem lock_history (hi : IxIdp i) (hN : N < 2 ^ 64) (fuel : Nat) (calls : List IxCall) (hc : ∀ c ∈ calls, c.keyword ∈ K ∧ TextOk c) {w : World}
    (hlen : M + calls.length ≤ N) (h : Twin P i K N τ M w.store) :
    ixTrace (renamedIds P i K N τ) i fuel env w (calls.map (renameCall τ)) = ixTrace P i fuel env w calls ∧
    ixCodeHist (renamedIds P i K N τ) i fuel env w (calls.map (renameCall τ)) =
      List.zipWith (renameRes τ) calls (ixCodeHist P i fuel env w calls) := by
  induction calls generalizing M w with
  | nil => exact ⟨rfl, rfl⟩
  | cons c r ih =>
    simp only [List.length_cons] at hlen
    obtain ⟨h1, h2, h3⟩ := (lock_call L ha hτ hk (env := env) hi (by omega) hN fuel (hc c (by simp)).1 (hc c (by simp)).2 h).run
    have h4 : Twin P i K N τ (M + 1) ((ixProg P i fuel c).run env w).2.store ∧
        ((ixProg (renamedIds P i K N τ) i fuel (renameCall τ c)).run env w).1 = renameRes τ c ((ixProg P i fuel c).run env w).1 := by
      cases ho : ((ixProg P i fuel c).run env w).1 <;> cases ho' : ((ixProg (renamedIds P i K N τ) i fuel (renameCall τ c)).run env w).1 <;>
        rw [ho, ho'] at h3 <;> first | exact h3.elim | skip
      · exact ⟨h3.2, h3.1⟩
      · exact ⟨h3.2, by rw [h3.1]; rfl⟩
      · exact ⟨h3, rfl⟩
      · exact ⟨h3, rfl⟩
    obtain ⟨g1, g2⟩ := ih (fun c' hc' => hc c' (by simp [hc'])) (by omega) h4.1
    simp only [List.map_cons, ixTrace, ixCodeHist, h1, h2, g1, g2, h4.2, List.zipWith_cons_cons]
    exact ⟨trivial, trivial⟩

include L hk ha in
/-- C81, the part that holds for identifiers: for every renaming of the identifiers, separately for each keyword, that keeps their encoded size
there is an AEAD under which every sequence of calls with renamed identifiers sends the same requests as the sequence itself under the given
AEAD; the results are renamed.  In all environments: random sources, clocks and failures of the IO Provider. -/
theorem C81_identifiers_partial (hi : IxIdp i) (hN : N < 2 ^ 64) (τ : GoString → Equiv.Perm GoString) (hτ : KeepsText τ) :
    ∃ P' : Prims, P'.Laws ∧ (∃ s o, P' = P.withAead s o) ∧ ∀ (env : Env) (fuel : Nat) (w : World) (calls : List IxCall),
      (∀ x, w.store x dtNode = none) → calls.length ≤ N → (∀ c ∈ calls, c.keyword ∈ K ∧ TextOk c) →
      ixTrace P' i fuel env w (calls.map (renameCall τ)) = ixTrace P i fuel env w calls ∧
      ixCodeHist P' i fuel env w (calls.map (renameCall τ)) = List.zipWith (renameRes τ) calls (ixCodeHist P i fuel env w calls) :=
  ⟨renamedIds P i K N τ, renamedIds_laws L ha hτ, ⟨_, _, rfl⟩, fun _ fuel _ calls hw hlen hc =>
    lock_history L ha hτ hk hi hN fuel calls hc (by omega) (twin_empty hw)⟩

end

/-- Exchange "a" and "b" for one keyword only.  With it, two keywords with the same identifier cannot be told from two keywords with different
identifiers: the number of identifiers is hidden. -/
noncomputable def swapAb (kw : GoString) : Equiv.Perm GoString := if kw = [107] then Equiv.swap [97] [98] else Equiv.refl _

theorem swapAb_keeps : KeepsText swapAb := by
  have h : ∀ x, Equiv.swap ([97] : GoString) [98] x = x ∨ (x = [97] ∧ Equiv.swap ([97] : GoString) [98] x = [98]) ∨
      (x = [98] ∧ Equiv.swap ([97] : GoString) [98] x = [97]) := by
    intro x
    by_cases h1 : x = [97]
    · exact .inr (.inl ⟨h1, by rw [h1, Equiv.swap_apply_left]⟩)
    · by_cases h2 : x = [98]
      · exact .inr (.inr ⟨h2, by rw [h2, Equiv.swap_apply_right]⟩)
      · exact .inl (Equiv.swap_apply_of_ne_of_ne h1 h2)
  constructor
  · intro kw x
    unfold swapAb
    split
    · rcases h x with e | ⟨rfl, e⟩ | ⟨rfl, e⟩ <;> rw [e] <;> decide +kernel
    · rfl
  · intro kw x
    unfold swapAb
    split
    · rcases h x with e | ⟨rfl, e⟩ | ⟨rfl, e⟩ <;> rw [e] <;> decide +kernel
    · rfl

example : toyPrims.Laws ∧ Apart toyPrims toyIndex [[107], [108]] 5 ∧ IxIdp toyIndex ∧ KeepsText swapAb ∧
    [IxCall.add [1] [107] [97], .add [1] [108] [97]].map (renameCall swapAb) = [.add [1] [107] [98], .add [1] [108] [97]] :=
  ⟨toyLaws, toyIndex_apart, toyIndex_idp, swapAb_keeps, by simp [renameCall, swapAb, Equiv.swap_apply_left]⟩

end D1
