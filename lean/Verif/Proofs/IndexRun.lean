import Verif.Props.Kmac
import Verif.Proofs.Always
import Verif.Spec.Index
/-!
# The nodes of a secure index, and sequential runs
-/
namespace D1
open Spec Prog

/-- The tagger of a keyword. -/
def ixTagger (P : Prims) (i : SecureIndex) (kw : GoString) : Tagger := ⟨P.sponge 136 (taggerInput i kw) 32⟩

/-- The cryptor of a keyword. -/
def ixCryptor (P : Prims) (i : SecureIndex) (kw : GoString) : Cryptor := ⟨P.sponge 136 (kmacInput 136 i.indexKey labelId kw 32) 32⟩

/-- What the index makes of an answer to a read of a node. -/
def readNode (P : Prims) (i : SecureIndex) (kw : GoString) (c : Nat) : Except IoErr Bytes → Except Err Node
  | .error e => .error (onNotFound .nodeNotFound e)
  | .ok b => match (P.unmarshal b).bind SealedNode.ofJ with
    | none => .error .json
    | some sn => sn.unseal P (ixLabel P i kw c) (ixCryptor P i kw)

/-- The stored form of a node under a drawn key and nonce. -/
def nodeRec (P : Prims) (i : SecureIndex) (kw : GoString) (c : Nat) (n : Node) (k : BytesN 32) (nn : BytesN 12) : Bytes :=
  (⟨some (gcmBox P k.1 nn.1 (J.ofBytes (some (ixLabel P i kw c))).render n.toJ.render),
    some (kwpBox P (ixCryptor P i kw).kwp k.1)⟩ : SealedNode).toJ.render

/-- The nodes of a keyword, by counter: absent, or what reading it gives. -/
def nodes (P : Prims) (i : SecureIndex) (st : Store) (kw : GoString) (c : Nat) : Option (Except Err Node) :=
  (st (ixLabel P i kw c) dtNode).map fun b => readNode P i kw c (.ok b)

/-- The keywords in `K` with counters up to `N` have different labels. -/
def Apart (P : Prims) (i : SecureIndex) (K : List GoString) (N : Nat) : Prop :=
  ∀ kw ∈ K, ∀ kw' ∈ K, ∀ c ≤ N, ∀ c' ≤ N, ixLabel P i kw c = ixLabel P i kw' c' → kw = kw' ∧ c = c'

section
variable {P : Prims} (L : P.Laws) {env : Env} {i : SecureIndex} (hk : i.indexKey.length = 32)

include L hk in
theorem gtc_eq (kw : GoString) : i.getTaggerAndCryptor P kw = .ret (ixTagger P i kw, ixCryptor P i kw) :=
  getTaggerAndCryptor_eq L i hk kw

include L in
theorem nextLabel_eq (kw : GoString) (n : Node) : n.nextLabel P (ixTagger P i kw) = some (ixLabel P i kw n.nextCounter) := by
  rw [Node.nextLabel, ixTagger, tag_eq P _ _ (L.sponge_len _ _ _)]
  rfl

include L in
theorem getNextNode_eq (kw : GoString) (n : Node) : getNextNode P n (ixTagger P i kw) (ixCryptor P i kw) =
    .op (.get (ixLabel P i kw n.nextCounter) dtNode) fun r => ofExcept (readNode P i kw n.nextCounter r) := by
  simp only [getNextNode, bind_eq, nextLabel_eq L, ofPanic_some, ret_bind, getSealedNode, ioGet, op_bind]
  congr 1
  funext r
  rcases r with e | b
  · rfl
  · simp only [ret_bind, readNode]
    cases (P.unmarshal b).bind SealedNode.ofJ <;> rfl

include L in
theorem readNode_rec (kw : GoString) (c : Nat) (n : Node) (k : BytesN 32) (nn : BytesN 12) (hn : n.nextCounter < 2 ^ 64) :
    readNode P i kw c (.ok (nodeRec P i kw c n k nn)) = .ok ⟨sanitize n.identifier, n.nextCounter⟩ := by
  simp only [readNode, nodeRec, L.unmarshal_render, Option.bind_some, SealedNode.ofJ_toJ, SealedNode.unseal]
  have := Cryptor.decrypt_box L (ixCryptor P i kw) Node.ofJ (J.ofBytes (some (ixLabel P i kw c))) n.toJ k nn
  rw [Node.ofJ_toJ n hn] at this
  exact this

theorem nodes_congr {st st' : Store} (h : ∀ x, st' x dtNode = st x dtNode) (kw : GoString) (c : Nat) :
    nodes P i st' kw c = nodes P i st kw c := by
  rw [nodes, nodes, h]

theorem nodes_set {K : List GoString} {N : Nat} (ha : Apart P i K N) {kw kw' : GoString} (hkw : kw ∈ K) (hkw' : kw' ∈ K) {c c' : Nat}
    (hc : c ≤ N) (hc' : c' ≤ N) (st : Store) (b : Option Bytes) : nodes P i (st.set (ixLabel P i kw c) dtNode b) kw' c' =
    if kw' = kw ∧ c' = c then b.map fun b => readNode P i kw c (.ok b) else nodes P i st kw' c' := by
  by_cases h : kw' = kw ∧ c' = c
  · rw [if_pos h]
    obtain ⟨rfl, rfl⟩ := h
    rw [nodes, Store.set_same]
  · rw [if_neg h, nodes, nodes, Store.set_other]
    intro hh
    exact h (ha kw' hkw' kw hkw c' hc' c hc hh.1)

/-- A path of nodes from one counter to another: counters with identifiers. -/
inductive Path (M : Nat → Option (Except Err Node)) : Nat → List (Nat × GoString) → Nat → Prop
  | nil (c : Nat) : Path M c [] c
  | cons {c c' e : Nat} {x : GoString} {l : List (Nat × GoString)} : M c = some (.ok ⟨x, c'⟩) → c < c' → Path M c' l e →
      Path M c ((c, x) :: l) e

variable {M M' : Nat → Option (Except Err Node)}

theorem path_nil {c e : Nat} : Path M c [] e ↔ c = e :=
  ⟨fun h => by cases h; rfl, fun h => h ▸ .nil c⟩

theorem path_cons {c e : Nat} {p : Nat × GoString} {l : List (Nat × GoString)} : Path M c (p :: l) e ↔
    ∃ c', p.1 = c ∧ M c = some (.ok ⟨p.2, c'⟩) ∧ c < c' ∧ Path M c' l e := by
  constructor
  · intro h
    cases h with
    | cons h1 h2 h3 => exact ⟨_, rfl, h1, h2, h3⟩
  · rintro ⟨c', h1, h2, h3, h4⟩
    obtain ⟨a, b⟩ := p
    simp only at h1 h2
    subst h1
    exact .cons h2 h3 h4

theorem Path.le {c e : Nat} {l : List (Nat × GoString)} (h : Path M c l e) : c ≤ e := by
  induction h with
  | nil => exact Nat.le_refl _
  | cons _ h _ ih => omega

theorem Path.mem {c e : Nat} {l : List (Nat × GoString)} (h : Path M c l e) : ∀ p ∈ l, c ≤ p.1 ∧ p.1 < e := by
  induction h with
  | nil => simp
  | cons _ h h' ih =>
    intro p hp
    have := h'.le
    rcases List.mem_cons.mp hp with rfl | hp
    · simp only; omega
    · have := ih p hp; omega

theorem Path.length_le {c e : Nat} {l : List (Nat × GoString)} (h : Path M c l e) : c + l.length ≤ e := by
  induction h with
  | nil => simp
  | cons _ h h' ih => simp only [List.length_cons]; omega

/-- Paths depend on their own nodes only. -/
theorem Path.congr {c e : Nat} {l : List (Nat × GoString)} (h : Path M c l e) (hm : ∀ x, c ≤ x → x < e → M' x = M x) :
    Path M' c l e := by
  induction h with
  | nil => exact .nil _
  | cons h1 h2 h3 ih =>
    have := h3.le
    exact .cons (by rw [hm _ (Nat.le_refl _) (by omega)]; exact h1) h2 (ih fun x hx1 hx2 => hm x (by omega) hx2)

/-- A node at the end makes the path longer. -/
theorem Path.snoc {c e : Nat} {l : List (Nat × GoString)} (h : Path M c l e) {x : GoString} {e' : Nat} (hx : M e = some (.ok ⟨x, e'⟩))
    (he : e < e') : Path M c (l ++ [(e, x)]) e' := by
  induction h with
  | nil => exact .cons hx he (.nil _)
  | cons h1 h2 h3 ih => exact .cons h1 h2 (ih hx he)

theorem Path.det {c e e' : Nat} {l l' : List (Nat × GoString)} (h : Path M c l e) (h' : Path M c l' e') (he : M e = none)
    (he' : M e' = none) : l = l' ∧ e = e' := by
  induction h generalizing l' e' with
  | nil =>
    cases h' with
    | nil => exact ⟨rfl, rfl⟩
    | cons h1 _ _ => rw [he] at h1; cases h1
  | cons h1 h2 h3 ih =>
    cases h' with
    | nil => rw [he'] at h1; cases h1
    | cons g1 g2 g3 =>
      rw [h1] at g1
      cases g1
      obtain ⟨rfl, rfl⟩ := ih g3 he he'
      exact ⟨rfl, rfl⟩

/-! ## Reading -/

include L in
theorem run_getNextNode (hf : NoFault env) (kw : GoString) (n : Node) (w : World) :
    (getNextNode P n (ixTagger P i kw) (ixCryptor P i kw)).run env w =
      ((match nodes P i w.store kw n.nextCounter with
        | none => .err .nodeNotFound
        | some (.error e) => .err e
        | some (.ok m) => .ok m), w.next w.store) := by
  rw [getNextNode_eq L, run_op, exec_none hf, nodes]
  simp only [Store.exec]
  cases w.store (ixLabel P i kw n.nextCounter) dtNode with
  | none => rfl
  | some b =>
    simp only [Option.map_some]
    cases readNode P i kw n.nextCounter (.ok b) <;> rfl

include L in
theorem run_getNextNode_none (hf : NoFault env) {kw : GoString} {n : Node} {w : World} (h : nodes P i w.store kw n.nextCounter = none) :
    (getNextNode P n (ixTagger P i kw) (ixCryptor P i kw)).run env w = (.err .nodeNotFound, w.next w.store) := by
  rw [run_getNextNode L hf, h]

include L in
theorem run_getNextNode_some (hf : NoFault env) {kw : GoString} {n m : Node} {w : World}
    (h : nodes P i w.store kw n.nextCounter = some (.ok m)) :
    (getNextNode P n (ixTagger P i kw) (ixCryptor P i kw)).run env w = (.ok m, w.next w.store) := by
  rw [run_getNextNode L hf, h]

include L in
/-- `getLastNode` walks to the end. -/
theorem run_getLastNodeLoop (hf : NoFault env) {kw : GoString} {st : Store} {c e : Nat} {l : List (Nat × GoString)}
    (h : Path (nodes P i st kw) c l e) (he : nodes P i st kw e = none) (fuel : Nat) (hfuel : l.length < fuel) (x : GoString) (t : Nat) :
    ∃ y, (getLastNodeLoop P (ixTagger P i kw) (ixCryptor P i kw) fuel ⟨x, c⟩).run env ⟨st, t⟩ =
      (.ok ⟨y, e⟩, ⟨st, t + (l.length + 1)⟩) := by
  induction h generalizing fuel x t with
  | nil c =>
    obtain ⟨f, rfl⟩ : ∃ f, fuel = f + 1 := ⟨fuel - 1, by simp at hfuel; omega⟩
    rw [getLastNodeLoop, run_attempt_err env (run_getNextNode_none L hf (n := ⟨x, c⟩) (w := ⟨st, t⟩) he)]
    exact ⟨x, rfl⟩
  | @cons c c' e y l h1 h2 h3 ih =>
    obtain ⟨f, rfl⟩ : ∃ f, fuel = f + 1 := ⟨fuel - 1, by simp at hfuel; omega⟩
    rw [getLastNodeLoop, run_attempt_ok env (run_getNextNode_some L hf (n := ⟨x, c⟩) (w := ⟨st, t⟩) h1)]
    simp only [List.length_cons] at hfuel ⊢
    obtain ⟨z, hz⟩ := ih he f (by omega) y (t + 1)
    exact ⟨z, by rw [hz]; congr 2; omega⟩

include L in
/-- `Search` collects the path. -/
theorem run_searchLoop (hf : NoFault env) {kw : GoString} {st : Store} {c e : Nat} {l : List (Nat × GoString)}
    (h : Path (nodes P i st kw) c l e) (he : nodes P i st kw e = none) (fuel : Nat) (hfuel : l.length < fuel) (x : GoString)
    (acc : List GoString) (t : Nat) :
    (searchLoop P (ixTagger P i kw) (ixCryptor P i kw) fuel ⟨x, c⟩ acc).run env ⟨st, t⟩ =
      (.ok (acc ++ l.map Prod.snd), ⟨st, t + (l.length + 1)⟩) := by
  induction h generalizing fuel x acc t with
  | nil c =>
    obtain ⟨f, rfl⟩ : ∃ f, fuel = f + 1 := ⟨fuel - 1, by simp at hfuel; omega⟩
    rw [searchLoop, run_attempt_err env (run_getNextNode_none L hf (n := ⟨x, c⟩) (w := ⟨st, t⟩) he)]
    simp [run_ret]
  | @cons c c' e y l h1 h2 h3 ih =>
    obtain ⟨f, rfl⟩ : ∃ f, fuel = f + 1 := ⟨fuel - 1, by simp at hfuel; omega⟩
    rw [searchLoop, run_attempt_ok env (run_getNextNode_some L hf (n := ⟨x, c⟩) (w := ⟨st, t⟩) h1)]
    simp only [List.length_cons] at hfuel ⊢
    rw [ih he f (by omega) y _ (t + 1)]
    simp only [List.append_assoc, List.map_cons, List.singleton_append]
    congr 2
    omega

/-! ## Writing -/

/-- The sealed form of a node under a drawn key and nonce. -/
def sealedNode (P : Prims) (i : SecureIndex) (kw : GoString) (c : Nat) (n : Node) (k : BytesN 32) (nn : BytesN 12) : SealedNode :=
  ⟨some (gcmBox P k.1 nn.1 (J.ofBytes (some (ixLabel P i kw c))).render n.toJ.render), some (kwpBox P (ixCryptor P i kw).kwp k.1)⟩

include L in
theorem node_seal_eq (kw : GoString) (c : Nat) (n : Node) : n.seal P (ixLabel P i kw c) (ixCryptor P i kw) =
    (randBytes 32).bind fun k => (randBytes 12).bind fun nn => .ret (sealedNode P i kw c n k nn) := by
  simp only [Node.seal, bind_eq, pure_eq, Cryptor.encrypt_eq L, bind_assoc, ret_bind]
  rfl

include L in
theorem run_node_seal (hr : RandOk env) (kw : GoString) (c : Nat) (n : Node) (w : World) :
    (n.seal P (ixLabel P i kw c) (ixCryptor P i kw)).run env w =
      (.ok (sealedNode P i kw c n (drawn env w.t 32) (drawn env (w.t + 1) 12)), ⟨w.store, w.t + 2⟩) := by
  rw [node_seal_eq L, run_bind_ok env (run_randBytes hr w 32), run_bind_ok env (run_randBytes hr _ 12)]
  rfl

/-- The label is in use exactly when there is a node. -/
theorem nodes_none {st : Store} {kw : GoString} {c : Nat} : nodes P i st kw c = none ↔ st (ixLabel P i kw c) dtNode = none := by
  rw [nodes, Option.map_eq_none_iff]

theorem nodes_some {st : Store} {kw : GoString} {c : Nat} {x : Except Err Node} (h : nodes P i st kw c = some x) :
    ∃ b, st (ixLabel P i kw c) dtNode = some b := by
  rw [nodes, Option.map_eq_some_iff] at h
  obtain ⟨b, h, _⟩ := h
  exact ⟨b, h⟩

/-- Nodes of other keywords are as before. -/
def SameElse (P : Prims) (i : SecureIndex) (K : List GoString) (N : Nat) (kw : GoString) (st st' : Store) : Prop :=
  ∀ kw' ∈ K, kw' ≠ kw → ∀ c ≤ N, nodes P i st' kw' c = nodes P i st kw' c

theorem SameElse.refl (K : List GoString) (N : Nat) (kw : GoString) (st : Store) : SameElse P i K N kw st st := fun _ _ _ _ _ => rfl

theorem SameElse.trans {K : List GoString} {N : Nat} {kw : GoString} {a b c : Store} (h : SameElse P i K N kw a b)
    (h' : SameElse P i K N kw b c) : SameElse P i K N kw a c := fun x h1 h2 y h3 => (h' x h1 h2 y h3).trans (h x h1 h2 y h3)

theorem SameElse.set {K : List GoString} {N : Nat} (ha : Apart P i K N) {kw : GoString} (hkw : kw ∈ K) {c : Nat} (hc : c ≤ N)
    (st : Store) (b : Option Bytes) : SameElse P i K N kw st (st.set (ixLabel P i kw c) dtNode b) := by
  intro kw' h1 h2 c' h3
  rw [nodes_set ha hkw h1 hc h3, if_neg (fun h => h2 h.1)]

/-- What `Add` does once it has its keys. -/
def addBody (P : Prims) (i : SecureIndex) (fuel : Nat) (kw id : GoString) : Prog Unit :=
  (getLastNode P fuel (ixTagger P i kw) (ixCryptor P i kw)).bind fun last =>
  ((⟨id, (last.nextCounter + 1) % 2 ^ 64⟩ : Node).seal P (ixLabel P i kw last.nextCounter) (ixCryptor P i kw)).bind fun sn =>
  ioPut (onAlreadyExists .nodeAlreadyExists) (ixLabel P i kw last.nextCounter) dtNode sn.toJ.render

include L hk in
theorem add_eq (fuel : Nat) (token kw id : GoString) : i.add P fuel token kw id = (i.verifyAccess token).bind fun _ => addBody P i fuel kw id := by
  simp only [SecureIndex.add, bind_eq, gtc_eq L hk, ret_bind, nextLabel_eq L, ofPanic_some]
  rfl

include L hk in
theorem search_eq (fuel : Nat) (token kw : GoString) : i.search P fuel token kw =
    (i.verifyAccess token).bind fun _ => searchLoop P (ixTagger P i kw) (ixCryptor P i kw) fuel zeroNode [] := by
  simp only [SecureIndex.search, bind_eq, gtc_eq L hk, ret_bind]

include L hk in
theorem delete_eq (fuel : Nat) (token kw id : GoString) : i.delete P fuel token kw id =
    (i.verifyAccess token).bind fun _ => deleteLoop P (ixTagger P i kw) (ixCryptor P i kw) id fuel zeroNode := by
  simp only [SecureIndex.delete, bind_eq, gtc_eq L hk, ret_bind]

include L in
theorem run_addBody (hf : NoFault env) (hr : RandOk env) {kw : GoString} {w : World} {e : Nat} {l : List (Nat × GoString)}
    (h : Path (nodes P i w.store kw) 0 l e) (he : nodes P i w.store kw e = none) {fuel : Nat} (hfuel : l.length < fuel) (id : GoString) :
    ∃ k nn t, (addBody P i fuel kw id).run env w =
      (.ok (), ⟨w.store.set (ixLabel P i kw e) dtNode (some (nodeRec P i kw e ⟨id, (e + 1) % 2 ^ 64⟩ k nn)), t⟩) := by
  obtain ⟨y, hy⟩ := run_getLastNodeLoop L hf h he fuel hfuel [] w.t
  rw [addBody, getLastNode, run_bind_ok env (show (getLastNodeLoop P (ixTagger P i kw) (ixCryptor P i kw) fuel zeroNode).run env w = _ from hy)]
  rw [run_bind_ok env (run_node_seal L hr kw e _ _)]
  exact ⟨_, _, _, run_ioPut_none hf _ _ _ _ _ (nodes_none.mp he)⟩

/-- Adding a node at the end. -/
theorem path_add (L : P.Laws) {K : List GoString} {N : Nat} (ha : Apart P i K N) {kw : GoString} (hkw : kw ∈ K) {st : Store} {e : Nat}
    {l : List (Nat × GoString)} (h : Path (nodes P i st kw) 0 l e) (he : e < N) (hN : N < 2 ^ 64) (id : GoString) (k : BytesN 32)
    (nn : BytesN 12) : Path (nodes P i (st.set (ixLabel P i kw e) dtNode (some (nodeRec P i kw e ⟨id, (e + 1) % 2 ^ 64⟩ k nn))) kw) 0
      (l ++ [(e, sanitize id)]) (e + 1) := by
  refine Path.snoc (Path.congr h fun x _ hx => ?_) ?_ (Nat.lt_succ_self e)
  · rw [nodes_set ha hkw hkw (by omega) (by omega), if_neg (by omega)]
  · rw [nodes_set ha hkw hkw (by omega) (by omega), if_pos ⟨rfl, rfl⟩, Option.map_some, readNode_rec L]
    · simp only [Nat.mod_eq_of_lt (show e + 1 < 2 ^ 64 by omega)]
    · simp only; omega

include L in
/-- `deleteNode` on the last node. -/
theorem run_deleteNode_last (hf : NoFault env) {kw : GoString} {w : World} {c : Nat} {n : Node}
    (he : nodes P i w.store kw n.nextCounter = none) : ∃ t,
    (deleteNode P (ixLabel P i kw c) n (ixTagger P i kw) (ixCryptor P i kw)).run env w =
      (.ok (), ⟨w.store.set (ixLabel P i kw c) dtNode none, t⟩) := by
  rw [deleteNode, run_attempt_err env (run_getNextNode_none L hf he)]
  exact ⟨_, run_ioDelete hf _ _ _ _⟩

include L in
/-- `deleteNode` on another node. -/
theorem run_deleteNode_mid (hf : NoFault env) (hr : RandOk env) {kw : GoString} {w : World} {c : Nat} {n m : Node}
    (hc : ∃ x, nodes P i w.store kw c = some x) (hm : nodes P i w.store kw n.nextCounter = some (.ok m)) : ∃ k nn t,
    (deleteNode P (ixLabel P i kw c) n (ixTagger P i kw) (ixCryptor P i kw)).run env w =
      (.ok (), ⟨(w.store.set (ixLabel P i kw c) dtNode (some (nodeRec P i kw c m k nn))).set (ixLabel P i kw n.nextCounter) dtNode none, t⟩) := by
  obtain ⟨x, hx⟩ := hc
  obtain ⟨b, hb⟩ := nodes_some hx
  rw [deleteNode, run_attempt_ok env (run_getNextNode_some L hf hm)]
  simp only [bind_eq, nextLabel_eq L, ofPanic_some, ret_bind]
  rw [run_bind_ok env (run_node_seal L hr kw c m _)]
  have h1 : (putSealedNode (ixLabel P i kw c) (sealedNode P i kw c m (drawn env (w.t + 1) 32) (drawn env (w.t + 1 + 1) 12)) true).run env
      ⟨w.store, w.t + 1 + 2⟩ = _ := run_ioUpdate_some hf (onNotFound .nodeNotFound) _ _ _ _ b hb
  rw [run_bind_ok env h1]
  exact ⟨_, _, _, run_ioDelete hf _ _ _ _⟩

include L in
/-- `Delete` from a given node on. -/
theorem run_deleteLoop (hf : NoFault env) (hr : RandOk env) {K : List GoString} {N : Nat} (hN : N < 2 ^ 64) (ha : Apart P i K N) {kw : GoString}
    (hkw : kw ∈ K) (id : GoString) (fuel : Nat) {st : Store} {c e : Nat} {l : List (Nat × GoString)} (h : Path (nodes P i st kw) c l e)
    (he : e ≤ N) (hfuel : l.length < fuel) (hx : ∀ c' ≤ N, c ≤ c' → c' ∉ l.map Prod.fst → nodes P i st kw c' = none)
    (hs : ∀ p ∈ l, sanitize p.2 = p.2) (x : GoString) (t : Nat) :
    ∃ st' t' l' e', (deleteLoop P (ixTagger P i kw) (ixCryptor P i kw) id fuel ⟨x, c⟩).run env ⟨st, t⟩ = (.ok (), ⟨st', t'⟩) ∧
      Path (nodes P i st' kw) c l' e' ∧ l'.map Prod.snd = (l.map Prod.snd).filter (· ≠ id) ∧ e' ≤ e ∧
      (∀ c' ≤ N, c ≤ c' → c' ∉ l'.map Prod.fst → nodes P i st' kw c' = none) ∧ (∀ c' < c, nodes P i st' kw c' = nodes P i st kw c') ∧
      SameElse P i K N kw st st' := by
  induction fuel generalizing st c e l x t with
  | zero => omega
  | succ fuel ih =>
    cases l with
    | nil =>
      obtain rfl := path_nil.mp h
      refine ⟨st, t + 1, [], c, ?_, .nil c, rfl, Nat.le_refl _, hx, fun _ _ => rfl, .refl _ _ _ _⟩
      rw [deleteLoop, run_attempt_err env (run_getNextNode_none L hf (n := ⟨x, c⟩) (w := ⟨st, t⟩) (hx c he (Nat.le_refl _) (by simp)))]
      rfl
    | cons p l =>
      obtain ⟨c1, hp, h1, h2, h3⟩ := path_cons.mp h
      obtain ⟨p1, y⟩ := p
      simp only at hp h1
      subst p1
      have hle := h3.le
      have hmem := h3.mem
      rw [deleteLoop, run_attempt_ok env (run_getNextNode_some L hf (n := ⟨x, c⟩) (w := ⟨st, t⟩) h1)]
      simp only [List.length_cons] at hfuel
      by_cases hy : y = id
      · -- delete this node, go on from the same counter
        simp only [hy, if_true, bind_eq, nextLabel_eq L, ofPanic_some, ret_bind]
        subst hy
        cases l with
        | nil =>
          obtain rfl := path_nil.mp h3
          have hnone : nodes P i st kw c1 = none := hx c1 he (by omega) (by simp only [List.map_cons, List.map_nil, List.mem_singleton]; omega)
          obtain ⟨t1, ht1⟩ := run_deleteNode_last L hf (w := ⟨st, t + 1⟩) (c := c) (n := ⟨y, c1⟩) hnone
          obtain ⟨st', t', l', e', g1, g2, g3, g4, g5, g6, g7⟩ := ih (st := st.set (ixLabel P i kw c) dtNode none) (c := c) (l := []) (e := c)
            (.nil c) (by omega) (by simp only [List.length_nil]; omega) (fun c' hc' hcc' _ => by
              rw [nodes_set ha hkw hkw (by omega) hc']
              split
              · rfl
              · rename_i hne
                refine hx c' hc' hcc' ?_
                simp only [List.map_cons, List.map_nil, List.mem_singleton]
                exact fun h => hne ⟨rfl, h⟩) (by simp) x t1
          refine ⟨st', t', l', e', ?_, g2, ?_, by omega, g5, fun c' hc' => ?_, (SameElse.set ha hkw (by omega) _ _).trans g7⟩
          · rw [run_bind_ok env ht1]; exact g1
          · rw [g3]; simp
          · rw [g6 c' hc', nodes_set ha hkw hkw (by omega) (by omega), if_neg (by omega)]
        | cons p l =>
          obtain ⟨c2, hp, h4, h5, h6⟩ := path_cons.mp h3
          obtain ⟨p1, z⟩ := p
          simp only at hp h4
          subst p1
          have hle6 := h6.le
          have hmem6 := h6.mem
          obtain ⟨k, nn, t1, ht1⟩ := run_deleteNode_mid L hf hr (w := ⟨st, t + 1⟩) (c := c) (n := ⟨y, c1⟩) ⟨_, h1⟩ h4
          simp only at ht1
          have hnodes : ∀ c' ≤ N, nodes P i ((st.set (ixLabel P i kw c) dtNode (some (nodeRec P i kw c ⟨z, c2⟩ k nn))).set
              (ixLabel P i kw c1) dtNode none) kw c' = if c' = c1 then none else if c' = c then some (.ok ⟨z, c2⟩) else nodes P i st kw c' := by
            intro c' hc'
            rw [nodes_set ha hkw hkw (by omega) hc', nodes_set ha hkw hkw (by omega) hc', Option.map_some, readNode_rec L _ _ _ _ _ (by simp only; omega)]
            simp only [true_and, Option.map_none, hs (c1, z) (by simp)]
          have hse := (SameElse.set ha hkw (show c ≤ N by omega) st (some (nodeRec P i kw c ⟨z, c2⟩ k nn))).trans
            (SameElse.set ha hkw (show c1 ≤ N by omega) _ none)
          generalize (st.set (ixLabel P i kw c) dtNode (some (nodeRec P i kw c ⟨z, c2⟩ k nn))).set (ixLabel P i kw c1) dtNode none = st1
            at ht1 hnodes hse
          obtain ⟨st', t', l', e', g1, g2, g3, g4, g5, g6, g7⟩ := ih (st := st1) (c := c) (l := (c, z) :: l) (e := e)
            (.cons (by rw [hnodes c (by omega), if_neg (by omega), if_pos rfl]) (by omega) (h6.congr fun c' hc' hc'' => by
              rw [hnodes c' (by omega), if_neg (by omega), if_neg (by omega)])) he (by simp only [List.length_cons] at hfuel ⊢; omega)
            (fun c' hc' hcc' hn => by
              simp only [List.map_cons, List.mem_cons, not_or] at hn
              rw [hnodes c' hc', if_neg hn.1]
              by_cases hc1 : c' = c1
              · rw [if_pos hc1]
              · rw [if_neg hc1]
                refine hx c' hc' hcc' ?_
                simp only [List.map_cons, List.mem_cons, not_or]
                exact ⟨hn.1, hc1, hn.2⟩) (fun p hp => by
              rcases List.mem_cons.mp hp with rfl | hp
              · exact hs (c1, z) (by simp)
              · exact hs p (by simp [hp])) x t1
          refine ⟨st', t', l', e', ?_, g2, ?_, by omega, g5, fun c' hc' => ?_, hse.trans g7⟩
          · rw [run_bind_ok env ht1]; exact g1
          · rw [g3]; simp
          · rw [g6 c' hc', hnodes c' (by omega), if_neg (by omega), if_neg (by omega)]
      · -- keep this node
        simp only [hy, if_false]
        obtain ⟨st', t', l', e', g1, g2, g3, g4, g5, g6, g7⟩ := ih (st := st) h3 he (by omega) (fun c' hc' hcc' hn => hx c' hc' (by omega) (by
          simp only [List.map_cons, List.mem_cons, not_or]
          exact ⟨by omega, hn⟩)) (fun p hp => hs p (by simp [hp])) y (t + 1)
        refine ⟨st', t', (c, y) :: l', e', g1, .cons (by rw [g6 c h2]; exact h1) h2 g2, ?_, g4, ?_, fun c' hc' => g6 c' (by omega), g7⟩
        · simp only [List.map_cons, g3, List.filter_cons, ne_eq, hy, not_false_eq_true, decide_true, if_true]
        · intro c' hc' hcc' hn
          simp only [List.map_cons, List.mem_cons, not_or] at hn
          by_cases hlt : c' < c1
          · rw [g6 c' hlt]
            refine hx c' hc' hcc' ?_
            simp only [List.map_cons, List.mem_cons, not_or, List.mem_map, not_exists, not_and]
            exact ⟨hn.1, fun p hp hpc => by have := hmem p hp; omega⟩
          · exact g5 c' hc' (by omega) hn.2

end
end D1
