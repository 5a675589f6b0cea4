import Verif.Props.Errors
import Verif.Props.Index
/-!
# C119: every error of the secure index names its cause
-/
namespace D1
open Spec Prog

/-! ## Specification -/

/-- The bytes are a node that the cryptor of the keyword accepts as bound to the label with this counter. -/
def NodeIs (P : Prims) (i : SecureIndex) (kw : GoString) (k : Nat) (bytes : Bytes) (n : Node) : Prop :=
  ∃ sn, (P.unmarshal bytes).bind SealedNode.ofJ = some sn ∧
    (ixCryptor P i kw).decrypt P Node.ofJ (J.ofBytes (some (ixLabel P i kw k))) sn.wrappedKey.bytes sn.ciphertext.bytes = .ok n

/-- A node of the keyword was read last, and it is not genuine. -/
def NodeSpoiled (P : Prims) (i : SecureIndex) (kw : GoString) (tr : List Event) : Prop :=
  ∃ k bytes, LastIs tr ⟨.get (ixLabel P i kw k) dtNode, (.ok bytes : Except IoErr Bytes)⟩ ∧ ∀ n, ¬ NodeIs P i kw k bytes n

def IxCall.isAdd : IxCall → Bool
  | .add .. => true
  | _ => false

def IxCall.isDelete : IxCall → Bool
  | .delete .. => true
  | _ => false

/-- What an error of a call on the index means, given what happened during the call. -/
def IxCause (P : Prims) (i : SecureIndex) (c : IxCall) (tr : List Event) : Err → Prop
  | .ixNotAuthenticated => ∃ e, Yields (i.idProvider c.token) tr (.err e)
  | .ixNotAuthorized => ∃ who, Yields (i.idProvider c.token) tr (.ok who) ∧ scopeIn scopeIndex who.scopes = false
  | .nodeNotFound => IxCall.isDelete c ∧ ∃ k data, LastIs tr ⟨.update (ixLabel P i c.keyword k) dtNode data, (.error .notFound : Except IoErr Unit)⟩
  | .nodeAlreadyExists => IxCall.isAdd c ∧ ∃ k data, LastIs tr ⟨.put (ixLabel P i c.keyword k) dtNode data, (.error .alreadyExists : Except IoErr Unit)⟩
  | .rand => (IxCall.isAdd c ∨ IxCall.isDelete c) ∧ ∃ n, LastIs tr ⟨.rand n, (none : Option (BytesN n))⟩
  | .io e => ∃ k, (e ≠ .notFound ∧ LastIs tr ⟨.get (ixLabel P i c.keyword k) dtNode, (.error e : Except IoErr Bytes)⟩) ∨
      (IxCall.isAdd c ∧ e ≠ .alreadyExists ∧ ∃ data, LastIs tr ⟨.put (ixLabel P i c.keyword k) dtNode data, (.error e : Except IoErr Unit)⟩) ∨
      (IxCall.isDelete c ∧ e ≠ .notFound ∧ ∃ data, LastIs tr ⟨.update (ixLabel P i c.keyword k) dtNode data, (.error e : Except IoErr Unit)⟩) ∨
      (IxCall.isDelete c ∧ LastIs tr ⟨.delete (ixLabel P i c.keyword k) dtNode, (.error e : Except IoErr Unit)⟩)
  | .json => NodeSpoiled P i c.keyword tr
  | .kwp => NodeSpoiled P i c.keyword tr
  | .aead => NodeSpoiled P i c.keyword tr
  | _ => False

/-- What a call on the index reports when this was the last thing that happened.  That a node is missing is no failure. -/
def IxReports : Event → Err → Prop
  | ⟨.get _ dt, r⟩, e => ∃ x : IoErr, r = .error x ∧ dt = dtNode ∧ x ≠ .notFound ∧ e = .io x
  | ⟨.update _ dt _, r⟩, e => ∃ x : IoErr, r = .error x ∧ dt = dtNode ∧ e = if x = .notFound then .nodeNotFound else .io x
  | ⟨.put _ dt _, r⟩, e => ∃ x : IoErr, r = .error x ∧ dt = dtNode ∧ e = if x = .alreadyExists then .nodeAlreadyExists else .io x
  | ⟨.delete _ dt, r⟩, e => ∃ x : IoErr, r = .error x ∧ dt = dtNode ∧ e = .io x
  | ⟨.rand _, r⟩, e => r = none ∧ e = .rand
  | _, _ => False

/-- The Identity Provider does not use the nodes of the index and draws no random bytes. -/
def IxAloof (i : SecureIndex) : Prop := ∀ t, AllEff (fun e => e.dataType ≠ some dtNode ∧ ∀ n, e ≠ .rand n) (i.idProvider t)

/-! ## Proofs -/

section
variable {P : Prims} {i : SecureIndex}

theorem nodeSeal_err (L : P.Laws) {n : Node} {l : Bytes} {c : Cryptor} {tr : List Event} {e : Err}
    (h : Yields (n.seal P l c) tr (.err e)) : e = .rand ∧ ∃ n, LastIs tr ⟨.rand n, (none : Option (BytesN n))⟩ := by
  rw [Node.seal, Prog.bind_eq] at h
  rcases yields_bind_err.mp h with h | ⟨_, _, _, _, _, h⟩
  · exact seal_err L h
  · cases h

/-- Reading the next node. -/
theorem ixCause_next (L : P.Laws) {c : IxCall} {n : Node} {tr : List Event} {e : Err}
    (h : Yields (getNextNode P n (ixTagger P i c.keyword) (ixCryptor P i c.keyword)) tr (.err e)) (he : e ≠ .nodeNotFound)
    (tr0 : List Event) : IxCause P i c (tr0 ++ tr) e := by
  rw [getNextNode_eq L, yields_op] at h
  obtain ⟨r, tr', rfl, h⟩ := h
  cases hr : readNode P i c.keyword n.nextCounter r with
  | ok m => rw [hr] at h; cases h
  | error e' =>
    rw [hr] at h
    obtain ⟨rfl, hh⟩ := yields_err.mp h
    cases hh
    cases r with
    | error x =>
      have hx : x ≠ .notFound := by rintro rfl; cases hr; exact he rfl
      have : onNotFound .nodeNotFound x = .io x := by cases x <;> first | rfl | exact absurd rfl hx
      rw [readNode, this] at hr
      cases hr
      exact ⟨_, .inl ⟨hx, (lastIs_one _).after _⟩⟩
    | ok b =>
      have hsp (hno : ∀ m, ¬ NodeIs P i c.keyword n.nextCounter b m) : NodeSpoiled P i c.keyword
          (tr0 ++ [⟨.get (ixLabel P i c.keyword n.nextCounter) dtNode, (.ok b : Except IoErr Bytes)⟩]) :=
        ⟨_, b, (lastIs_one _).after _, hno⟩
      rw [readNode] at hr
      cases hu : (P.unmarshal b).bind SealedNode.ofJ with
      | none =>
        rw [hu] at hr
        cases hr
        refine hsp ?_
        rintro m ⟨sn, hsn, _⟩
        rw [hu] at hsn
        cases hsn
      | some sn =>
        rw [hu] at hr
        have := hsp (by
          rintro m ⟨sn', hsn, hd⟩
          rw [hu] at hsn
          cases hsn
          have hr : SealedNode.unseal P sn (ixLabel P i c.keyword n.nextCounter) (ixCryptor P i c.keyword) = .error e := hr
          rw [SealedNode.unseal, hd] at hr
          cases hr)
        rcases decrypt_err hr with rfl | rfl | rfl <;> exact this

/-- Removing a node. -/
theorem ixCause_deleteNode (L : P.Laws) {c : IxCall} (hc : IxCall.isDelete c) {k : Nat} {n : Node} {tr : List Event} {e : Err}
    (h : Yields (deleteNode P (ixLabel P i c.keyword k) n (ixTagger P i c.keyword) (ixCryptor P i c.keyword)) tr (.err e))
    (tr0 : List Event) : IxCause P i c (tr0 ++ tr) e := by
  have hdel {k : Nat} {tr tr0 : List Event} (h : Yields (deleteSealedNode (ixLabel P i c.keyword k)) tr (.err e)) :
      IxCause P i c (tr0 ++ tr) e := by
    obtain ⟨x, rfl, rfl⟩ := yields_ioDelete_err h
    exact ⟨k, .inr (.inr (.inr ⟨hc, (lastIs_one _).after _⟩))⟩
  rw [deleteNode] at h
  rcases yields_attempt.mp h with ⟨t1, t2, m, rfl, h3, h4⟩ | ⟨t1, t2, e', rfl, h3, h4⟩ | ⟨h3, hh⟩ | ⟨h3, hh⟩
  · simp only [Prog.bind_eq] at h4
    rcases yields_bind_err.mp h4 with h4 | ⟨t5, t6, sn, rfl, _, h4⟩
    · obtain ⟨rfl, x, hx⟩ := nodeSeal_err L h4
      exact ⟨.inr hc, x, (hx.after _).after _⟩
    rcases yields_bind_err.mp h4 with h4 | ⟨t7, t8, _, rfl, _, h4⟩
    · obtain ⟨x, rfl, rfl⟩ := yields_ioUpdate_err h4
      by_cases hx : x = .notFound
      · subst hx
        exact ⟨hc, k, _, (((lastIs_one _).after _).after _).after _⟩
      · have : onNotFound .nodeNotFound x = .io x := by cases x <;> first | rfl | exact absurd rfl hx
        rw [this]
        exact ⟨k, .inr (.inr (.inl ⟨hc, hx, _, (((lastIs_one _).after _).after _).after _⟩))⟩
    rw [nextLabel_eq L, Prog.ofPanic_some, Prog.ret_bind] at h4
    simp only [← List.append_assoc]
    exact hdel h4
  · by_cases he : e' = .nodeNotFound
    · subst he
      rw [← List.append_assoc]
      exact hdel h4
    · have h5 : Yields (.err e' : Prog Unit) t2 (.err e) := by
        revert h4; cases e' <;> first | exact fun h => h | exact absurd rfl he
      obtain ⟨rfl, hh⟩ := yields_err.mp h5
      cases hh
      rw [List.append_nil]
      exact ixCause_next L h3 he tr0
  · cases hh
  · cases hh

theorem ixCause_last (L : P.Laws) {c : IxCall} (fuel : Nat) (n : Node) {tr : List Event} {e : Err}
    (h : Yields (getLastNodeLoop P (ixTagger P i c.keyword) (ixCryptor P i c.keyword) fuel n) tr (.err e)) (tr0 : List Event) :
    IxCause P i c (tr0 ++ tr) e := by
  induction fuel generalizing n tr tr0 with
  | zero => cases h
  | succ fuel ih =>
    rw [getLastNodeLoop] at h
    rcases yields_attempt.mp h with ⟨t1, t2, m, rfl, h3, h4⟩ | ⟨t1, t2, e', rfl, h3, h4⟩ | ⟨h3, hh⟩ | ⟨h3, hh⟩
    · rw [← List.append_assoc]
      exact ih m h4 _
    · by_cases he : e' = .nodeNotFound
      · subst he; cases h4
      · have h5 : Yields (.err e' : Prog Node) t2 (.err e) := by
          revert h4; cases e' <;> first | exact fun h => h | exact absurd rfl he
        obtain ⟨rfl, hh⟩ := yields_err.mp h5
        cases hh
        rw [List.append_nil]
        exact ixCause_next L h3 he tr0
    · cases hh
    · cases hh

theorem ixCause_search (L : P.Laws) {c : IxCall} (fuel : Nat) (n : Node) (l : List GoString) {tr : List Event} {e : Err}
    (h : Yields (searchLoop P (ixTagger P i c.keyword) (ixCryptor P i c.keyword) fuel n l) tr (.err e)) (tr0 : List Event) :
    IxCause P i c (tr0 ++ tr) e := by
  induction fuel generalizing n l tr tr0 with
  | zero => cases h
  | succ fuel ih =>
    rw [searchLoop] at h
    rcases yields_attempt.mp h with ⟨t1, t2, m, rfl, h3, h4⟩ | ⟨t1, t2, e', rfl, h3, h4⟩ | ⟨h3, hh⟩ | ⟨h3, hh⟩
    · rw [← List.append_assoc]
      exact ih m _ h4 _
    · by_cases he : e' = .nodeNotFound
      · subst he; cases h4
      · have h5 : Yields (.err e' : Prog (List GoString)) t2 (.err e) := by
          revert h4; cases e' <;> first | exact fun h => h | exact absurd rfl he
        obtain ⟨rfl, hh⟩ := yields_err.mp h5
        cases hh
        rw [List.append_nil]
        exact ixCause_next L h3 he tr0
    · cases hh
    · cases hh

theorem ixCause_delete (L : P.Laws) {c : IxCall} (hc : IxCall.isDelete c) (id : GoString) (fuel : Nat) (n : Node) {tr : List Event} {e : Err}
    (h : Yields (deleteLoop P (ixTagger P i c.keyword) (ixCryptor P i c.keyword) id fuel n) tr (.err e)) (tr0 : List Event) :
    IxCause P i c (tr0 ++ tr) e := by
  induction fuel generalizing n tr tr0 with
  | zero => cases h
  | succ fuel ih =>
    rw [deleteLoop] at h
    rcases yields_attempt.mp h with ⟨t1, t2, m, rfl, h3, h4⟩ | ⟨t1, t2, e', rfl, h3, h4⟩ | ⟨h3, hh⟩ | ⟨h3, hh⟩
    · rw [← List.append_assoc]
      simp only at h4
      split at h4
      · rw [nextLabel_eq L, Prog.bind_eq, Prog.ofPanic_some, Prog.ret_bind, Prog.bind_eq] at h4
        rcases yields_bind_err.mp h4 with h4 | ⟨t5, t6, _, rfl, _, h4⟩
        · exact ixCause_deleteNode L hc h4 _
        · rw [← List.append_assoc]; exact ih n h4 _
      · exact ih m h4 _
    · by_cases he : e' = .nodeNotFound
      · subst he; cases h4
      · have h5 : Yields (.err e' : Prog Unit) t2 (.err e) := by
          revert h4; cases e' <;> first | exact fun h => h | exact absurd rfl he
        obtain ⟨rfl, hh⟩ := yields_err.mp h5
        cases hh
        rw [List.append_nil]
        exact ixCause_next L h3 he tr0
    · cases hh
    · cases hh

theorem ixCause_verify {c : IxCall} {tr : List Event} {e : Err} (h : Yields (i.verifyAccess c.token) tr (.err e)) : IxCause P i c tr e := by
  rw [SecureIndex.verifyAccess] at h
  rcases yields_attempt.mp h with ⟨t1, t2, w, rfl, h2, h3⟩ | ⟨t1, t2, e', rfl, h2, h3⟩ | ⟨_, h3⟩ | ⟨_, h3⟩
  · simp only at h3
    split at h3
    · rename_i hs
      obtain ⟨rfl, h3⟩ := yields_err.mp h3
      cases h3
      refine ⟨w, by simpa using h2, ?_⟩
      rw [scopeIn_eq]; simpa using hs
    · cases h3
  · obtain ⟨rfl, h3⟩ := yields_err.mp h3
    cases h3
    exact ⟨e', by simpa using h2⟩
  · cases h3
  · cases h3

/-- C119: whatever the providers and the random source answer, an error of a call on the secure index says what happened. -/
theorem C119_causes (L : P.Laws) (hk : i.indexKey.length = 32) (fuel : Nat) (c : IxCall) {tr : List Event} {e : Err}
    (h : Yields (ixProg P i fuel c) tr (.err e)) : IxCause P i c tr e := by
  cases c with
  | add t kw id =>
    have h := yields_view_err h
    simp only [SecureIndex.add, Prog.bind_eq, gtc_eq L hk, Prog.ret_bind, nextLabel_eq L, Prog.ofPanic_some] at h
    rcases yields_bind_err.mp h with h | ⟨t1, t2, _, rfl, _, h⟩
    · exact ixCause_verify (c := .add t kw id) h
    rcases yields_bind_err.mp h with h | ⟨t3, t4, last, rfl, _, h⟩
    · exact ixCause_last L (c := .add t kw id) fuel zeroNode h _
    rcases yields_bind_err.mp h with h | ⟨t5, t6, sn, rfl, _, h⟩
    · obtain ⟨rfl, x, hx⟩ := nodeSeal_err L h
      exact ⟨.inl rfl, x, (hx.after _).after _⟩
    · obtain ⟨x, rfl, rfl⟩ := yields_ioPut_err h
      by_cases hx : x = .alreadyExists
      · subst hx
        exact ⟨rfl, _, _, (((lastIs_one _).after _).after _).after _⟩
      · have : onAlreadyExists .nodeAlreadyExists x = .io x := by cases x <;> first | rfl | exact absurd rfl hx
        rw [this]
        exact ⟨_, .inr (.inl ⟨rfl, hx, _, (((lastIs_one _).after _).after _).after _⟩)⟩
  | search t kw =>
    have h := yields_view_err h
    simp only [SecureIndex.search, Prog.bind_eq, gtc_eq L hk, Prog.ret_bind] at h
    rcases yields_bind_err.mp h with h | ⟨t1, t2, _, rfl, _, h⟩
    · exact ixCause_verify (c := .search t kw) h
    · exact ixCause_search L (c := .search t kw) fuel zeroNode [] h _
  | delete t kw id =>
    have h := yields_view_err h
    simp only [SecureIndex.delete, Prog.bind_eq, gtc_eq L hk, Prog.ret_bind] at h
    rcases yields_bind_err.mp h with h | ⟨t1, t2, _, rfl, _, h⟩
    · exact ixCause_verify (c := .delete t kw id) h
    · exact ixCause_delete L (c := .delete t kw id) rfl id fuel zeroNode h _

theorem IxReports.kind {ev : Event} {e : Err} (h : IxReports ev e) : ¬ (ev.1.dataType ≠ some dtNode ∧ ∀ n, ev.1 ≠ .rand n) := by
  obtain ⟨f, r⟩ := ev
  rintro ⟨h1, h3⟩
  cases f with
  | get id dt => obtain ⟨x, _, rfl, _⟩ := h; exact h1 rfl
  | put id dt b => obtain ⟨x, _, rfl, _⟩ := h; exact h1 rfl
  | update id dt b => obtain ⟨x, _, rfl, _⟩ := h; exact h1 rfl
  | delete id dt => obtain ⟨x, _, rfl, _⟩ := h; exact h1 rfl
  | rand n => exact h3 n rfl
  | now => exact h

/-- C119, the other way round: when a call fails and the last thing that happened is a failed request or a failed draw, the error is the one that
belongs to it. -/
theorem C119_exact (L : P.Laws) (hk : i.indexKey.length = 32) (hi : IxAloof i) (fuel : Nat) (c : IxCall) {tr : List Event} {e e' : Err} {ev : Event}
    (h : Yields (ixProg P i fuel c) tr (.err e)) (hl : LastIs tr ev) (hr : IxReports ev e') : e = e' := by
  have hc := C119_causes L hk fuel c h
  have hidp {o : Outcome Identity} (hy : Yields (i.idProvider c.token) tr o) : False :=
    hr.kind ((hi c.token).yields hy ev hl.mem)
  have hsp (h' : NodeSpoiled P i c.keyword tr) : False := by
    obtain ⟨k, b, h', _⟩ := h'
    obtain rfl := hl.unique h'
    obtain ⟨x, hx, _⟩ := hr
    cases hx
  cases e with
  | ixNotAuthenticated => obtain ⟨x, hx⟩ := hc; exact (hidp hx).elim
  | ixNotAuthorized => obtain ⟨x, hx, _⟩ := hc; exact (hidp hx).elim
  | nodeNotFound =>
    obtain ⟨_, k, data, h'⟩ := hc
    obtain rfl := hl.unique h'
    obtain ⟨x, hx, _, rfl⟩ := hr
    cases hx
    simp
  | nodeAlreadyExists =>
    obtain ⟨_, k, data, h'⟩ := hc
    obtain rfl := hl.unique h'
    obtain ⟨x, hx, _, rfl⟩ := hr
    cases hx
    simp
  | rand =>
    obtain ⟨_, n, h'⟩ := hc
    obtain rfl := hl.unique h'
    exact hr.2.symm
  | io y =>
    obtain ⟨k, ⟨hy, h'⟩ | ⟨_, hy, data, h'⟩ | ⟨_, hy, data, h'⟩ | ⟨_, h'⟩⟩ := hc <;> obtain rfl := hl.unique h'
    · obtain ⟨x, hx, _, _, rfl⟩ := hr; cases hx; rfl
    · obtain ⟨x, hx, _, rfl⟩ := hr; cases hx; simp [hy]
    · obtain ⟨x, hx, _, rfl⟩ := hr; cases hx; simp [hy]
    · obtain ⟨x, hx, _, rfl⟩ := hr; cases hx; rfl
  | json => exact (hsp hc).elim
  | kwp => exact (hsp hc).elim
  | aead => exact (hsp hc).elim
  | _ => exact hc.elim

/-- C119: no call fails because a node is missing. -/
theorem C119_missing (L : P.Laws) (hk : i.indexKey.length = 32) (hi : IxAloof i) (fuel : Nat) (c : IxCall) {tr : List Event} {e : Err} {l : Bytes}
    (h : Yields (ixProg P i fuel c) tr (.err e)) : ¬ LastIs tr ⟨.get l dtNode, (.error .notFound : Except IoErr Bytes)⟩ := by
  intro hl
  have hc := C119_causes L hk fuel c h
  have hidp {o : Outcome Identity} (hy : Yields (i.idProvider c.token) tr o) : False :=
    ((hi c.token).yields hy _ hl.mem).1 rfl
  have hsp (h' : NodeSpoiled P i c.keyword tr) : False := by
    obtain ⟨k, b, h', _⟩ := h'
    cases hl.unique h'
  cases e with
  | ixNotAuthenticated => obtain ⟨x, hx⟩ := hc; exact hidp hx
  | ixNotAuthorized => obtain ⟨x, hx, _⟩ := hc; exact hidp hx
  | nodeNotFound => obtain ⟨_, k, data, h'⟩ := hc; cases hl.unique h'
  | nodeAlreadyExists => obtain ⟨_, k, data, h'⟩ := hc; cases hl.unique h'
  | rand => obtain ⟨_, n, h'⟩ := hc; cases hl.unique h'
  | io y =>
    obtain ⟨k, ⟨hy, h'⟩ | ⟨_, hy, data, h'⟩ | ⟨_, hy, data, h'⟩ | ⟨_, h'⟩⟩ := hc <;> have hu := hl.unique h'
    · have h1 : l = ixLabel P i c.keyword k := by injection hu with h1 _; injection h1
      subst h1
      cases hu
      exact hy rfl
    · cases hu
    · cases hu
    · cases hu
  | json => exact hsp hc
  | kwp => exact hsp hc
  | aead => exact hsp hc
  | _ => exact hc

end

/-- Some of the errors in the concrete setting; that a node is missing ends a search. -/
theorem C119_case :
    Yields (ixProg toyPrims toyIndex 9 (.search [] [107])) [] (.err .ixNotAuthenticated) ∧
    (∃ l, Yields (ixProg toyPrims toyIndex 9 (.search [7] [107])) [⟨.get l dtNode, (.error .notFound : Except IoErr Bytes)⟩] (.ok (.ids []))) ∧
    (∃ l, Yields (ixProg toyPrims toyIndex 9 (.search [7] [107])) [⟨.get l dtNode, (.error .alreadyExists : Except IoErr Bytes)⟩]
      (.err (.io .alreadyExists))) ∧
    ∃ l, Yields (ixProg toyPrims toyIndex 9 (.add [7] [107] [1])) [⟨.get l dtNode, (.error .notFound : Except IoErr Bytes)⟩,
      ⟨.rand 32, (none : Option (BytesN 32))⟩] (.err .rand) := by
  have hk : toyIndex.indexKey.length = 32 := rfl
  refine ⟨.err _, ⟨ixLabel toyPrims toyIndex [107] 0, ?_⟩, ⟨ixLabel toyPrims toyIndex [107] 0, ?_⟩, ixLabel toyPrims toyIndex [107] 0, ?_⟩
  · simp only [ixProg, SecureIndex.search, Prog.bind_eq, gtc_eq toyLaws hk, Prog.ret_bind, searchLoop, getNextNode_eq toyLaws]
    exact .op _ _ _ _ _ (.ret _)
  · simp only [ixProg, SecureIndex.search, Prog.bind_eq, gtc_eq toyLaws hk, Prog.ret_bind, searchLoop, getNextNode_eq toyLaws]
    exact .op _ _ _ _ _ (.err _)
  · simp only [ixProg, SecureIndex.add, Prog.bind_eq, gtc_eq toyLaws hk, Prog.ret_bind, getLastNode, getLastNodeLoop, getNextNode_eq toyLaws,
      nextLabel_eq toyLaws, Prog.ofPanic_some, Node.seal, Cryptor.encrypt_eq toyLaws]
    exact .op _ _ _ _ _ (.op _ _ _ _ _ (.err _))

/-- The concrete Identity Provider keeps to itself, and so does every Standalone provider. -/
example : IxAloof toyIndex := by
  intro t
  simp only [toyIndex]
  split <;> trivial
example {P : Prims} {s : Standalone} {i : SecureIndex} (h : i.idProvider = s.getIdentity P) : IxAloof i := by
  intro t
  rw [h]
  refine allEff_getIdentity ?_ ?_ ?_ t <;> simp [Eff.dataType, dtUser, dtGroup, dtNode, dtEnd]

end D1
