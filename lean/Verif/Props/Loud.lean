import Verif.Props.IndexCrash
import Verif.Props.Guard
import Verif.Props.Story
/-!
# C74: a success is never reported over a failed request

The Index and the Standalone Identity Provider against an IO Provider and a random source that answer in any way at all.
-/
namespace D1
open Spec Prog

/-! ## What the IO Provider said during an Index call -/

/-- A read of the node of keyword `kw` with counter `c`, answered with a record. -/
def evNode (P : Prims) (i : SecureIndex) (kw : GoString) (c : Nat) (b : Bytes) : Event :=
  ⟨.get (ixLabel P i kw c) dtNode, (.ok b : Except IoErr Bytes)⟩

/-- The same read, answered with "not found". -/
def evNoNode (P : Prims) (i : SecureIndex) (kw : GoString) (c : Nat) : Event :=
  ⟨.get (ixLabel P i kw c) dtNode, (.error .notFound : Except IoErr Bytes)⟩

/-- `Told P i kw c tr ids e`: in `tr` the IO Provider was asked for the nodes of `kw` one after the other, beginning with counter `c`.
Each answer but the last was a genuine node, together they hold the identifiers `ids`, and the last answer, for counter `e`, was
"not found". -/
inductive Told (P : Prims) (i : SecureIndex) (kw : GoString) : Nat → List Event → List GoString → Nat → Prop
  | stop (c : Nat) : Told P i kw c [evNoNode P i kw c] [] c
  | step {c e : Nat} {b : Bytes} {n : Node} {tr : List Event} {ids : List GoString} : readNode P i kw c (.ok b) = .ok n →
      Told P i kw n.nextCounter tr ids e → Told P i kw c (evNode P i kw c b :: tr) (n.identifier :: ids) e

/-- `Removed P i kw id c tr`: in `tr` the nodes of `kw` were read from counter `c` on until one was not found.  Every node with the
identifier `id` was deleted: by overwriting it with its successor and deleting the successor, or, when it has none, by deleting it.
Every record read was genuine and every write and delete was answered positively. -/
inductive Removed (P : Prims) (i : SecureIndex) (kw id : GoString) : Nat → List Event → Prop
  | stop (c : Nat) : Removed P i kw id c [evNoNode P i kw c]
  | keep {c : Nat} {b : Bytes} {n : Node} {tr : List Event} : readNode P i kw c (.ok b) = .ok n → n.identifier ≠ id →
      Removed P i kw id n.nextCounter tr → Removed P i kw id c (evNode P i kw c b :: tr)
  | last {c : Nat} {b : Bytes} {n : Node} {tr : List Event} : readNode P i kw c (.ok b) = .ok n → n.identifier = id →
      Removed P i kw id c tr →
      Removed P i kw id c (evNode P i kw c b :: evNoNode P i kw n.nextCounter ::
        ⟨.delete (ixLabel P i kw c) dtNode, (.ok () : Except IoErr Unit)⟩ :: tr)
  | inner {c : Nat} {b b' : Bytes} {n m : Node} {k : BytesN 32} {nn : BytesN 12} {tr : List Event} :
      readNode P i kw c (.ok b) = .ok n → n.identifier = id → readNode P i kw n.nextCounter (.ok b') = .ok m → Removed P i kw id c tr →
      Removed P i kw id c (evNode P i kw c b :: evNode P i kw n.nextCounter b' :: evRand 32 k :: evRand 12 nn ::
        ⟨.update (ixLabel P i kw c) dtNode (nodeRec P i kw c m k nn), (.ok () : Except IoErr Unit)⟩ ::
        ⟨.delete (ixLabel P i kw n.nextCounter) dtNode, (.ok () : Except IoErr Unit)⟩ :: tr)

section
variable {P : Prims} (L : P.Laws) {i : SecureIndex} (hk : i.indexKey.length = 32)

theorem yields_ixVerify {token : GoString} {tr : List Event} (h : Yields (i.verifyAccess token) tr (.ok ())) :
    ∃ y, Yields (i.idProvider token) tr (.ok y) ∧ scopeIn scopeIndex y.scopes = true := by
  rw [SecureIndex.verifyAccess, yields_attempt] at h
  rcases h with ⟨t1, t2, y, rfl, h1, h2⟩ | ⟨_, _, _, _, _, h2⟩ | ⟨_, h2⟩ | ⟨_, h2⟩
  · by_cases hs : y.scopes.contains scopeIndex = true
    · simp only [hs, Bool.not_true, Bool.false_eq_true, if_false, yields_ret] at h2
      obtain ⟨rfl, -⟩ := h2
      exact ⟨y, by simpa using h1, by rw [scopeIn_eq]; exact hs⟩
    · simp [hs] at h2
  · simp at h2
  · cases h2
  · cases h2

theorem kwpUnwrap_error {key data : Bytes} {e : Err} (h : kwpUnwrap P key data = .error e) : e = .kwp := by
  unfold kwpUnwrap at h
  split at h
  · cases h; rfl
  split at h
  · cases h; rfl
  split at h
  · cases h; rfl
  split at h
  · next h' =>
    cases h
    unfold invertW at h'
    repeat' split at h'
    all_goals first | (cases h'; rfl) | cases h'
  · dsimp only at h
    repeat' split at h
    all_goals first | (cases h; rfl) | cases h

theorem gcmDecrypt_error {c a k : Bytes} {e : Err} (h : gcmDecrypt P c a k = .error e) : e = .aead := by
  unfold gcmDecrypt at h
  split at h
  · cases h; rfl
  split at h
  · cases h; rfl
  dsimp only at h
  split at h
  · cases h; rfl
  · cases h

/-- The errors of `Decrypt` of a cryptor. -/
theorem cryptorDecrypt_error {α : Type} {c : Cryptor} {dec : J → Option α} {j : J} {wk ct : Bytes} {e : Err}
    (h : c.decrypt P dec j wk ct = .error e) : e = .kwp ∨ e = .aead ∨ e = .json := by
  unfold Cryptor.decrypt at h
  split at h
  · next h' => cases h; exact .inl (kwpUnwrap_error h')
  · dsimp only at h
    split at h
    · next h' => cases h; exact .inr (.inl (gcmDecrypt_error h'))
    · split at h
      · cases h; exact .inr (.inr rfl)
      · cases h

/-- Only a record that is not there looks like the end of the list. -/
theorem readNode_notFound {kw : GoString} {c : Nat} {r : Except IoErr Bytes} (h : readNode P i kw c r = .error .nodeNotFound) :
    r = .error .notFound := by
  rcases r with e | b
  · cases e <;> simp [readNode, onNotFound] at h ⊢
  · simp only [readNode] at h
    split at h
    · cases h
    · rcases cryptorDecrypt_error h with h' | h' | h' <;> cases h'

include L in
theorem yields_searchLoop {kw : GoString} (fuel : Nat) : ∀ {n : Node} {acc : List GoString} {tr : List Event} {ids : List GoString},
    Yields (searchLoop P (ixTagger P i kw) (ixCryptor P i kw) fuel n acc) tr (.ok ids) →
    ∃ l e, ids = acc ++ l ∧ Told P i kw n.nextCounter tr l e := by
  induction fuel with
  | zero => intro n acc tr ids h; simp [searchLoop] at h
  | succ fuel ih =>
    intro n acc tr ids h
    rw [searchLoop, getNextNode_attempt L, yields_op] at h
    obtain ⟨r, tr', rfl, h⟩ := h
    cases hr : readNode P i kw n.nextCounter r with
    | error e =>
      rw [hr] at h
      by_cases he : e = .nodeNotFound
      · subst he
        obtain ⟨rfl, h2⟩ := yields_ret.mp h
        cases h2
        have := readNode_notFound hr
        subst this
        exact ⟨[], n.nextCounter, by simp, .stop _⟩
      · cases e <;> first | exact absurd rfl he | simp at h
    | ok m =>
      rw [hr] at h
      obtain ⟨l, e, h1, h2⟩ := ih h
      rcases r with e' | b
      · cases hr
      · exact ⟨m.identifier :: l, e, by rw [h1]; simp, .step hr h2⟩

include L in
theorem yields_getLastNode {kw : GoString} (fuel : Nat) : ∀ {n last : Node} {tr : List Event},
    Yields (getLastNodeLoop P (ixTagger P i kw) (ixCryptor P i kw) fuel n) tr (.ok last) →
    ∃ l, Told P i kw n.nextCounter tr l last.nextCounter := by
  induction fuel with
  | zero => intro n last tr h; simp [getLastNodeLoop] at h
  | succ fuel ih =>
    intro n last tr h
    rw [getLastNodeLoop, getNextNode_attempt L, yields_op] at h
    obtain ⟨r, tr', rfl, h⟩ := h
    cases hr : readNode P i kw n.nextCounter r with
    | error e =>
      rw [hr] at h
      by_cases he : e = .nodeNotFound
      · subst he
        obtain ⟨rfl, h2⟩ := yields_ret.mp h
        cases h2
        have := readNode_notFound hr
        subst this
        exact ⟨[], .stop _⟩
      · cases e <;> first | exact absurd rfl he | simp at h
    | ok m =>
      rw [hr] at h
      obtain ⟨l, h2⟩ := ih h
      rcases r with e' | b
      · cases hr
      · exact ⟨m.identifier :: l, .step hr h2⟩

theorem yields_rand_ok {n : Nat} {tr : List Event} {b : BytesN n} (h : Yields (randBytes n) tr (.ok b)) : tr = [evRand n b] := by
  rcases yields_rand.mp h with ⟨b', rfl, h2⟩ | ⟨_, h'⟩
  · cases h2; rfl
  · exact absurd h' (by simp)

theorem yields_ioPut_ok {f : IoErr → Err} {id : Bytes} {dt : DataType} {b : Bytes} {tr : List Event} {u : Unit}
    (h : Yields (ioPut f id dt b) tr (.ok u)) : tr = [⟨.put id dt b, (.ok () : Except IoErr Unit)⟩] := by
  rw [ioPut, yields_op] at h
  obtain ⟨r, tr', rfl, h⟩ := h
  cases r with
  | ok u => obtain ⟨rfl, _⟩ := yields_ret.mp h; rfl
  | error e => simp at h

theorem yields_ioUpdate_ok {f : IoErr → Err} {id : Bytes} {dt : DataType} {b : Bytes} {tr : List Event} {u : Unit}
    (h : Yields (ioUpdate f id dt b) tr (.ok u)) : tr = [⟨.update id dt b, (.ok () : Except IoErr Unit)⟩] := by
  rw [ioUpdate, yields_op] at h
  obtain ⟨r, tr', rfl, h⟩ := h
  cases r with
  | ok u => obtain ⟨rfl, _⟩ := yields_ret.mp h; rfl
  | error e => simp at h

theorem yields_ioDelete_ok {f : IoErr → Err} {id : Bytes} {dt : DataType} {tr : List Event} {u : Unit}
    (h : Yields (ioDelete f id dt) tr (.ok u)) : tr = [⟨.delete id dt, (.ok () : Except IoErr Unit)⟩] := by
  rw [ioDelete, yields_op] at h
  obtain ⟨r, tr', rfl, h⟩ := h
  cases r with
  | ok u => obtain ⟨rfl, _⟩ := yields_ret.mp h; rfl
  | error e => simp at h

include L in
theorem yields_deleteLoop {kw id : GoString} (fuel : Nat) : ∀ {n : Node} {tr : List Event} {u : Unit},
    Yields (deleteLoop P (ixTagger P i kw) (ixCryptor P i kw) id fuel n) tr (.ok u) → Removed P i kw id n.nextCounter tr := by
  induction fuel with
  | zero => intro n tr u h; simp [deleteLoop] at h
  | succ fuel ih =>
    intro n tr u h
    rw [deleteLoop, getNextNode_attempt L, yields_op] at h
    obtain ⟨r, tr', rfl, h⟩ := h
    cases hr : readNode P i kw n.nextCounter r with
    | error e =>
      rw [hr] at h
      by_cases he : e = .nodeNotFound
      · subst he
        obtain ⟨rfl, -⟩ := yields_ret.mp h
        have := readNode_notFound hr
        subst this
        exact .stop _
      · cases e <;> first | exact absurd rfl he | simp at h
    | ok m =>
      rw [hr] at h
      rcases r with e' | b
      · cases hr
      simp only at h
      split at h
      · next hid =>
        rw [nextLabel_eq L, bind_eq, ofPanic_some, ret_bind, bind_eq, deleteNode_eq L, yields_bind_ok] at h
        obtain ⟨t1, t2, a, rfl, h1, h2⟩ := h
        rw [yields_op] at h1
        obtain ⟨r', t1', rfl, h1⟩ := h1
        cases hr' : readNode P i kw m.nextCounter r' with
        | error e =>
          rw [hr'] at h1
          by_cases he : e = .nodeNotFound
          · subst he
            have := readNode_notFound hr'
            subst this
            have := yields_ioDelete_ok h1
            subst this
            exact .last hr hid (ih h2)
          · cases e <;> first | exact absurd rfl he | simp at h1
        | ok m' =>
          rw [hr'] at h1
          rcases r' with e' | b'
          · cases hr'
          simp only at h1
          obtain ⟨s1, s2, k, rfl, g1, g2⟩ := yields_bind_ok.mp h1
          obtain ⟨s3, s4, nn, rfl, g3, g4⟩ := yields_bind_ok.mp g2
          obtain ⟨s5, s6, _, rfl, g5, g6⟩ := yields_bind_ok.mp g4
          rw [yields_rand_ok g1, yields_rand_ok g3, yields_ioUpdate_ok g5, yields_ioDelete_ok g6]
          exact .inner hr hid hr' (ih h2)
      · next hid => exact .keep hr hid (ih h)

include L hk in
/-- C74, `Search`: after authentication, a `Search` that reports success has read the list from its beginning up to a node that the IO
Provider said is not there.  No read failed, every record was a genuine node, and the result is what they hold. -/
theorem C74_search {fuel : Nat} {token kw : GoString} {tr : List Event} {ids : List GoString}
    (h : Yields (i.search P fuel token kw) tr (.ok ids)) :
    ∃ trI trR y e, tr = trI ++ trR ∧ Yields (i.idProvider token) trI (.ok y) ∧ Told P i kw 0 trR ids e := by
  rw [search_eq L hk] at h
  obtain ⟨t1, t2, _, rfl, h1, h2⟩ := yields_bind_ok.mp h
  obtain ⟨y, hy, -⟩ := yields_ixVerify h1
  obtain ⟨l, e, h3, h4⟩ := yields_searchLoop L fuel h2
  simp only [List.nil_append] at h3
  subst h3
  exact ⟨t1, t2, y, e, rfl, hy, h4⟩

include L hk in
/-- C74, `Add`: an `Add` that reports success has read the list up to its end, drawn a key and a nonce, and stored exactly the new node at
the end that it found. -/
theorem C74_add {fuel : Nat} {token kw id : GoString} {tr : List Event} (h : Yields (i.add P fuel token kw id) tr (.ok ())) :
    ∃ trI trR y l e k nn, tr = trI ++ (trR ++ [evRand 32 k, evRand 12 nn,
        ⟨.put (ixLabel P i kw e) dtNode (nodeRec P i kw e ⟨id, (e + 1) % 2 ^ 64⟩ k nn), (.ok () : Except IoErr Unit)⟩]) ∧
      Yields (i.idProvider token) trI (.ok y) ∧ Told P i kw 0 trR l e := by
  rw [add_eq L hk] at h
  obtain ⟨t1, t2, _, rfl, h1, h2⟩ := yields_bind_ok.mp h
  obtain ⟨y, hy, -⟩ := yields_ixVerify h1
  rw [addBody, getLastNode] at h2
  obtain ⟨t3, t4, last, rfl, h3, h4⟩ := yields_bind_ok.mp h2
  obtain ⟨l, h5⟩ := yields_getLastNode L fuel h3
  rw [node_seal_eq L, Prog.bind_assoc] at h4
  obtain ⟨s1, s2, k, rfl, g1, g2⟩ := yields_bind_ok.mp h4
  rw [Prog.bind_assoc] at g2
  obtain ⟨s3, s4, nn, rfl, g3, g4⟩ := yields_bind_ok.mp g2
  rw [ret_bind] at g4
  rw [yields_rand_ok g1, yields_rand_ok g3, yields_ioPut_ok g4]
  exact ⟨t1, t3, y, l, last.nextCounter, k, nn, rfl, hy, h5⟩

include L hk in
/-- C74, `Delete`: a `Delete` that reports success went through the list up to its end, and every overwrite and every delete on the way was
answered positively. -/
theorem C74_delete {fuel : Nat} {token kw id : GoString} {tr : List Event} (h : Yields (i.delete P fuel token kw id) tr (.ok ())) :
    ∃ trI trR y, tr = trI ++ trR ∧ Yields (i.idProvider token) trI (.ok y) ∧ Removed P i kw id 0 trR := by
  rw [delete_eq L hk] at h
  obtain ⟨t1, t2, _, rfl, h1, h2⟩ := yields_bind_ok.mp h
  obtain ⟨y, hy, -⟩ := yields_ixVerify h1
  exact ⟨t1, t2, y, rfl, hy, yields_deleteLoop L fuel h2⟩

end

/-! ## The Standalone Identity Provider -/

/-- A request to the IO Provider was answered with an error, or the random source failed. -/
def requestFailed (ev : Event) : Prop := ioFailed ev ∨ ∃ n, ev = ⟨.rand n, (none : Option (BytesN n))⟩

/-- Success means that no request failed. -/
def Clean {α : Type} (p : Prog α) : Prop := ∀ tr a, Yields p tr (.ok a) → ∀ ev ∈ tr, ¬ requestFailed ev

section
variable {P : Prims} {s : Standalone} {α β : Type}

theorem Clean.attempt {p : Prog α} {k : Except Err α → Prog β} (hp : Clean p) (hk : ∀ a, Clean (k (.ok a)))
    (he : ∀ e, AllOut (fun o => ∀ b, o ≠ .ok b) (k (.error e))) : Clean (p.attempt k) := by
  intro tr b h ev hev
  rcases yields_attempt.mp h with ⟨t1, t2, a, rfl, h1, h2⟩ | ⟨_, _, e, _, _, h2⟩ | ⟨_, h2⟩ | ⟨_, h2⟩
  · rcases List.mem_append.mp hev with h | h
    · exact hp _ _ h1 ev h
    · exact hk a _ _ h2 ev h
  · exact absurd rfl ((he e).yields h2 b)
  · cases h2
  · cases h2

theorem Clean.bind {p : Prog α} {k : α → Prog β} (hp : Clean p) (hk : ∀ a, Clean (k a)) : Clean (p.bind k) := by
  rw [bind_eq_attempt]
  exact Clean.attempt hp hk fun e b h => by cases h

theorem Clean.mapErr {p : Prog α} (hp : Clean p) (e : Err) : Clean (p.mapErr e) :=
  Clean.attempt hp (fun a tr b h ev hev => by rw [(yields_ret.mp h).1] at hev; cases hev) fun _ _ h => by cases h

theorem Clean.ret (a : α) : Clean (.ret a) := by
  intro tr b h ev hev
  rw [(yields_ret.mp h).1] at hev; cases hev

theorem Clean.err (e : Err) : Clean (.err e : Prog α) := by
  intro tr b h; simp at h

theorem Clean.ofExcept (x : Except Err α) : Clean (Prog.ofExcept x) := by
  cases x
  · exact Clean.err _
  · exact Clean.ret _

theorem Clean.ofPanic (x : Option α) : Clean (Prog.ofPanic x) := by
  cases x
  · intro tr b h; simp at h
  · exact Clean.ret _

theorem Clean.rand (n : Nat) : Clean (randBytes n) := by
  intro tr b h ev hev
  rw [yields_rand_ok h, List.mem_singleton] at hev
  subst hev
  rintro (h | ⟨m, h⟩)
  · exact h
  · cases h

theorem Clean.now : Clean timeNow := by
  intro tr b h ev hev
  obtain ⟨r, tr', rfl, h'⟩ := yields_op.mp h
  obtain ⟨rfl, -⟩ := yields_ret.mp h'
  simp only [List.mem_singleton] at hev
  subst hev
  rintro (h | ⟨m, h⟩)
  · exact h
  · cases h

theorem Clean.ofStrict {p : Prog α} (h : Strict p) (hr : AllEff (fun e => ∀ n, e ≠ .rand n) p) : Clean p := by
  intro tr a hy ev hev
  rintro (h' | ⟨n, rfl⟩)
  · exact h _ _ hy _ hev h'
  · exact hr.yields hy _ hev n rfl

theorem Clean.ioGet (f : IoErr → Err) (id : Bytes) (dt : DataType) : Clean (ioGet f id dt) :=
  .ofStrict (Strict.ioGet f id dt) (allEff_ioGet (by simp))
theorem Clean.ioPut (f : IoErr → Err) (id : Bytes) (dt : DataType) (b : Bytes) : Clean (ioPut f id dt b) :=
  .ofStrict (Strict.ioPut f id dt b) (allEff_ioPut (by simp))
theorem Clean.ioUpdate (f : IoErr → Err) (id : Bytes) (dt : DataType) (b : Bytes) : Clean (ioUpdate f id dt b) :=
  .ofStrict (Strict.ioUpdate f id dt b) (allEff_ioUpdate (by simp))
theorem Clean.ioDelete (f : IoErr → Err) (id : Bytes) (dt : DataType) : Clean (ioDelete f id dt) :=
  .ofStrict (Strict.ioDelete f id dt) (allEff_ioDelete (by simp))

theorem Clean.encrypt (c : Cryptor) (p a : J) : Clean (c.encrypt P p a) := by
  refine .bind (.rand _) fun _ => .bind ?_ fun _ => .bind (.ofExcept _) fun _ => .ret _
  unfold gcmEncrypt
  split
  · exact .err _
  · exact .bind (.rand _) fun _ => .ret _

theorem Clean.getUser (uid : GoString) : Clean (s.getUser P uid) :=
  .bind (.ioGet _ _ _) fun b => by
    cases (P.unmarshal b).bind SealedUser.ofJ with
    | none => exact .err _
    | some _ => exact .ofExcept _

theorem Clean.getGroup (uid : GoString) : Clean (s.getGroup P uid) :=
  .bind (.ioGet _ _ _) fun b => by
    cases (P.unmarshal b).bind SealedGroup.ofJ with
    | none => exact .err _
    | some _ => exact .ofExcept _

theorem Clean.putUser (uid : GoString) (u : User) (up : Bool) : Clean (s.putUser P uid u up) :=
  .bind (.bind (.encrypt _ _ _) fun _ => .ret _) fun _ => by
    cases up
    · exact .ioPut _ _ _ _
    · exact .ioUpdate _ _ _ _

theorem Clean.putGroup (gid : GoString) (g : Group) : Clean (s.putGroup P gid g) :=
  .bind (.bind (.encrypt _ _ _) fun _ => .ret _) fun _ => .ioPut _ _ _ _

theorem Clean.fetchGroups (gs : List GoString) : Clean (s.fetchGroups P gs) := by
  induction gs with
  | nil => exact .ret _
  | cons g r ih => exact .bind (.getGroup g) fun _ => .bind ih fun _ => .ret _

theorem Clean.generatePassword : Clean (generatePassword P) :=
  .bind (.rand _) fun _ => .bind (.rand _) fun _ => .ret _

theorem Clean.authenticate (u : User) (p : GoString) : Clean (u.authenticate P p) :=
  .bind (.ofPanic _) fun ok => by
    cases ok
    · exact .err _
    · exact .ret _

theorem Clean.getIdentity (t : GoString) : Clean (s.getIdentity P t) := by
  unfold Standalone.getIdentity
  split
  · exact .err _
  · refine .attempt (.bind .now fun _ => ?_) (fun _ => .bind (.getUser _) fun _ => .bind (.fetchGroups _) fun _ => .ret _) fun _ _ h => by cases h
    split
    · exact .err _
    · exact .bind (.ofExcept _) fun _ => .ret _

theorem Clean.newV4 : Clean newV4 := .bind (.rand _) fun _ => .ret _

theorem Clean.checkMembership (y : Identity) (gs : List GoString) : Clean (checkMembership y gs) := by
  unfold D1.checkMembership
  split
  · exact .ret _
  · exact .err _

/-- C74, Standalone: if a call reports success, then every request it made to the IO Provider was answered positively and the random
source never failed. -/
theorem C74_standalone (c : DirCall) {tr : List Event} {r : DirRes} (h : Yields (dirProg P s c) tr (.ok r)) : ∀ ev ∈ tr, ¬ requestFailed ev := by
  have key : Clean (dirProg P s c) := by
    cases c with
    | newUser sc =>
      exact .bind (.bind .newV4 fun _ => .bind (.bind .generatePassword fun _ => .ret _) fun _ => .bind (.putUser _ _ _) fun _ => .ret _) fun _ => .ret _
    | loginUser u p =>
      exact .bind (.bind (.mapErr (.getUser _) _) fun _ => .bind (.mapErr (.authenticate _ _) _) fun _ => .bind (.bind .now fun _ => .ret _) fun _ =>
        .bind (.mapErr (.bind (.encrypt _ _ _) fun _ => .ret _) _) fun _ => .ret _) fun _ => .ret _
    | changePassword u p =>
      exact .bind (.bind (.mapErr (.getUser _) _) fun _ => .bind (.mapErr (.bind (.authenticate _ _) fun _ => .bind .generatePassword fun _ =>
        .ret _) _) fun _ => .bind (.putUser _ _ _) fun _ => .ret _) fun _ => .ret _
    | newGroup t sc =>
      exact .bind (.bind (.getIdentity _) fun _ => .bind .newV4 fun _ => .bind (.putGroup _ _) fun _ => .bind (.getUser _) fun _ =>
        .bind (.ofPanic _) fun _ => .bind (.putUser _ _ _) fun _ => .ret _) fun _ => .ret _
    | addUser t u gs =>
      exact .bind (.bind (.getIdentity _) fun _ => .bind (.checkMembership _ _) fun _ => .bind (.getUser _) fun _ =>
        .bind (.ofPanic _) fun _ => .putUser _ _ _) fun _ => .ret _
    | removeUser t u gs =>
      exact .bind (.bind (.getIdentity _) fun _ => .bind (.checkMembership _ _) fun _ => .bind (.getUser _) fun _ => .putUser _ _ _) fun _ => .ret _
    | deleteUser t u => exact .bind (.bind (.getIdentity _) fun _ => .ioDelete _ _ _) fun _ => .ret _
    | getIdentity t => exact .bind (.getIdentity _) fun _ => .ret _
  exact key _ _ h

/-- With Standalone as the Identity Provider, this covers the part of every D1 and Index call before `trR` in `C19_reported`,
`C74_search`, `C74_add` and `C74_delete`. -/
theorem C74_identity {t : GoString} {tr : List Event} {y : Identity} (h : Yields (s.getIdentity P t) tr (.ok y)) : ∀ ev ∈ tr, ¬ requestFailed ev :=
  Clean.getIdentity t _ _ h

end

/-! ## Concrete cases -/

/-- One node has been added; an IO Provider that answers the first read with it and then says "not found" makes `Search` succeed, so the
hypothesis of `C74_search` holds. -/
def toyNodeRec : Bytes := nodeRec toyPrims toyIndex [107] 0 ⟨[97], 1⟩ ⟨List.replicate 32 1, rfl⟩ ⟨List.replicate 12 2, rfl⟩

theorem yields_of_steps {α : Type} : ∀ (p : Prog α) (w : World) (env : Env), ∃ tr, Yields p tr (p.run env w).1
  | .ret a, _, _ => ⟨[], .ret a⟩
  | .err e, _, _ => ⟨[], .err e⟩
  | .panic, _, _ => ⟨[], .panic⟩
  | .diverge, _, _ => ⟨[], .diverge⟩
  | .op e k, w, env => by
    obtain ⟨tr, h⟩ := yields_of_steps (k (w.exec env e).1) (w.exec env e).2 env
    exact ⟨_ :: tr, .op e k _ _ _ h⟩

/-- `Search`, `Add` and `Delete` succeed in some run, so the hypotheses can be met; and the store held a node. -/
example : (∃ tr, Yields (toyIndex.search toyPrims 9 [1] [107]) tr (.ok [[97]])) ∧
    (∃ tr, Yields (toyIndex.add toyPrims 9 [1] [107] [98]) tr (.ok ())) ∧
    ∃ tr, Yields (toyIndex.delete toyPrims 9 [1] [107] [97]) tr (.ok ()) := by
  let w : World := ⟨fun x dt => if x = ixLabel toyPrims toyIndex [107] 0 ∧ dt = dtNode then some toyNodeRec else none, 0⟩
  have h1 : ((toyIndex.search toyPrims 9 [1] [107]).run toyEnv w).1 = .ok [[97]] := by decide +kernel
  have h2 : ((toyIndex.add toyPrims 9 [1] [107] [98]).run toyEnv w).1 = .ok () := by decide +kernel
  have h3 : ((toyIndex.delete toyPrims 9 [1] [107] [97]).run toyEnv w).1 = .ok () := by decide +kernel
  obtain ⟨t1, g1⟩ := yields_of_steps (toyIndex.search toyPrims 9 [1] [107]) w toyEnv
  obtain ⟨t2, g2⟩ := yields_of_steps (toyIndex.add toyPrims 9 [1] [107] [98]) w toyEnv
  obtain ⟨t3, g3⟩ := yields_of_steps (toyIndex.delete toyPrims 9 [1] [107] [97]) w toyEnv
  rw [h1] at g1; rw [h2] at g2; rw [h3] at g3
  exact ⟨⟨t1, g1⟩, ⟨t2, g2⟩, ⟨t3, g3⟩⟩

/-- With a provider whose second read fails, the same `Search` reports the failure. -/
example : ((toyIndex.search toyPrims 9 [1] [107]).run { toyEnv with fault := fun t => if t = 1 then .before else .none }
    ⟨fun x dt => if x = ixLabel toyPrims toyIndex [107] 0 ∧ dt = dtNode then some toyNodeRec else none, 0⟩).1 = .err (.io .failure) := by
  decide +kernel

/-- A Standalone call that succeeds. -/
example : ∃ tr r, Yields (dirProg toyPrims toyStandalone (.newUser [scopeAll])) tr (.ok r) := by
  obtain ⟨tr, h⟩ := yields_of_steps (dirProg toyPrims toyStandalone (.newUser [scopeAll])) ⟨fun _ _ => none, 0⟩ toyEnv
  have hk : (match ((dirProg toyPrims toyStandalone (.newUser [scopeAll])).run toyEnv ⟨fun _ _ => none, 0⟩).1 with
    | .ok _ => true | _ => false) = true := by decide +kernel
  cases hr : ((dirProg toyPrims toyStandalone (.newUser [scopeAll])).run toyEnv ⟨fun _ _ => none, 0⟩).1 with
  | ok r => rw [hr] at h; exact ⟨tr, r, h⟩
  | err e => rw [hr] at hk; cases hk
  | panic => rw [hr] at hk; cases hk
  | diverge => rw [hr] at hk; cases hk

end D1
