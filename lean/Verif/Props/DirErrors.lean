import Verif.Props.Errors
import Verif.Props.Story
/-!
# C120: every error of the standalone Identity Provider names its cause
-/
namespace D1
open Spec Prog

/-! ## Specification -/

/-- The token that a call presents. -/
def DirCall.presented : DirCall → Option GoString
  | .newUser _ | .loginUser .. | .changePassword .. => none
  | .newGroup t _ | .addUser t .. | .removeUser t .. | .deleteUser t _ | .getIdentity t => some t

/-- The user that a call is about. -/
def DirCall.about : DirCall → Option GoString
  | .newUser _ | .newGroup .. | .getIdentity _ => none
  | .loginUser u _ | .changePassword u _ | .addUser _ u _ | .removeUser _ u _ | .deleteUser _ u => some u

/-- The calls that check a password. -/
def DirCall.checks : DirCall → Option (GoString × GoString)
  | .loginUser u p | .changePassword u p => some (u, p)
  | _ => none

/-- The calls that write a sealed record and report it when they cannot. -/
def DirCall.seals : DirCall → Bool
  | .newUser _ | .changePassword .. | .newGroup .. | .addUser .. | .removeUser .. => true
  | _ => false

/-- The token says that this user is calling, at the time that the call looked at first. -/
def CalledBy (P : Prims) (s : Standalone) (token : GoString) (tr : List Event) (x : GoString) : Prop :=
  ∃ (now : GoTime) (tr' : List Event), tr = ⟨.now, now⟩ :: tr' ∧ tokenUser P s.tokenCryptor token now.ns = some x

/-- The call is about this user or made by this user. -/
def Concerns (P : Prims) (s : Standalone) (c : DirCall) (tr : List Event) (x : GoString) : Prop :=
  DirCall.about c = some x ∨ ∃ t, DirCall.presented c = some t ∧ CalledBy P s t tr x

/-- The bytes are a genuine user record. -/
def UserIs (P : Prims) (s : Standalone) (bytes : Bytes) (u : User) : Prop :=
  ∃ su, (P.unmarshal bytes).bind SealedUser.ofJ = some su ∧
    s.userCryptor.decrypt P User.ofJ (.str su.uid) su.wrappedKey.bytes su.ciphertext.bytes = .ok u

/-- The bytes are a genuine group record. -/
def GroupIs (P : Prims) (s : Standalone) (bytes : Bytes) (g : Group) : Prop :=
  ∃ sg, (P.unmarshal bytes).bind SealedGroup.ofJ = some sg ∧
    s.groupCryptor.decrypt P Group.ofJ (.str sg.gid) sg.wrappedKey.bytes sg.ciphertext.bytes = .ok g

/-- The token is good for nobody, at any time or at the time that was looked up. -/
def Unknown (P : Prims) (s : Standalone) (token : GoString) (tr : List Event) : Prop :=
  (tr = [] ∧ ∀ now, tokenUser P s.tokenCryptor token now = none) ∨
    ∃ now : GoTime, tr = [⟨.now, now⟩] ∧ tokenUser P s.tokenCryptor token now.ns = none

/-- The user could not be read, or the password is wrong, or the random source failed. -/
def Refused (P : Prims) (s : Standalone) (uid password : GoString) (tr : List Event) : Prop :=
  (∃ x, tr = [⟨.get uid dtUser, (.error x : Except IoErr Bytes)⟩]) ∨
    (∃ b, tr = [⟨.get uid dtUser, (.ok b : Except IoErr Bytes)⟩] ∧ ((∀ u, ¬ UserIs P s b u) ∨
      ∃ u, UserIs P s b u ∧ P.pbkdf2 password (u.saltAndHash.bytes.take 8) ≠ u.saltAndHash.bytes.drop 8)) ∨
    ∃ n, LastIs tr ⟨.rand n, (none : Option (BytesN n))⟩

/-- A user or group was read last and is not genuine. -/
def RecordSpoiled (P : Prims) (s : Standalone) (c : DirCall) (tr : List Event) : Prop :=
  DirCall.checks c = none ∧
    ((∃ x b, Concerns P s c tr x ∧ LastIs tr ⟨.get x dtUser, (.ok b : Except IoErr Bytes)⟩ ∧ ∀ u, ¬ UserIs P s b u) ∨
      ∃ g b, LastIs tr ⟨.get g dtGroup, (.ok b : Except IoErr Bytes)⟩ ∧ ∀ x, ¬ GroupIs P s b x)

/-- What an error of a call on the Identity Provider means, given what happened during the call. -/
def DirCause (P : Prims) (s : Standalone) (c : DirCall) (tr : List Event) : Err → Prop
  | .idNotAuthenticated => (∃ t, DirCall.presented c = some t ∧ Unknown P s t tr) ∨
      ∃ u p, DirCall.checks c = some (u, p) ∧ Refused P s u p tr
  | .idNotAuthorized => ∃ t u gids i, (c = .addUser t u gids ∨ c = .removeUser t u gids) ∧ Yields (s.getIdentity P t) tr (.ok i) ∧
      ∃ g ∈ gids, g ≠ i.id ∧ ∀ x, (g, x) ∉ i.groups
  | .userNotFound => ∃ x, Concerns P s c tr x ∧
      ((DirCall.checks c = none ∧ LastIs tr ⟨.get x dtUser, (.error .notFound : Except IoErr Bytes)⟩) ∨
        (DirCall.seals c ∧ ∃ data, LastIs tr ⟨.update x dtUser data, (.error .notFound : Except IoErr Unit)⟩))
  | .groupNotFound => (∃ t, DirCall.presented c = some t) ∧ ∃ g, LastIs tr ⟨.get g dtGroup, (.error .notFound : Except IoErr Bytes)⟩
  | .userAlreadyExists => (∃ sc, c = .newUser sc) ∧
      ∃ x data, LastIs tr ⟨.put x dtUser data, (.error .alreadyExists : Except IoErr Unit)⟩
  | .groupAlreadyExists => (∃ t sc, c = .newGroup t sc) ∧
      ∃ g data, LastIs tr ⟨.put g dtGroup data, (.error .alreadyExists : Except IoErr Unit)⟩
  | .rand => DirCall.seals c ∧ ∃ n, LastIs tr ⟨.rand n, (none : Option (BytesN n))⟩
  | .io e =>
      (DirCall.checks c = none ∧ e ≠ .notFound ∧ ((∃ x, Concerns P s c tr x ∧ LastIs tr ⟨.get x dtUser, (.error e : Except IoErr Bytes)⟩) ∨
        ∃ g, LastIs tr ⟨.get g dtGroup, (.error e : Except IoErr Bytes)⟩)) ∨
      (DirCall.seals c ∧ e ≠ .notFound ∧ ∃ x data, Concerns P s c tr x ∧ LastIs tr ⟨.update x dtUser data, (.error e : Except IoErr Unit)⟩) ∨
      ((∃ sc, c = .newUser sc) ∧ e ≠ .alreadyExists ∧ ∃ x data, LastIs tr ⟨.put x dtUser data, (.error e : Except IoErr Unit)⟩) ∨
      ((∃ t sc, c = .newGroup t sc) ∧ e ≠ .alreadyExists ∧ ∃ g data, LastIs tr ⟨.put g dtGroup data, (.error e : Except IoErr Unit)⟩) ∨
      ∃ t u, c = .deleteUser t u ∧ LastIs tr ⟨.delete u dtUser, (.error e : Except IoErr Unit)⟩
  | .json => RecordSpoiled P s c tr
  | .kwp => RecordSpoiled P s c tr
  | .aead => RecordSpoiled P s c tr
  | _ => False

/-- What a call on the Identity Provider reports when this was the last thing that happened.  Login and change of the password hide why a user
could not be read.  Change of the password reports a failed draw in two ways, so nothing is said about it. -/
def DirReports (c : DirCall) : Event → Err → Prop
  | ⟨.get _ dt, r⟩, e => ∃ x : IoErr, r = .error x ∧
      e = if (DirCall.checks c).isSome then .idNotAuthenticated
        else if x = .notFound then if dt = dtUser then .userNotFound else .groupNotFound
        else .io x
  | ⟨.update _ _ _, r⟩, e => ∃ x : IoErr, r = .error x ∧ e = if x = .notFound then .userNotFound else .io x
  | ⟨.put _ dt _, r⟩, e => ∃ x : IoErr, r = .error x ∧
      e = if x = .alreadyExists then if dt = dtUser then .userAlreadyExists else .groupAlreadyExists else .io x
  | ⟨.delete _ _, r⟩, e => ∃ x : IoErr, r = .error x ∧ e = .io x
  | ⟨.rand _, r⟩, e => r = none ∧ (DirCall.checks c = none ∧ e = .rand ∨ (∃ u p, c = .loginUser u p) ∧ e = .idNotAuthenticated)
  | ⟨.now, _⟩, _ => False

/-! ## Proofs -/

theorem onNotFound_io {f : Err} {x : IoErr} (hx : x ≠ .notFound) : onNotFound f x = .io x := by
  cases x <;> first | rfl | exact absurd rfl hx

theorem onAlreadyExists_io {f : Err} {x : IoErr} (hx : x ≠ .alreadyExists) : onAlreadyExists f x = .io x := by
  cases x <;> first | rfl | exact absurd rfl hx

section
variable {P : Prims} {s : Standalone}

theorem CalledBy.append {t x : GoString} {tr : List Event} (h : CalledBy P s t tr x) (tr' : List Event) : CalledBy P s t (tr ++ tr') x := by
  obtain ⟨now, r, rfl, h⟩ := h
  exact ⟨now, r ++ tr', rfl, h⟩

theorem Concerns.append {c : DirCall} {x : GoString} {tr : List Event} (h : Concerns P s c tr x) (tr' : List Event) :
    Concerns P s c (tr ++ tr') x := by
  rcases h with h | ⟨t, h1, h2⟩
  · exact .inl h
  · exact .inr ⟨t, h1, h2.append _⟩

theorem getUser_err {uid : GoString} {tr : List Event} {e : Err} (h : Yields (s.getUser P uid) tr (.err e)) :
    (∃ x, e = onNotFound .userNotFound x ∧ tr = [⟨.get uid dtUser, (.error x : Except IoErr Bytes)⟩]) ∨
      ((e = .kwp ∨ e = .aead ∨ e = .json) ∧ ∃ b, tr = [⟨.get uid dtUser, (.ok b : Except IoErr Bytes)⟩] ∧ ∀ u, ¬ UserIs P s b u) := by
  rw [Standalone.getUser, Prog.bind_eq] at h
  rcases yields_bind_err.mp h with h1 | ⟨t3, t4, b, rfl, h1, h2⟩
  · rcases yields_ioGet.mp h1 with ⟨_, _, hh⟩ | ⟨x, rfl, hh⟩
    · cases hh
    · injection hh with hh
      exact .inl ⟨x, hh, rfl⟩
  · rcases yields_ioGet.mp h1 with ⟨b', rfl, hh⟩ | ⟨_, _, hh⟩ <;> cases hh
    right
    cases hu : (P.unmarshal b).bind SealedUser.ofJ with
    | none =>
      rw [hu] at h2
      obtain ⟨rfl, hh⟩ := yields_err.mp h2
      cases hh
      refine ⟨.inr (.inr rfl), b, rfl, ?_⟩
      rintro u ⟨su, hsu, _⟩
      rw [hu] at hsu
      cases hsu
    | some su =>
      rw [hu] at h2
      simp only at h2
      cases hd : su.unseal P s.userCryptor with
      | ok u => rw [hd] at h2; cases h2
      | error e' =>
        rw [hd] at h2
        obtain ⟨rfl, hh⟩ := yields_err.mp h2
        cases hh
        refine ⟨decrypt_err hd, b, rfl, ?_⟩
        rintro u ⟨su', hsu, hdec⟩
        rw [hu] at hsu
        cases hsu
        rw [SealedUser.unseal, hdec] at hd
        cases hd

theorem getGroup_err {gid : GoString} {tr : List Event} {e : Err} (h : Yields (s.getGroup P gid) tr (.err e)) :
    (∃ x, e = onNotFound .groupNotFound x ∧ tr = [⟨.get gid dtGroup, (.error x : Except IoErr Bytes)⟩]) ∨
      ((e = .kwp ∨ e = .aead ∨ e = .json) ∧ ∃ b, tr = [⟨.get gid dtGroup, (.ok b : Except IoErr Bytes)⟩] ∧ ∀ g, ¬ GroupIs P s b g) := by
  rw [Standalone.getGroup, Prog.bind_eq] at h
  rcases yields_bind_err.mp h with h1 | ⟨t3, t4, b, rfl, h1, h2⟩
  · rcases yields_ioGet.mp h1 with ⟨_, _, hh⟩ | ⟨x, rfl, hh⟩
    · cases hh
    · injection hh with hh
      exact .inl ⟨x, hh, rfl⟩
  · rcases yields_ioGet.mp h1 with ⟨b', rfl, hh⟩ | ⟨_, _, hh⟩ <;> cases hh
    right
    cases hu : (P.unmarshal b).bind SealedGroup.ofJ with
    | none =>
      rw [hu] at h2
      obtain ⟨rfl, hh⟩ := yields_err.mp h2
      cases hh
      refine ⟨.inr (.inr rfl), b, rfl, ?_⟩
      rintro u ⟨su, hsu, _⟩
      rw [hu] at hsu
      cases hsu
    | some su =>
      rw [hu] at h2
      simp only at h2
      cases hd : su.unseal P s.groupCryptor with
      | ok u => rw [hd] at h2; cases h2
      | error e' =>
        rw [hd] at h2
        obtain ⟨rfl, hh⟩ := yields_err.mp h2
        cases hh
        refine ⟨decrypt_err hd, b, rfl, ?_⟩
        rintro u ⟨su', hsu, hdec⟩
        rw [hu] at hsu
        cases hsu
        rw [SealedGroup.unseal, hdec] at hd
        cases hd

/-- Reading a user. -/
theorem dirCause_getUser {c : DirCall} (hc : DirCall.checks c = none) {uid : GoString} {tr tr0 : List Event}
    (hx : Concerns P s c tr0 uid) {e : Err} (h : Yields (s.getUser P uid) tr (.err e)) : DirCause P s c (tr0 ++ tr) e := by
  rcases getUser_err h with ⟨x, rfl, rfl⟩ | ⟨he, b, rfl, hno⟩
  · by_cases hx' : x = .notFound
    · subst hx'
      exact ⟨uid, hx.append _, .inl ⟨hc, (lastIs_one _).after _⟩⟩
    · rw [onNotFound_io hx']
      exact .inl ⟨hc, hx', .inl ⟨uid, hx.append _, (lastIs_one _).after _⟩⟩
  · have : RecordSpoiled P s c (tr0 ++ [⟨.get uid dtUser, (.ok b : Except IoErr Bytes)⟩]) :=
      ⟨hc, .inl ⟨uid, b, hx.append _, (lastIs_one _).after _, hno⟩⟩
    rcases he with rfl | rfl | rfl <;> exact this

/-- Reading the groups of a user. -/
theorem dirCause_groups {c : DirCall} {t : GoString} (ht : DirCall.presented c = some t) (gids : List GoString) {tr tr0 : List Event}
    {e : Err} (h : Yields (s.fetchGroups P gids) tr (.err e)) : DirCause P s c (tr0 ++ tr) e := by
  have hc : DirCall.checks c = none := by cases c <;> first | rfl | cases ht
  induction gids generalizing tr tr0 with
  | nil => cases h
  | cons g gids ih =>
    rw [Standalone.fetchGroups, Prog.bind_eq] at h
    rcases yields_bind_err.mp h with h | ⟨t1, t2, _, rfl, _, h⟩
    · rcases getGroup_err h with ⟨x, rfl, rfl⟩ | ⟨he, b, rfl, hno⟩
      · by_cases hx' : x = .notFound
        · subst hx'
          exact ⟨⟨t, ht⟩, g, (lastIs_one _).after _⟩
        · rw [onNotFound_io hx']
          exact .inl ⟨hc, hx', .inr ⟨g, (lastIs_one _).after _⟩⟩
      · have : RecordSpoiled P s c (tr0 ++ [⟨.get g dtGroup, (.ok b : Except IoErr Bytes)⟩]) :=
          ⟨hc, .inr ⟨g, b, (lastIs_one _).after _, hno⟩⟩
        rcases he with rfl | rfl | rfl <;> exact this
    · rw [← List.append_assoc]
      exact ih (yields_view_err h)

/-- What a token turns out to be. -/
theorem unseal_says {t : GoString} {st : SealedToken} (hst : tokenFromString P t = .ok st) {tr : List Event} {o : Outcome Token}
    (h : Yields (st.unseal P s.tokenCryptor) tr o) : ∃ now : GoTime, tr = [⟨.now, now⟩] ∧
      ((∃ e, o = .err e ∧ tokenUser P s.tokenCryptor t now.ns = none) ∨
        ∃ tok, o = .ok tok ∧ tokenUser P s.tokenCryptor t now.ns = some tok.plaintext.bytes) := by
  rw [SealedToken.unseal, Prog.bind_eq] at h
  obtain ⟨now, tr', rfl, h'⟩ := yields_now.mp h
  clear h
  rename' h' => h
  refine ⟨now, ?_⟩
  simp only [tokenUser, hst]
  by_cases hb : st.expiryTime.ns < now.ns
  · rw [if_pos (show st.expiryTime.before now = true by simpa [GoTime.before] using hb)] at h
    obtain ⟨rfl, rfl⟩ := yields_err.mp h
    rw [if_pos hb]
    exact ⟨rfl, .inl ⟨_, rfl, rfl⟩⟩
  · rw [if_neg (show ¬ (st.expiryTime.before now = true) by simpa [GoTime.before] using hb)] at h
    rw [if_neg hb]
    cases hd : s.tokenCryptor.decrypt P J.toBytes (.ofTime P st.expiryTime) st.wrappedKey.bytes st.ciphertext.bytes with
    | error e =>
      rw [hd] at h
      obtain ⟨rfl, rfl⟩ := yields_err.mp h
      exact ⟨rfl, .inl ⟨_, rfl, rfl⟩⟩
    | ok p =>
      rw [hd] at h
      obtain ⟨rfl, rfl⟩ := yields_ret.mp h
      exact ⟨rfl, .inr ⟨_, rfl, rfl⟩⟩

/-- Finding out who calls. -/
theorem dirCause_identity {c : DirCall} {t : GoString} (ht : DirCall.presented c = some t) {tr : List Event} {e : Err}
    (h : Yields (s.getIdentity P t) tr (.err e)) : DirCause P s c tr e := by
  have hc : DirCall.checks c = none := by cases c <;> first | rfl | cases ht
  rw [Standalone.getIdentity] at h
  cases hst : tokenFromString P t with
  | error e' =>
    rw [hst] at h
    obtain ⟨rfl, hh⟩ := yields_err.mp h
    cases hh
    exact .inl ⟨t, ht, .inl ⟨rfl, fun now => by rw [tokenUser, hst]⟩⟩
  | ok st =>
    rw [hst] at h
    rcases yields_attempt.mp h with ⟨t1, t2, tok, rfl, h3, h4⟩ | ⟨t1, t2, e', rfl, h3, h4⟩ | ⟨h3, hh⟩ | ⟨h3, hh⟩
    · obtain ⟨now, rfl, ⟨_, hh, _⟩ | ⟨tok', hh, hu⟩⟩ := unseal_says (s := s) hst h3 <;> cases hh
      simp only [Prog.bind_eq] at h4
      rcases yields_bind_err.mp h4 with h4 | ⟨t5, t6, u, rfl, _, h4⟩
      · exact dirCause_getUser hc (.inr ⟨t, ht, now, [], rfl, hu⟩) h4
      · rw [← List.append_assoc]
        exact dirCause_groups ht _ (yields_view_err h4)
    · obtain ⟨now, rfl, ⟨_, hh, hu⟩ | ⟨tok', hh, hu⟩⟩ := unseal_says (s := s) hst h3 <;> cases hh
      obtain ⟨rfl, hh⟩ := yields_err.mp h4
      cases hh
      exact .inl ⟨t, ht, .inr ⟨now, rfl, hu⟩⟩
    · cases hh
    · cases hh

theorem identity_caller {t : GoString} {tr : List Event} {i : Identity} (h : Yields (s.getIdentity P t) tr (.ok i)) : CalledBy P s t tr i.id := by
  rw [Standalone.getIdentity] at h
  cases hst : tokenFromString P t with
  | error e' => rw [hst] at h; cases h
  | ok st =>
    rw [hst] at h
    rcases yields_attempt.mp h with ⟨t1, t2, tok, rfl, h3, h4⟩ | ⟨t1, t2, e', rfl, h3, h4⟩ | ⟨h3, hh⟩ | ⟨h3, hh⟩
    · obtain ⟨now, rfl, ⟨_, hh, _⟩ | ⟨tok', hh, hu⟩⟩ := unseal_says (s := s) hst h3 <;> cases hh
      simp only [Prog.bind_eq] at h4
      obtain ⟨_, _, u, rfl, _, h4⟩ := yields_bind_ok.mp h4
      obtain ⟨_, _, gs, rfl, _, h4⟩ := yields_bind_ok.mp h4
      obtain ⟨rfl, hh⟩ := yields_ret.mp h4
      cases hh
      exact ⟨now, _, rfl, hu⟩
    · cases h4
    · cases hh
    · cases hh

/-- Replacing a user. -/
theorem dirCause_update (L : P.Laws) {c : DirCall} (hc : DirCall.seals c) {uid : GoString} {u : User} {tr tr0 : List Event}
    (hx : Concerns P s c tr0 uid) {e : Err} (h : Yields (s.putUser P uid u true) tr (.err e)) : DirCause P s c (tr0 ++ tr) e := by
  rw [Standalone.putUser, User.seal, Prog.bind_eq, Prog.bind_eq, Prog.bind_assoc] at h
  rcases yields_bind_err.mp h with h | ⟨t1, t2, r, rfl, _, h⟩
  · obtain ⟨rfl, n, hn⟩ := seal_err L h
    exact ⟨hc, n, hn.after _⟩
  · obtain ⟨x, rfl, rfl⟩ := yields_ioUpdate_err h
    by_cases hx' : x = .notFound
    · subst hx'
      exact ⟨uid, hx.append _, .inr ⟨hc, _, ((lastIs_one _).after _).after _⟩⟩
    · rw [onNotFound_io hx']
      exact .inr (.inl ⟨hc, hx', uid, _, hx.append _, ((lastIs_one _).after _).after _⟩)

theorem mapErr_err {α : Type} {p : Prog α} {e e' : Err} {tr : List Event} (h : Yields (p.mapErr e') tr (.err e)) :
    e = e' ∧ ∃ x, Yields p tr (.err x) := by
  rcases yields_attempt.mp h with ⟨t1, t2, a, rfl, h3, h4⟩ | ⟨t1, t2, x, rfl, h3, h4⟩ | ⟨h3, hh⟩ | ⟨h3, hh⟩
  · cases h4
  · cases h4; exact ⟨rfl, x, by simpa using h3⟩
  · cases hh
  · cases hh

theorem mapErr_ok {α : Type} {p : Prog α} {e' : Err} {tr : List Event} {a : α} (h : Yields (p.mapErr e') tr (.ok a)) : Yields p tr (.ok a) := by
  rcases yields_attempt.mp h with ⟨t1, t2, a, rfl, h3, h4⟩ | ⟨t1, t2, x, rfl, h3, h4⟩ | ⟨h3, hh⟩ | ⟨h3, hh⟩
  · cases h4; simpa using h3
  · cases h4
  · cases hh
  · cases hh

theorem authenticate_err {u : User} {p : GoString} {tr : List Event} {e : Err} (h : Yields (u.authenticate P p) tr (.err e)) :
    tr = [] ∧ P.pbkdf2 p (u.saltAndHash.bytes.take 8) ≠ u.saltAndHash.bytes.drop 8 := by
  rw [User.authenticate, Prog.bind_eq] at h
  rcases yields_bind_err.mp h with h | ⟨t1, t2, ok, rfl, h1, h⟩
  · exact absurd h yields_ofPanic_not_err
  · rw [comparePassword] at h1
    split at h1
    · cases h1
    · obtain ⟨rfl, hh⟩ := yields_ret.mp h1
      cases hh
      split at h
      · rename_i hne
        obtain ⟨rfl, _⟩ := yields_err.mp h
        exact ⟨rfl, fun heq => by simp [saltLength, heq] at hne⟩
      · cases h

theorem password_err {tr : List Event} {e : Err} (h : Yields (generatePassword P) tr (.err e)) :
    e = .rand ∧ ∃ n, LastIs tr ⟨.rand n, (none : Option (BytesN n))⟩ := by
  rw [generatePassword, Prog.bind_eq] at h
  rcases yields_bind_err.mp h with h | ⟨t1, t2, _, rfl, _, h⟩
  · exact ⟨(yields_rand_err h).1, _, (yields_rand_err h).2⟩
  · have := yields_rand_err (yields_view_err h)
    exact ⟨this.1, _, this.2.after _⟩

/-- Reading the user at login. -/
theorem refused_getUser {uid p : GoString} {tr : List Event} {e : Err} (h : Yields (s.getUser P uid) tr (.err e)) : Refused P s uid p tr := by
  rcases getUser_err h with ⟨x, rfl, rfl⟩ | ⟨he, b, rfl, hno⟩
  · exact .inl ⟨x, rfl⟩
  · exact .inr (.inl ⟨b, rfl, .inl hno⟩)

theorem refused_password {uid p : GoString} {tr : List Event} {u : User} (h : Yields (s.getUser P uid) tr (.ok u))
    (hp : P.pbkdf2 p (u.saltAndHash.bytes.take 8) ≠ u.saltAndHash.bytes.drop 8) : Refused P s uid p tr := by
  obtain ⟨b, su, rfl, h1, h2⟩ := yields_getUser_ok h
  exact .inr (.inl ⟨b, rfl, .inr ⟨u, ⟨su, h1, h2⟩, hp⟩⟩)

theorem dirCause_member {c : DirCall} {t u : GoString} {gids : List GoString} (hc : c = .addUser t u gids ∨ c = .removeUser t u gids)
    {i : Identity} {tr0 tr : List Event} {e : Err} (hi : Yields (s.getIdentity P t) tr0 (.ok i))
    (h : Yields (checkMembership i gids) tr (.err e)) : DirCause P s c (tr0 ++ tr) e := by
  rw [checkMembership] at h
  split at h
  · cases h
  · rename_i hm
    obtain ⟨rfl, hh⟩ := yields_err.mp h
    cases hh
    rw [List.append_nil]
    simp only [List.all_eq_true, decide_eq_true_eq, not_forall] at hm
    obtain ⟨g, hg, hn⟩ := hm
    rw [(C46_getIDs i g).1, not_or] at hn
    exact ⟨t, u, gids, i, hc, hi, g, hg, hn.1, fun x hx => hn.2 ⟨x, hx⟩⟩

/-- C120: whatever the IO Provider and the random source answer and whatever the time is, an error of a call on the standalone
Identity Provider says what happened. -/
theorem C120_causes (L : P.Laws) (c : DirCall) {tr : List Event} {e : Err} (h : Yields (dirProg P s c) tr (.err e)) : DirCause P s c tr e := by
  cases c with
  | newUser sc =>
    have h := yields_view_err h
    simp only [Standalone.newUser, D1.newUser, newV4, Prog.bind_eq, Prog.bind_assoc, Prog.pure_eq, Prog.ret_bind] at h
    rcases yields_bind_err.mp h with h | ⟨t1, t2, _, rfl, _, h⟩
    · obtain ⟨rfl, hh⟩ := yields_rand_err h
      exact ⟨rfl, _, hh⟩
    rcases yields_bind_err.mp h with h | ⟨t3, t4, r, rfl, _, h⟩
    · obtain ⟨rfl, n, hh⟩ := password_err h
      exact ⟨rfl, n, hh.after _⟩
    have h := yields_view_err h
    rw [Standalone.putUser, User.seal, Prog.bind_eq, Prog.bind_eq, Prog.bind_assoc] at h
    rcases yields_bind_err.mp h with h | ⟨t5, t6, r, rfl, _, h⟩
    · obtain ⟨rfl, n, hn⟩ := seal_err L h
      exact ⟨rfl, n, (hn.after _).after _⟩
    · obtain ⟨x, rfl, rfl⟩ := yields_ioPut_err h
      by_cases hx' : x = .alreadyExists
      · subst hx'
        exact ⟨⟨sc, rfl⟩, _, _, (((lastIs_one _).after _).after _).after _⟩
      · rw [onAlreadyExists_io hx']
        exact .inr (.inr (.inl ⟨⟨sc, rfl⟩, hx', _, _, (((lastIs_one _).after _).after _).after _⟩))
  | loginUser u p =>
    have h := yields_view_err h
    simp only [Standalone.loginUser, Prog.bind_eq] at h
    rcases yields_bind_err.mp h with h | ⟨t1, t2, usr, rfl, hu, h⟩
    · obtain ⟨rfl, x, hm⟩ := mapErr_err h
      clear h
      rename' hm => h
      exact .inr ⟨u, p, rfl, refused_getUser h⟩
    have hu := mapErr_ok hu
    rcases yields_bind_err.mp h with h | ⟨t3, t4, _, rfl, _, h⟩
    · obtain ⟨rfl, x, hm⟩ := mapErr_err h
      clear h
      rename' hm => h
      obtain ⟨rfl, hp⟩ := authenticate_err h
      rw [List.append_nil]
      exact .inr ⟨u, p, rfl, refused_password hu hp⟩
    rcases yields_bind_err.mp h with h | ⟨t5, t6, tok, rfl, _, h⟩
    · rw [newToken, Prog.bind_eq] at h
      obtain ⟨now, tr', rfl, hh⟩ := yields_now.mp h
      cases hh
    · have h := yields_view_err h
      obtain ⟨rfl, x, hm⟩ := mapErr_err h
      clear h
      rename' hm => h
      rw [Token.seal, Prog.bind_eq] at h
      obtain ⟨_, n, hn⟩ := seal_err L (yields_view_err h)
      exact .inr ⟨u, p, rfl, .inr (.inr ⟨n, ((hn.after _).after _).after _⟩)⟩
  | changePassword u p =>
    have h := yields_view_err h
    simp only [Standalone.changeUserPassword, Prog.bind_eq] at h
    rcases yields_bind_err.mp h with h | ⟨t1, t2, usr, rfl, hu, h⟩
    · obtain ⟨rfl, x, hm⟩ := mapErr_err h
      clear h
      rename' hm => h
      exact .inr ⟨u, p, rfl, refused_getUser h⟩
    have hu := mapErr_ok hu
    rcases yields_bind_err.mp h with h | ⟨t3, t4, r, rfl, _, h⟩
    · obtain ⟨rfl, x, hm⟩ := mapErr_err h
      clear h
      rename' hm => h
      rw [User.changePassword, Prog.bind_eq] at h
      rcases yields_bind_err.mp h with h | ⟨t5, t6, _, rfl, _, h⟩
      · obtain ⟨rfl, hp⟩ := authenticate_err h
        rw [List.append_nil]
        exact .inr ⟨u, p, rfl, refused_password hu hp⟩
      · obtain ⟨_, n, hn⟩ := password_err (yields_view_err h)
        exact .inr ⟨u, p, rfl, .inr (.inr ⟨n, (hn.after _).after _⟩)⟩
    · rw [← List.append_assoc]
      exact dirCause_update L rfl (.inl rfl) (yields_view_err h)
  | newGroup t sc =>
    have h := yields_view_err h
    simp only [Standalone.newGroup, newV4, Prog.bind_eq, Prog.bind_assoc, Prog.pure_eq, Prog.ret_bind] at h
    rcases yields_bind_err.mp h with h | ⟨t1, t2, i, rfl, hi, h⟩
    · exact dirCause_identity (c := .newGroup t sc) rfl h
    have hcon : Concerns P s (.newGroup t sc) t1 i.id := .inr ⟨t, rfl, identity_caller hi⟩
    rcases yields_bind_err.mp h with h | ⟨t3, t4, b, rfl, _, h⟩
    · obtain ⟨rfl, hh⟩ := yields_rand_err h
      exact ⟨rfl, _, hh.after _⟩
    rcases yields_bind_err.mp h with h | ⟨t5, t6, _, rfl, _, h⟩
    · rw [Standalone.putGroup, Group.seal, Prog.bind_eq, Prog.bind_eq, Prog.bind_assoc] at h
      rcases yields_bind_err.mp h with h | ⟨t7, t8, r, rfl, _, h⟩
      · obtain ⟨rfl, n, hn⟩ := seal_err L h
        exact ⟨rfl, n, (hn.after _).after _⟩
      · obtain ⟨x, rfl, rfl⟩ := yields_ioPut_err h
        by_cases hx' : x = .alreadyExists
        · subst hx'
          exact ⟨⟨t, sc, rfl⟩, _, _, (((lastIs_one _).after _).after _).after _⟩
        · rw [onAlreadyExists_io hx']
          exact .inr (.inr (.inr (.inl ⟨⟨t, sc, rfl⟩, hx', _, _, (((lastIs_one _).after _).after _).after _⟩)))
    rcases yields_bind_err.mp h with h | ⟨t7, t8, usr, rfl, _, h⟩
    · simp only [← List.append_assoc]
      exact dirCause_getUser rfl ((hcon.append _).append _) h
    rcases yields_bind_err.mp h with h | ⟨t9, t10, usr', rfl, _, h⟩
    · exact absurd h yields_ofPanic_not_err
    · simp only [← List.append_assoc]
      exact dirCause_update L rfl ((((hcon.append _).append _).append _).append _) (yields_view_err h)
  | addUser t u gids =>
    have h := yields_view_err h
    simp only [Standalone.addUserToGroups, Prog.bind_eq] at h
    rcases yields_bind_err.mp h with h | ⟨t1, t2, i, rfl, hi, h⟩
    · exact dirCause_identity (c := .addUser t u gids) rfl h
    rcases yields_bind_err.mp h with h | ⟨t3, t4, _, rfl, _, h⟩
    · exact dirCause_member (.inl rfl) hi h
    rcases yields_bind_err.mp h with h | ⟨t5, t6, usr, rfl, _, h⟩
    · rw [← List.append_assoc]; exact dirCause_getUser rfl (.inl rfl) h
    rcases yields_bind_err.mp h with h | ⟨t7, t8, usr', rfl, _, h⟩
    · exact absurd h yields_ofPanic_not_err
    · simp only [← List.append_assoc]; exact dirCause_update L rfl (.inl rfl) h
  | removeUser t u gids =>
    have h := yields_view_err h
    simp only [Standalone.removeUserFromGroups, Prog.bind_eq] at h
    rcases yields_bind_err.mp h with h | ⟨t1, t2, i, rfl, hi, h⟩
    · exact dirCause_identity (c := .removeUser t u gids) rfl h
    rcases yields_bind_err.mp h with h | ⟨t3, t4, _, rfl, _, h⟩
    · exact dirCause_member (.inr rfl) hi h
    rcases yields_bind_err.mp h with h | ⟨t5, t6, usr, rfl, _, h⟩
    · rw [← List.append_assoc]; exact dirCause_getUser rfl (.inl rfl) h
    · simp only [← List.append_assoc]; exact dirCause_update L rfl (.inl rfl) h
  | deleteUser t u =>
    have h := yields_view_err h
    simp only [Standalone.deleteUser, Prog.bind_eq] at h
    rcases yields_bind_err.mp h with h | ⟨t1, t2, i, rfl, hi, h⟩
    · exact dirCause_identity (c := .deleteUser t u) rfl h
    · obtain ⟨x, rfl, rfl⟩ := yields_ioDelete_err h
      exact .inr (.inr (.inr (.inr ⟨t, u, rfl, (lastIs_one _).after _⟩)))
  | getIdentity t =>
    exact dirCause_identity (c := .getIdentity t) rfl (yields_view_err h)

theorem fetchGroups_fine (gids : List GoString) {tr : List Event} {l : List (GoString × AccessGroup)}
    (h : Yields (s.fetchGroups P gids) tr (.ok l)) : ∀ ev ∈ tr, ∃ g b, ev = ⟨.get g dtGroup, (.ok b : Except IoErr Bytes)⟩ := by
  induction gids generalizing tr l with
  | nil =>
    obtain ⟨rfl, _⟩ := yields_ret.mp h
    simp
  | cons g gids ih =>
    rw [Standalone.fetchGroups, Prog.bind_eq] at h
    obtain ⟨t1, t2, x, rfl, h1, h⟩ := yields_bind_ok.mp h
    rw [Prog.bind_eq] at h
    obtain ⟨t3, t4, l', rfl, h2, h⟩ := yields_bind_ok.mp h
    obtain ⟨rfl, _⟩ := yields_ret.mp h
    obtain ⟨b, _, rfl, _⟩ := yields_getGroup_ok h1
    intro ev hev
    simp only [List.append_nil, List.mem_append, List.mem_singleton] at hev
    rcases hev with rfl | hev
    · exact ⟨g, b, rfl⟩
    · exact ih h2 ev hev

/-- Nothing fails while an identity is looked up successfully. -/
theorem identity_fine {c : DirCall} {t : GoString} {tr : List Event} {i : Identity} (h : Yields (s.getIdentity P t) tr (.ok i)) {ev : Event}
    (hev : ev ∈ tr) {e : Err} : ¬ DirReports c ev e := by
  obtain ⟨_, now, tr', p, _, rfl, _, _, h⟩ := yields_getIdentity_ok h
  rw [Standalone.lookup] at h
  obtain ⟨t1, t2, u, rfl, h1, h⟩ := yields_bind_ok.mp h
  obtain ⟨t3, t4, gs, rfl, h2, h⟩ := yields_bind_ok.mp h
  obtain ⟨rfl, _⟩ := yields_ret.mp h
  obtain ⟨b, _, rfl, _⟩ := yields_getUser_ok h1
  simp only [List.append_nil, List.mem_cons, List.mem_append, List.not_mem_nil, or_false] at hev
  rcases hev with rfl | rfl | hev
  · exact fun h => h
  · rintro ⟨x, hx, _⟩; cases hx
  · obtain ⟨g, b, rfl⟩ := fetchGroups_fine _ h2 ev hev
    rintro ⟨x, hx, _⟩; cases hx

/-- C120, the other way round: when a call fails and the last thing that happened is a failed request or a failed draw, the error is the one that
belongs to it. -/
theorem C120_exact (L : P.Laws) (c : DirCall) {tr : List Event} {e e' : Err} {ev : Event}
    (h : Yields (dirProg P s c) tr (.err e)) (hl : LastIs tr ev) (hr : DirReports c ev e') : e = e' := by
  have hc := C120_causes L c h
  have hne : dtGroup ≠ dtUser := by simp [dtUser, dtGroup, dtEnd]
  have hsp (h' : RecordSpoiled P s c tr) : False := by
    obtain ⟨_, ⟨x, b, _, h', _⟩ | ⟨x, b, h', _⟩⟩ := h' <;> obtain rfl := hl.unique h' <;> obtain ⟨x, hx, _⟩ := hr <;> cases hx
  cases e with
  | idNotAuthenticated =>
    obtain ⟨t, _, ⟨rfl, _⟩ | ⟨now, rfl, _⟩⟩ | ⟨u, p, hcc, ⟨x, rfl⟩ | ⟨b, rfl, _⟩ | ⟨n, h'⟩⟩ := hc
    · obtain ⟨_, h'⟩ := hl; simp at h'
    · obtain rfl := hl.unique (lastIs_one _); exact hr.elim
    · obtain rfl := hl.unique (lastIs_one _)
      obtain ⟨y, hy, rfl⟩ := hr
      simp [hcc]
    · obtain rfl := hl.unique (lastIs_one _)
      obtain ⟨y, hy, _⟩ := hr
      cases hy
    · obtain rfl := hl.unique h'
      obtain ⟨_, ⟨h0, _⟩ | ⟨_, rfl⟩⟩ := hr
      · rw [h0] at hcc; cases hcc
      · rfl
  | idNotAuthorized => obtain ⟨t, u, gids, i, _, hi, _⟩ := hc; exact (identity_fine hi hl.mem hr).elim
  | userNotFound =>
    obtain ⟨x, _, ⟨h0, h'⟩ | ⟨_, data, h'⟩⟩ := hc <;> obtain rfl := hl.unique h' <;> obtain ⟨y, hy, rfl⟩ := hr <;> cases hy
    · simp [h0]
    · simp
  | groupNotFound =>
    obtain ⟨⟨t, ht⟩, g, h'⟩ := hc
    have h0 : DirCall.checks c = none := by cases c <;> first | rfl | cases ht
    obtain rfl := hl.unique h'
    obtain ⟨y, hy, rfl⟩ := hr
    cases hy
    simp [h0, hne]
  | userAlreadyExists =>
    obtain ⟨_, x, data, h'⟩ := hc
    obtain rfl := hl.unique h'
    obtain ⟨y, hy, rfl⟩ := hr
    cases hy
    simp
  | groupAlreadyExists =>
    obtain ⟨_, x, data, h'⟩ := hc
    obtain rfl := hl.unique h'
    obtain ⟨y, hy, rfl⟩ := hr
    cases hy
    simp [hne]
  | rand =>
    obtain ⟨hs, n, h'⟩ := hc
    obtain rfl := hl.unique h'
    obtain ⟨_, ⟨_, rfl⟩ | ⟨⟨u, p, rfl⟩, _⟩⟩ := hr
    · rfl
    · cases hs
  | io y =>
    obtain ⟨h0, hy, ⟨x, _, h'⟩ | ⟨x, h'⟩⟩ | ⟨_, hy, x, data, _, h'⟩ | ⟨_, hy, x, data, h'⟩ | ⟨_, hy, x, data, h'⟩ | ⟨t, u, _, h'⟩ := hc <;>
      obtain rfl := hl.unique h' <;> obtain ⟨z, hz, rfl⟩ := hr <;> cases hz <;> simp [*]
  | json => exact (hsp hc).elim
  | kwp => exact (hsp hc).elim
  | aead => exact (hsp hc).elim
  | _ => exact hc.elim

end

/-- Some of the errors in the concrete setting: a malformed token, a login of nobody, and no random bytes for a new user. -/
theorem C120_case :
    Yields (dirProg toyPrims toyStandalone (.getIdentity [33])) [] (.err .idNotAuthenticated) ∧
    Yields (dirProg toyPrims toyStandalone (.loginUser [7] [8])) [⟨.get [7] dtUser, (.error .notFound : Except IoErr Bytes)⟩]
      (.err .idNotAuthenticated) ∧
    Yields (dirProg toyPrims toyStandalone (.newUser [])) [⟨.rand 16, (none : Option (BytesN 16))⟩] (.err .rand) := by
  refine ⟨?_, .op _ _ _ _ _ (.err _), .op _ _ _ _ _ (.err _)⟩
  have : tokenFromString toyPrims [33] = .error .base64 := by decide +kernel
  simp only [dirProg, Standalone.getIdentity, this]
  exact .err _

end D1
