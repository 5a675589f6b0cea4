import Verif.Props.Sessions
/-!
# Users and groups of the Standalone provider against whoever has the IO Provider (C102, C103)
-/
namespace D1
open Spec Prog

/-! ## C102 -/

/-- What a user record says: scopes of the user, a group that the user is in, a password record. -/
inductive Grant where
  | scopes (s : Scope)
  | member (gid : GoString)
  | password (saltAndHash : Bytes)

/-- The provider with a given key for users. -/
def Standalone.withUek (s : Standalone) (uek : BytesN 32) : Standalone := { s with userCryptor := ⟨uek.1⟩ }

/-- The user that a token is for. -/
def holder (P : Prims) (s : Standalone) (t : GoString) : Option GoString :=
  match tokenFromString P t with
  | .error _ => none
  | .ok st => match s.tokenCryptor.decrypt P J.toBytes (.ofTime P st.expiryTime) st.wrappedKey.bytes st.ciphertext.bytes with
    | .error _ => none
    | .ok p => some p.bytes

/-- A record that accepts the password. -/
def passes (P : Prims) (p : GoString) : Grant → Prop
  | .password h => comparePassword P p h = some true
  | _ => False

/-- Success, or a request that changes what is stored. -/
def effective {R : Type} : R ⊕ Eff → Bool
  | .inl _ => true
  | .inr e => changing e

/-- `NewUser` gives the scopes it is called with, as soon as it sends a user to be stored.  `NewGroup` makes its caller a member of the
group that it sends to be stored, and `AddUserToGroups` a user a member of groups (of a group ID its sanitized text is stored, C18), as
soon as they send a user to be stored.  `NewUser` and `ChangeUserPassword` make a record that accepts the password that they return,
if they return one.

`GetIdentity` should return only scopes and groups that were given.  `LoginUser` and `ChangeUserPassword` should accept a password
only if it is accepted by a record that was made for a password that was returned.  `AddUserToGroups` and `RemoveUserFromGroups`
should succeed, or change what is stored, only if membership of the groups was given (or the group ID is the ID of the caller). -/
def userTerms (P : Prims) (s : Standalone) : Terms DirCall DirOut Grant where
  brings
    | .newUser sc, .scopes x, H => x = allScopes sc ∧ ∃ u d, H (.inr (.put u dtUser d))
    | .newUser _, .password h, H => (∃ u d, H (.inr (.put u dtUser d))) ∧
        ∀ u p, H (.inl (.ok (.user u p))) → comparePassword P p h = some true
    | .changePassword u _, .password h, H => (∃ d, H (.inr (.update u dtUser d))) ∧
        ∀ p, H (.inl (.ok (.password p))) → comparePassword P p h = some true
    | .newGroup _ _, .member g, H => (∃ d, H (.inr (.put g dtGroup d))) ∧ ∃ u d, H (.inr (.update u dtUser d))
    | .addUser _ u gs, .member g, H => (∃ g' ∈ gs, g = sanitize g') ∧ ∃ d, H (.inr (.update u dtUser d))
    | _, _, _ => False
  needs
    | .getIdentity _, .inl (.identity i), D => D = (· = .scopes i.scopes) ∨ ∃ g ∈ i.groups.map Prod.fst, D = (· = .member g)
    | .loginUser _ p, x, D => effective x = true ∧ D = passes P p
    | .changePassword _ p, x, D => effective x = true ∧ D = passes P p
    | .addUser t _ gs, x, D => effective x = true ∧ ∃ g ∈ gs, holder P s t ≠ some g ∧ D = (· = .member g)
    | .removeUser t _ gs, x, D => effective x = true ∧ ∃ g ∈ gs, holder P s t ≠ some g ∧ D = (· = .member g)
    | _, _, _ => False

/-! ## C102: proof -/

section
variable {R : Type}

/-- Reading a user. -/
def userI (P : Prims) (uid : GoString) (k : Except Err User → IProg R) : IProg R :=
  .after ((ioGet (onNotFound .userNotFound) uid dtUser).attempt .ret) fun r => match r with
    | .error e => k (.error e)
    | .ok b => match (P.unmarshal b).bind SealedUser.ofJ with
      | none => k (.error .json)
      | some su => .unbox (J.str su.uid).render su.wrappedKey.bytes su.ciphertext.bytes fun r => k (readAs User.ofJ r)

theorem expand_userI (P : Prims) (s : Standalone) (uek : BytesN 32) (uid : GoString) (k : Except Err User → IProg R) :
    (userI P uid k).expand P uek = ((s.withUek uek).getUser P uid).attempt fun r => (k r).expand P uek := by
  rw [userI, IProg.expand_after, Prog.attempt_bind, Standalone.getUser, Prog.bind_eq, Prog.bind_attempt]
  congr 1; funext r
  rw [Prog.ret_bind]
  cases r with
  | error e => rfl
  | ok b =>
    simp only
    cases (P.unmarshal b).bind SealedUser.ofJ with
    | none => rfl
    | some su =>
      simp only [IProg.expand, SealedUser.unseal, decrypt_unboxed, Standalone.withUek]
      cases readAs User.ofJ (unboxed P uek.1 (J.str su.uid).render su.wrappedKey.bytes su.ciphertext.bytes) <;> rfl

/-- The user goes on only if it was read. -/
def userOkI (P : Prims) (uid : GoString) (k : User → IProg R) : IProg R :=
  userI P uid fun r => match r with
    | .error e => .err e
    | .ok u => k u

theorem expand_userOkI (P : Prims) (s : Standalone) (uek : BytesN 32) (uid : GoString) (k : User → IProg R) :
    (userOkI P uid k).expand P uek = ((s.withUek uek).getUser P uid).bind fun u => (k u).expand P uek := by
  rw [userOkI, expand_userI P s, Prog.bind_eq_attempt]
  congr 1; funext r
  cases r <;> rfl

/-- Storing a user. -/
def putUserI (uid : GoString) (u : User) (update : Bool) (res : R) : IProg R :=
  .box u.toJ (J.str uid).render fun x =>
    .after (if update then ioUpdate (onNotFound .userNotFound) uid dtUser (⟨uid, some x.2, some x.1⟩ : SealedUser).toJ.render
      else ioPut (onAlreadyExists .userAlreadyExists) uid dtUser (⟨uid, some x.2, some x.1⟩ : SealedUser).toJ.render) fun _ => .ret res

theorem expand_putUserI {P : Prims} (L : P.Laws) (s : Standalone) (uek : BytesN 32) (uid : GoString) (u : User) (update : Bool)
    (res : R) : (putUserI uid u update res).expand P uek =
      ((s.withUek uek).putUser P uid u update).bind fun _ => .ret res := by
  simp only [putUserI, IProg.expand, IProg.expand_after, Standalone.putUser, User.seal, Cryptor.encrypt_eq L, Prog.bind_eq,
    Prog.pure_eq, Prog.bind_assoc, Prog.ret_bind]
  rfl

end

/-- What a user record says. -/
def User.Says (u : User) : Grant → Prop
  | .scopes s => u.scopes = s
  | .member g => u.groups.has g = true
  | .password h => u.saltAndHash.bytes = h

/-- What a box says. -/
def grantsOf (_ : Bytes) (m : J) (f : Grant) : Prop := ∃ u, User.ofJ m.san = some u ∧ u.Says f

theorem user_san {m : J} {u : User} (h : User.ofJ m.san = some u) {g : GoString} (hg : u.groups.has g = true) : sanitize g = g := by
  simp only [User.ofJ, Option.bind_eq_bind, Option.bind_eq_some_iff, Option.pure_def, Option.some.injEq] at h
  obtain ⟨fs, h1, w, -, sc, -, gr, h2, rfl⟩ := h
  obtain ⟨fs, rfl⟩ := fields_san h1
  exact groups_san h2 hg

section
variable {R X : Type} {t : Terms X R Grant} {x : X} {P : Prims}

theorem keeps_userI {K : Grant → Prop} {uid : GoString} {k : Except Err User → IProg R} {H : Outcome R ⊕ Eff → Prop}
    (hn : ∀ D, ¬t.needs x (.inr (.get uid dtUser)) D) (hH : Unended H) (he : ∀ e K' H', (k (.error e)).Keeps grantsOf t x K' H')
    (hk : ∀ (K' : Grant → Prop) u H', Unended H' → (∀ s, H s → H' s) → (∀ f, K f → K' f) → (∀ f, u.Says f → K' f) →
      (∀ g, u.groups.has g = true → sanitize g = g) → (k (.ok u)).Keeps grantsOf t x K' H') : (userI P uid k).Keeps grantsOf t x K H := by
  refine IProg.keeps_after _ ⟨fun D hD => (hn D hD).elim, fun r => by cases r <;> trivial⟩ hH fun r H' hH' hs => ?_
  cases r with
  | error e => exact he e _ _
  | ok b =>
    simp only
    cases (P.unmarshal b).bind SealedUser.ofJ with
    | none => exact he _ _ _
    | some su =>
      refine ⟨fun e => he e _ _, fun m => ?_⟩
      show (k (readAs User.ofJ (.ok (some m.san)))).Keeps grantsOf t x _ _
      cases hm : User.ofJ m.san with
      | none =>
        simp only [readAs, Option.bind_some, hm]
        exact he _ _ _
      | some u =>
        simp only [readAs, Option.bind_some, hm]
        exact hk _ u H' hH' hs (fun f => .inl) (fun f hf => .inr ⟨u, hm, hf⟩) fun g => user_san hm

theorem keeps_userOkI {K : Grant → Prop} {uid : GoString} {k : User → IProg R} {H : Outcome R ⊕ Eff → Prop}
    (hn : ∀ D, ¬t.needs x (.inr (.get uid dtUser)) D) (hH : Unended H)
    (hk : ∀ (K' : Grant → Prop) u H', Unended H' → (∀ s, H s → H' s) → (∀ f, K f → K' f) → (∀ f, u.Says f → K' f) →
      (∀ g, u.groups.has g = true → sanitize g = g) → (k u).Keeps grantsOf t x K' H') : (userOkI P uid k).Keeps grantsOf t x K H :=
  keeps_userI hn hH (fun _ _ _ => trivial) hk

/-- The request with which a user is stored. -/
def userSent (uid : GoString) (update : Bool) (d : Bytes) : Eff := if update then .update uid dtUser d else .put uid dtUser d

theorem keeps_putUserI {K : Grant → Prop} {uid : GoString} {u : User} {update : Bool} {res : R} {H : Outcome R ⊕ Eff → Prop}
    (hn : ∀ s, t.Met x s K) (hH : Unended H)
    (hs : ∀ f, { u with groups := u.groups.map sanList }.Says f → K f ∨ ∀ H' : Outcome R ⊕ Eff → Prop, (∀ s, H s → H' s) →
      (∃ d, H' (.inr (userSent uid update d))) → (∀ o, H' (.inl o) → (∃ e, o = .err e) ∨ o = .ok res) → t.brings x f H') :
    (putUserI uid u update res).Keeps grantsOf t x K H := by
  refine fun r => ⟨?_, IProg.keeps_after _ (Prog.sends_all (fun e => hn _) _) hH fun _ _ _ _ => hn _⟩
  rintro f ⟨v, hv, hf⟩
  rw [User.ofJ_toJ, Option.some.injEq] at hv
  subst hv
  refine (hs f hf).imp id fun h => ?_
  have key : ∀ (d : Bytes) (o : Option (Outcome R)), (∀ a, o = some a → (∃ e, a = .err e) ∨ a = .ok res) →
      t.brings x f fun s => H s ∨ s = .inr (userSent uid update d) ∨ ∃ a, o = some a ∧ s = .inl a := by
    refine fun d o ho => h _ (fun s => .inl) ⟨d, .inr (.inl rfl)⟩ fun a ha => ?_
    rcases ha with ha | ha | ⟨b, hb, hs⟩
    · exact (hH a ha).elim
    · exact nomatch ha
    · cases hs; exact ho a hb
  have k0 : ∀ d, t.brings x f (plus H (.inr (userSent uid update d))) := fun d => by
    have := key d none nofun
    simp only [reduceCtorEq, false_and, exists_false, or_false] at this
    exact this
  have k1 : ∀ d a, ((∃ e, a = .err e) ∨ a = .ok res) → t.brings x f (plus (plus H (.inr (userSent uid update d))) (.inl a)) := fun d a ha => by
    have := key d (some a) (fun b hb => Option.some.inj hb ▸ ha)
    simp only [Option.some.injEq, exists_eq_left', ← or_assoc] at this
    exact this
  cases update with
  | true =>
    refine ⟨k0 _, fun r => ?_⟩
    cases r with
    | error e => exact k1 _ _ (.inl ⟨_, rfl⟩)
    | ok _ => exact k1 _ _ (.inr rfl)
  | false =>
    refine ⟨k0 _, fun r => ?_⟩
    cases r with
    | error e => exact k1 _ _ (.inl ⟨_, rfl⟩)
    | ok _ => exact k1 _ _ (.inr rfl)

theorem keeps_putGroup {F : Type} {facts : Bytes → J → F → Prop} {t : Terms X R F} (L : P.Laws) {s : Standalone} {K : F → Prop}
    {gid : GoString} {g : Group} {k : Unit → IProg R} {H : Outcome R ⊕ Eff → Prop} (hn : ∀ e, t.Met x (.inr e) K) (hH : Unended H)
    (hk : ∀ H', Unended H' → (∀ s, H s → H' s) → (∃ d, H' (.inr (.put gid dtGroup d))) → (k ()).Keeps facts t x K H') :
    (IProg.after (s.putGroup P gid g) k).Keeps facts t x K H := by
  simp only [Standalone.putGroup, Group.seal, Cryptor.encrypt_eq L, Prog.bind_eq, Prog.pure_eq, randBytes, Prog.bind, ioPut]
  refine fun _ _ => ⟨hn _, fun r => ?_⟩
  cases r with
  | error e => trivial
  | ok _ => exact hk _ (hH.plus _) (fun s => .inl) ⟨_, .inr rfl⟩

end

/-- Who holds the token. -/
def holderProg (P : Prims) (s : Standalone) (t : GoString) : Prog GoString :=
  match tokenFromString P t with
  | .error _ => .err .idNotAuthenticated
  | .ok st => (st.unseal P s.tokenCryptor).attempt fun r => match r with
    | .error _ => .err .idNotAuthenticated
    | .ok p => .ret p.plaintext.bytes

theorem getIdentity_eq (P : Prims) (s : Standalone) (t : GoString) : s.getIdentity P t = (holderProg P s t).bind fun u =>
    (s.getUser P u).bind fun user => (s.fetchGroups P (user.groups.getD [])).bind fun gs => .ret ⟨u, user.scopes, gs⟩ := by
  rw [Standalone.getIdentity, holderProg]
  cases tokenFromString P t with
  | error e => rfl
  | ok st =>
    simp only [Prog.attempt_bind]
    congr 1; funext r
    cases r <;> rfl

theorem does_holder {P : Prims} {s : Standalone} {t : GoString} {Q : Eff → Prop} (hQ : Q .now) :
    (holderProg P s t).Does (Sum.elim (fun u => holder P s t = some u) Q) := by
  rw [holderProg]
  unfold holder
  cases tokenFromString P t with
  | error e => trivial
  | ok st =>
    simp only [SealedToken.unseal, timeNow, Prog.bind_eq, Prog.pure_eq, Prog.bind, Prog.attempt]
    refine ⟨hQ, fun now => ?_⟩
    simp only
    by_cases hb : st.expiryTime.before now = true
    · simp only [hb, if_true]; trivial
    · simp only [hb]
      cases s.tokenCryptor.decrypt P J.toBytes (.ofTime P st.expiryTime) st.wrappedKey.bytes st.ciphertext.bytes with
      | error e => trivial
      | ok p => exact rfl

theorem does_fetchGroups {P : Prims} {s : Standalone} {Q : Eff → Prop} (hQ : ∀ g, Q (.get g dtGroup)) (l : List GoString) :
    (s.fetchGroups P l).Does (Sum.elim (fun gs => gs.map Prod.fst = l) Q) := by
  induction l with
  | nil => exact rfl
  | cons g l ih =>
    rw [Standalone.fetchGroups]
    refine Prog.does_bind ?_ fun gr => ?_
    · rw [Standalone.getGroup, ioGet]
      refine ⟨hQ g, fun r => ?_⟩
      exact Prog.sends_bind (by cases r <;> trivial) fun _ => by split <;> [trivial; (cases SealedGroup.unseal P _ _ <;> trivial)]
    · have : ∀ p : Prog (List (GoString × AccessGroup)), p.Does (Sum.elim (fun gs => gs.map Prod.fst = l) Q) →
          (p.bind fun rest => Prog.ret ((g, (⟨g, gr.scopes⟩ : AccessGroup)) :: rest)).Does
            (Sum.elim (fun gs => gs.map Prod.fst = g :: l) Q) := by
        intro p hp
        induction p with
        | op e c ih => exact ⟨hp.1, fun r => ih r (hp.2 r)⟩
        | ret a => exact congrArg (g :: ·) hp
        | _ => trivial
      exact this _ ih

/-- Identifying the caller. -/
def callerI (P : Prims) (s : Standalone) (t : GoString) (k : Identity → IProg DirOut) : IProg DirOut :=
  .after (holderProg P s t) fun u => userOkI P u fun user => .after (s.fetchGroups P (user.groups.getD [])) fun gs =>
    k ⟨u, user.scopes, gs⟩

theorem fetchGroups_withUek (P : Prims) (s : Standalone) (uek : BytesN 32) (l : List GoString) :
    (s.withUek uek).fetchGroups P l = s.fetchGroups P l := by
  induction l with
  | nil => rfl
  | cons g l ih => rw [Standalone.fetchGroups, Standalone.fetchGroups, ih]; rfl

theorem expand_callerI (P : Prims) (s : Standalone) (uek : BytesN 32) (t : GoString) (k : Identity → IProg DirOut) :
    (callerI P s t k).expand P uek = ((s.withUek uek).getIdentity P t).bind fun i => (k i).expand P uek := by
  rw [callerI, IProg.expand_after, getIdentity_eq]
  simp only [expand_userOkI P s, IProg.expand_after, fetchGroups_withUek, Prog.bind_assoc, Prog.ret_bind]
  rfl

theorem keeps_callerI {P : Prims} {s : Standalone} {T : Terms DirCall DirOut Grant} {x : DirCall} {t : GoString}
    {k : Identity → IProg DirOut} (hn : ∀ e, changing e = false → ∀ D, ¬T.needs x (.inr e) D)
    (hk : ∀ (K : Grant → Prop) i H, Unended H → holder P s t = some i.id → K (.scopes i.scopes) →
      (∀ g ∈ i.groups.map Prod.fst, K (.member g)) → (k i).Keeps grantsOf T x K H) :
    (callerI P s t k).Keeps grantsOf T x (fun _ => False) fun _ => False := by
  refine IProg.keeps_afterwards (does_holder (Q := fun e => T.Met x (.inr e) _) fun D hD => (hn _ rfl D hD).elim) nofun fun u H hu hH _ => ?_
  refine keeps_userOkI (fun D => hn _ rfl D) hH fun K user H hH _ _ hs _ => ?_
  refine IProg.keeps_afterwards (does_fetchGroups (Q := fun e => T.Met x (.inr e) _) (fun g D hD => (hn _ rfl D hD).elim) _) hH fun gs H hgs hH _ => ?_
  refine hk K ⟨u, user.scopes, gs⟩ H hH hu (hs _ rfl) fun g hg => hs _ ?_
  rw [hgs] at hg
  show GoSet.has user.groups g = true
  cases hu : user.groups with
  | none => rw [hu] at hg; exact nomatch hg
  | some l => rw [hu] at hg; exact decide_eq_true hg

/-- A call with sealing and opening of users left open. -/
def grantI (P : Prims) (s : Standalone) : DirCall → IProg DirOut
  | .newUser sc => .after (newV4.bind fun uid => (D1.newUser P sc).bind fun r => .ret (uuidText uid, r)) fun x =>
      putUserI x.1 x.2.1 false (.user x.1 x.2.2)
  | .loginUser u p => userI P u fun r => match r with
      | .error _ => .err .idNotAuthenticated
      | .ok user => .after ((user.authenticate P p).mapErr .idNotAuthenticated) fun _ =>
          .lift ((newToken (some u) tokenValidity).bind fun tok => ((tok.seal P s.tokenCryptor).mapErr .idNotAuthenticated).bind fun st =>
            .ret (.token (st.string P) st.expiryTime.unix))
  | .changePassword u p => userI P u fun r => match r with
      | .error _ => .err .idNotAuthenticated
      | .ok user => .after ((user.changePassword P p).mapErr .idNotAuthenticated) fun x =>
          putUserI u x.1 true (.password x.2)
  | .newGroup t sc => callerI P s t fun i => .after newV4 fun gid =>
      .after (s.putGroup P (uuidText gid) (D1.newGroup sc)) fun _ => userOkI P i.id fun user =>
        .after (Prog.ofPanic (user.addGroups [uuidText gid])) fun user => putUserI i.id user true (.group (uuidText gid))
  | .addUser t u gs => callerI P s t fun i => .after (checkMembership i gs) fun _ => userOkI P u fun user =>
      .after (Prog.ofPanic (user.addGroups gs)) fun user => putUserI u user true .unit
  | .removeUser t u gs => callerI P s t fun i => .after (checkMembership i gs) fun _ => userOkI P u fun user =>
      putUserI u (user.removeGroups gs) true .unit
  | .deleteUser t u => callerI P s t fun _ => .lift ((ioDelete .io u dtUser).bind fun _ => .ret .unit)
  | .getIdentity t => callerI P s t fun i => .ret (.identity i)

theorem expand_grantI {P : Prims} (L : P.Laws) (s : Standalone) (uek : BytesN 32) (c : DirCall) :
    (grantI P s c).expand P uek = dirCall P (s.withUek uek) c := by
  cases c with
  | newUser sc =>
    simp only [grantI, IProg.expand_after, expand_putUserI L s, dirCall, Standalone.newUser, Prog.bind_eq, Prog.pure_eq,
      Prog.bind_assoc, Prog.ret_bind]
  | loginUser u p =>
    rw [grantI, expand_userI P s, dirCall, loginUser_eq, Prog.bind_assoc, Prog.mapErr, Prog.attempt_bind]
    congr 1; funext r
    cases r with
    | error e => rfl
    | ok user =>
      simp only [IProg.expand_after, IProg.expand_lift, Prog.ret_bind, Prog.bind_assoc]
      rfl
  | changePassword u p =>
    rw [grantI, expand_userI P s, dirCall, Standalone.changeUserPassword]
    simp only [Prog.bind_eq, Prog.pure_eq, Prog.bind_assoc, Prog.mapErr, Prog.attempt_bind]
    congr 1; funext r
    cases r with
    | error e => rfl
    | ok user =>
      simp only [IProg.expand_after, expand_putUserI L s, Prog.ret_bind, Prog.attempt_bind]
  | newGroup t sc =>
    simp only [grantI, expand_callerI, IProg.expand_after, expand_userOkI P s, expand_putUserI L s, dirCall,
      Standalone.newGroup, Prog.bind_eq, Prog.pure_eq, Prog.bind_assoc, Prog.ret_bind]
    rfl
  | addUser t u gs =>
    simp only [grantI, expand_callerI, IProg.expand_after, expand_userOkI P s, expand_putUserI L s, dirCall,
      Standalone.addUserToGroups, Prog.bind_eq, Prog.pure_eq, Prog.bind_assoc, Prog.ret_bind]
  | removeUser t u gs =>
    simp only [grantI, expand_callerI, IProg.expand_after, expand_userOkI P s, expand_putUserI L s, dirCall,
      Standalone.removeUserFromGroups, Prog.bind_eq, Prog.pure_eq, Prog.bind_assoc, Prog.ret_bind]
  | deleteUser t u =>
    simp only [grantI, expand_callerI, IProg.expand_lift, dirCall, Standalone.deleteUser, Prog.bind_eq, Prog.pure_eq, Prog.bind_assoc,
      Prog.ret_bind]
  | getIdentity t => simp only [grantI, expand_callerI, IProg.expand, dirCall]

theorem compare_generated (P : Prims) (p : GoString) (salt : BytesN saltLength) :
    comparePassword P p (salt.1 ++ P.pbkdf2 p salt.1) = some true := by
  rw [comparePassword, if_neg (by rw [List.length_append, salt.2]; omega)]
  simp [List.take_left' (i := saltLength) salt.2, List.drop_left' (i := saltLength) salt.2]

theorem does_generate {P : Prims} {Q : Eff → Prop} (hQ : ∀ n, Q (.rand n)) :
    (generatePassword P).Does (Sum.elim (fun x => comparePassword P x.1 x.2 = some true) Q) := by
  rw [generatePassword]
  refine ⟨hQ _, fun r => ?_⟩
  cases r with
  | none => trivial
  | some pw =>
    refine ⟨hQ _, fun r => ?_⟩
    cases r with
    | none => trivial
    | some salt => exact compare_generated P _ salt

theorem does_authenticate {P : Prims} {E : Eff → Prop} (u : User) (p : GoString) :
    (u.authenticate P p).Does (Sum.elim (fun _ => comparePassword P p u.saltAndHash.bytes = some true) E) := by
  rw [User.authenticate]
  cases h : comparePassword P p u.saltAndHash.bytes with
  | none => trivial
  | some b => cases b <;> [trivial; exact rfl]

theorem does_changePassword {P : Prims} {E : Eff → Prop} (hE : ∀ n, E (.rand n)) (u : User) (p : GoString) :
    (u.changePassword P p).Does (Sum.elim (fun x => comparePassword P p u.saltAndHash.bytes = some true ∧
      ∃ h, x.1 = { u with saltAndHash := some h } ∧ comparePassword P x.2 h = some true) E) := by
  rw [User.changePassword]
  exact Prog.does_map (does_authenticate u p) fun _ h => Prog.does_map (does_generate hE) fun x hx => ⟨h, x.2, rfl, hx⟩

theorem checkMembership_does {i : Identity} {gs : List GoString} {E : Eff → Prop} :
    (checkMembership i gs).Does (Sum.elim (fun _ => ∀ g ∈ gs, g = i.id ∨ g ∈ i.groups.map Prod.fst) E) := by
  rw [checkMembership]
  split
  · next h =>
    intro g hg
    simp only [List.all_eq_true, decide_eq_true_eq] at h
    have := h g hg
    simpa [Identity.getIDs, mem_foldl_setInsert] using this
  · trivial

/-- What a user says whose groups were read, after groups were added. -/
theorem says_added {u v : User} {gs : List GoString} (h : u.addGroups gs = some v) (hs : ∀ g, u.groups.has g = true → sanitize g = g)
    {f : Grant} (hf : { v with groups := v.groups.map sanList }.Says f) : u.Says f ∨ ∃ g ∈ gs, f = .member (sanitize g) := by
  rw [User.addGroups, Option.map_eq_some_iff] at h
  obtain ⟨s, h1, rfl⟩ := h
  cases f with
  | scopes x => exact .inl hf
  | password x => exact .inl hf
  | member g =>
    cases hg : u.groups with
    | none =>
      rw [hg] at h1
      cases gs with
      | nil => cases h1; exact nomatch hf
      | cons a gs => exact nomatch h1
    | some l =>
      rw [hg, addToSet_some, Option.some.injEq] at h1
      subst h1
      have hf : decide (g ∈ sanList (gs.foldl setInsert l)) = true := hf
      rw [decide_eq_true_eq, mem_sanList] at hf
      obtain ⟨y, hy, rfl⟩ := hf
      rcases (mem_foldl_setInsert _ _ _).mp hy with hy | hy
      · left
        have hy : u.groups.has y = true := by rw [hg]; exact decide_eq_true hy
        show u.groups.has (sanitize y) = true
        rw [hs y hy]
        exact hy
      · exact .inr ⟨y, hy, rfl⟩

theorem says_removed {u : User} {gs : List GoString} (hs : ∀ g, u.groups.has g = true → sanitize g = g)
    {f : Grant} (hf : { u.removeGroups gs with groups := (u.removeGroups gs).groups.map sanList }.Says f) : u.Says f := by
  cases f with
  | scopes x => exact hf
  | password x => exact hf
  | member g =>
    cases hg : u.groups with
    | none =>
      have hf : GoSet.has ((u.removeGroups gs).groups.map sanList) g = true := hf
      rw [User.removeGroups, hg] at hf
      exact nomatch hf
    | some l =>
      have hf : GoSet.has ((u.removeGroups gs).groups.map sanList) g = true := hf
      rw [User.removeGroups, hg] at hf
      have hf : decide (g ∈ sanList (gs.foldl setErase l)) = true := hf
      rw [decide_eq_true_eq, mem_sanList] at hf
      obtain ⟨y, hy, rfl⟩ := hf
      have hy : u.groups.has y = true := by rw [hg]; exact decide_eq_true ((mem_foldl_setErase _ _ _).mp hy).1
      show u.groups.has (sanitize y) = true
      rw [hs y hy]
      exact hy

theorem keeps_grantI {P : Prims} (L : P.Laws) (s : Standalone) (x : DirCall) :
    (grantI P s x).Keeps grantsOf (userTerms P s) x (fun _ => False) fun _ => False := by
  cases x with
  | newUser sc =>
    refine IProg.keeps_afterwards (Q := fun x => ∃ h, x.2.1 = ⟨some h, scopeUnion sc, some []⟩ ∧ comparePassword P x.2.2 h = some true) ?_
      nofun ?_
    · refine Prog.does_map (Q := fun _ => True) (Prog.does_all (fun x => by cases x <;> [trivial; exact fun D hD => nomatch hD]) _) fun uid _ => ?_
      refine Prog.does_map (Prog.does_map (does_generate (fun n D hD => nomatch hD)) fun x hx => ?_) fun x hx => hx
      exact ⟨x.2, rfl, hx⟩
    · rintro ⟨uid, u, p⟩ H ⟨h, hu, hp⟩ hH -
      simp only at hu hp
      subst hu
      refine keeps_putUserI (fun e D hD => nomatch hD) hH (fun f hf => .inr fun H' _ hsent hend => ?_)
      cases f with
      | scopes x => exact ⟨by rw [← (show scopeUnion sc = x from hf), scopeUnion_eq], uid, hsent⟩
      | member g => exact nomatch hf
      | password x =>
        obtain rfl : h = x := hf
        refine ⟨⟨uid, hsent⟩, fun v q hv => ?_⟩
        rcases hend _ hv with ⟨_, h⟩ | h
        · exact nomatch h
        · cases h; exact hp
  | loginUser u p =>
    rw [grantI]
    refine keeps_userI ?_ nofun ?_ ?_
    · exact fun D hD => nomatch hD.1
    · exact fun _ _ _ => trivial
    intro K user H hH _ _ hs _
    refine IProg.keeps_afterwards (Prog.does_mapErr _ (does_authenticate user p)) hH fun _ _ hc _ _ => ?_
    have hm : ∀ s', (userTerms P s).Met (.loginUser u p) s' K := fun s' D hD => ⟨.password user.saltAndHash.bytes, by rw [hD.2]; exact hc, hs _ rfl⟩
    exact IProg.keeps_lift (Prog.does_all hm _)
  | changePassword u p =>
    rw [grantI]
    refine keeps_userI ?_ nofun ?_ ?_
    · exact fun D hD => nomatch hD.1
    · exact fun _ _ _ => trivial
    intro K user H hH _ _ hs hsan
    refine IProg.keeps_afterwards (Prog.does_mapErr _ (does_changePassword (fun n D hD => nomatch hD.1) user p)) hH fun x H hx hH _ => ?_
    obtain ⟨hc, h, hx, hp⟩ := hx
    have hm : ∀ s', (userTerms P s).Met (.changePassword u p) s' K := fun s' D hD => ⟨.password user.saltAndHash.bytes, by rw [hD.2]; exact hc, hs _ rfl⟩
    refine keeps_putUserI hm hH (fun f hf => ?_)
    rw [hx] at hf
    cases f with
    | scopes y => exact .inl (hs _ hf)
    | member g =>
      refine .inl (hs _ ?_)
      have hf : GoSet.has (user.groups.map sanList) g = true := hf
      cases hg : user.groups with
      | none => rw [hg] at hf; exact nomatch hf
      | some l =>
        rw [hg] at hf
        have hf : decide (g ∈ sanList l) = true := hf
        rw [decide_eq_true_eq, mem_sanList] at hf
        obtain ⟨y, hy, rfl⟩ := hf
        have hy : user.groups.has y = true := by rw [hg]; exact decide_eq_true hy
        show user.groups.has (sanitize y) = true
        rw [hsan y hy]
        exact hy
    | password y =>
      obtain rfl : h = y := hf
      refine .inr fun H' _ hsent hend => ⟨hsent, fun q hv => ?_⟩
      rcases hend _ hv with ⟨_, h⟩ | h
      · exact nomatch h
      · cases h; exact hp
  | newGroup t sc =>
    rw [grantI]
    refine keeps_callerI ?_ ?_
    · exact fun _ _ _ hD => nomatch hD
    intro K i H hH _ _ _
    refine IProg.keeps_after _ (Prog.sends_all (fun e D hD => nomatch hD) _) hH fun gid H hH _ => ?_
    refine keeps_putGroup L (fun e D hD => nomatch hD) hH fun H hH _ hp => ?_
    refine keeps_userOkI (fun _ hD => nomatch hD) hH fun K user H hH hsub _ hs hsan => ?_
    cases ha : user.addGroups [uuidText gid] with
    | none => trivial
    | some v =>
      refine keeps_putUserI (fun e D hD => nomatch hD) hH (fun f hf => ?_)
      rcases says_added ha hsan hf with hf | ⟨g, hg, rfl⟩
      · exact .inl (hs f hf)
      · obtain rfl := List.mem_singleton.mp hg
        refine .inr fun H' hsub' hsent _ => ⟨?_, i.id, hsent⟩
        rw [sanitize_uuidText]
        exact hp.imp fun d hd => hsub' _ (hsub _ hd)
  | addUser t u gs =>
    rw [grantI]
    refine keeps_callerI ?_ ?_
    · exact fun e he _ hD => nomatch he.symm.trans hD.1
    intro K i H hH hi _ hm
    refine IProg.keeps_afterwards checkMembership_does hH fun _ H hc hH _ => ?_
    have hm : ∀ K', (∀ f, K f → K' f) → ∀ s', (userTerms P s).Met (.addUser t u gs) s' K' := by
      intro K' hK s' D hD
      obtain ⟨-, g, hg, hne, rfl⟩ := hD
      refine ⟨_, rfl, hK _ (hm g ?_)⟩
      exact (hc g hg).resolve_left fun h => hne (h ▸ hi)
    refine keeps_userOkI (fun _ hD => nomatch hD.1) hH fun K' user H hH _ hK hs hsan => ?_
    cases ha : user.addGroups gs with
    | none => trivial
    | some v =>
      refine keeps_putUserI (hm K' hK) hH (fun f hf => ?_)
      rcases says_added ha hsan hf with hf | ⟨g, hg, rfl⟩
      · exact .inl (hs f hf)
      · exact .inr fun H' _ hsent _ => ⟨⟨g, hg, rfl⟩, hsent⟩
  | removeUser t u gs =>
    rw [grantI]
    refine keeps_callerI ?_ ?_
    · exact fun e he _ hD => nomatch he.symm.trans hD.1
    intro K i H hH hi _ hm
    refine IProg.keeps_afterwards checkMembership_does hH fun _ H hc hH _ => ?_
    have hm : ∀ K', (∀ f, K f → K' f) → ∀ s', (userTerms P s).Met (.removeUser t u gs) s' K' := by
      intro K' hK s' D hD
      obtain ⟨-, g, hg, hne, rfl⟩ := hD
      refine ⟨_, rfl, hK _ (hm g ?_)⟩
      exact (hc g hg).resolve_left fun h => hne (h ▸ hi)
    refine keeps_userOkI (fun _ hD => nomatch hD.1) hH fun K' user H hH _ hK hs hsan => ?_
    exact keeps_putUserI (hm K' hK) hH (fun f hf => .inl (hs f (says_removed hsan hf)))
  | deleteUser t u =>
    rw [grantI]
    refine keeps_callerI ?_ ?_
    · exact fun _ _ _ hD => nomatch hD
    intro K i H _ _ _ _
    exact IProg.keeps_lift (Prog.does_all (fun s' D hD => nomatch hD) _)
  | getIdentity t =>
    rw [grantI]
    refine keeps_callerI ?_ ?_
    · exact fun _ _ _ hD => nomatch hD
    intro K i H _ _ hsc hg D hD
    rcases hD with rfl | ⟨g, hg', rfl⟩
    · exact ⟨_, rfl, hsc⟩
    · exact ⟨_, rfl, hg g hg'⟩

/-- C102: whoever has scopes, memberships or passwords accepted that were not given out tells wrapped keys from other keys, or
forges AES-GCM ciphertexts. -/
theorem C102_users {P : Prims} (L : P.Laws) (s : Standalone) (A : Spy DirCall DirOut) (n : Nat) :
    chance (trialGame (fun uek => dirCall P (s.withUek uek)) (userTerms P s) A n) ≤
      wrapGap P (unwrapAttack P (grantI P s) (userTerms P s) A n) + forgeGap P (forgeAttack P (grantI P s) (userTerms P s) A n) := by
  have h := trial_chance L (keeps_grantI L s) A n
  simp only [expand_grantI L s] at h
  exact h

section
variable {R : Type} {P : Prims}

theorem bursts_get {β : Type} {b n : Nat} {id : Bytes} {dt : DataType} {c : (Eff.get id dt).Resp → Prog β} {k : β → IProg R} (hk : ∀ a, (k a).Bursts b b) :
    (IProg.after (.op (.get id dt) c) k).Bursts b n := by
  cases n <;> exact fun r => IProg.bursts_after (Nat.le_refl b) _ hk

theorem bursts_userI {n : Nat} {uid : GoString} {k : Except Err User → IProg R} (hk : ∀ r, (k r).Bursts 2 1) :
    (userI P uid k).Bursts 2 n := by
  refine bursts_get fun r => ?_
  cases r with
  | error e => exact (hk _).mono (by omega)
  | ok b =>
    simp only
    cases (P.unmarshal b).bind SealedUser.ofJ with
    | none => exact (hk _).mono (by omega)
    | some su => exact fun r => hk _

theorem bursts_userOkI {n : Nat} {uid : GoString} {k : User → IProg R} (hk : ∀ r, (k r).Bursts 2 1) :
    (userOkI P uid k).Bursts 2 n :=
  bursts_userI fun r => by cases r <;> [trivial; exact hk _]

theorem bursts_putUserI {uid : GoString} {u : User} {update : Bool} (r : R) : (putUserI uid u update r).Bursts 2 1 :=
  fun x => by cases update <;> exact fun r => IProg.bursts_after (Nat.le_refl 2) _ fun _ => trivial

end

theorem bursts_callerI {P : Prims} {s : Standalone} {t : GoString} {k : Identity → IProg DirOut} (hk : ∀ i, (k i).Bursts 2 1) :
    (callerI P s t k).Bursts 2 2 :=
  IProg.bursts_after (Nat.le_refl 2) _ fun _ => bursts_userOkI fun _ => IProg.bursts_after (by omega) _ fun _ => hk _

theorem bursts_grantI (P : Prims) (s : Standalone) (x : DirCall) : (grantI P s x).Bursts 2 2 := by
  cases x with
  | newUser sc => exact IProg.bursts_after (Nat.le_refl 2) _ fun x => (bursts_putUserI _).mono (by omega)
  | loginUser u p =>
    rw [grantI]
    refine bursts_userI fun r => ?_
    cases r with
    | error e => trivial
    | ok user => exact IProg.bursts_after (by omega) _ fun _ => IProg.bursts_lift (by omega) _
  | changePassword u p =>
    rw [grantI]
    refine bursts_userI fun r => ?_
    cases r with
    | error e => trivial
    | ok user => exact IProg.bursts_after (by omega) _ fun _ => bursts_putUserI _
  | newGroup t sc =>
    rw [grantI]
    exact bursts_callerI fun i => IProg.bursts_after (by omega) _ fun _ => IProg.bursts_after (by omega) _ fun _ => bursts_userOkI fun user =>
      IProg.bursts_after (by omega) _ fun _ => bursts_putUserI _
  | addUser t u gs =>
    rw [grantI]
    exact bursts_callerI fun i => IProg.bursts_after (by omega) _ fun _ => bursts_userOkI fun user =>
      IProg.bursts_after (by omega) _ fun _ => bursts_putUserI _
  | removeUser t u gs =>
    rw [grantI]
    exact bursts_callerI fun i => IProg.bursts_after (by omega) _ fun _ => bursts_userOkI fun user => bursts_putUserI _
  | deleteUser t u => rw [grantI]; exact bursts_callerI fun i => IProg.bursts_lift (by omega) _
  | getIdentity t => rw [grantI]; exact bursts_callerI fun i => trivial

/-- C102: the attacks ask at most two questions for each move of the adversary. -/
theorem C102_questions (P : Prims) (s : Standalone) (A : Spy DirCall DirOut) (n : Nat) :
    (unwrapAttack P (grantI P s) (userTerms P s) A n).Asks (2 * n) ∧ (forgeAttack P (grantI P s) (userTerms P s) A n).Asks (2 * n) :=
  ⟨bursts_unwrapAttack P _ (bursts_grantI P s) A n, bursts_forgeAttack P _ (bursts_grantI P s) A n⟩

/-- Identifying oneself with a token and a user record that are opened. -/
theorem getIdentity_user {P : Prims} (L : P.Laws) (s : Standalone) {str u : GoString} {t : SealedToken} {su : SealedUser} {user : User}
    (ht : tokenFromString P str = .ok t)
    (hd : s.tokenCryptor.decrypt P J.toBytes (.ofTime P t.expiryTime) t.wrappedKey.bytes t.ciphertext.bytes = .ok (some u))
    (hs : sanitize su.uid = su.uid) (hu : su.unseal P s.userCryptor = .ok user) :
    ∃ k, dirCall P s (.getIdentity str) = .op .now (fun now =>
      if t.expiryTime.before now then .err .idNotAuthenticated else .op (.get u dtUser) k) ∧
      k (.ok su.toJ.render) = (s.fetchGroups P (user.groups.getD [])).bind fun gs => .ret (.identity ⟨u, user.scopes, gs⟩) := by
  have hr : (P.unmarshal su.toJ.render).bind SealedUser.ofJ = some su := by
    rw [L.unmarshal_render, Option.bind_some, SealedUser.ofJ_toJ, hs]
  obtain ⟨k, hk, hk'⟩ : ∃ k, (s.getUser P u).bind (fun user => (s.fetchGroups P (user.groups.getD [])).bind fun groups =>
      .ret (DirOut.identity ⟨u, user.scopes, groups⟩)) = .op (.get u dtUser) k ∧
      k (.ok su.toJ.render) = (s.fetchGroups P (user.groups.getD [])).bind fun gs => .ret (.identity ⟨u, user.scopes, gs⟩) := by
    refine ⟨_, rfl, ?_⟩
    simp only [Prog.bind, Prog.ret_bind, hr, hu, Prog.ofExcept]
  refine ⟨k, ?_, hk'⟩
  rw [dirCall, Standalone.getIdentity, ht]
  simp only [SealedToken.unseal, Prog.bind_eq, Prog.pure_eq, timeNow, Prog.bind, Prog.attempt]
  congr 1; funext now
  split
  · rfl
  · rw [hd, ← hk]
    simp only [Prog.ofExcept, Prog.ret_bind, Prog.attempt, Prog.bind_assoc, NBytes.bytes, Option.getD_some]

/-- A user with all scopes that was made up. -/
def hollowUser : SealedUser :=
  ⟨[65], some (madeUp (.str [65]) (⟨none, scopeAll, some []⟩ : User).toJ).2, some (madeUp (.str [65]) (⟨none, scopeAll, some []⟩ : User).toJ).1⟩

theorem unseal_hollowUser (uek : Bytes) : hollowUser.unseal hollowPrims ⟨uek⟩ = .ok ⟨none, scopeAll, some []⟩ :=
  decrypt_madeUp uek User.ofJ (.str [65]) _ (by rw [User.ofJ_toJ]; rfl)

/-- The adversary holds a token for a user, and answers with a made-up record of the user. -/
def userForger : Spy DirCall DirOut where
  answer _ e := match e with
    | .get _ _ => .ok hollowUser.toJ.render
    | e => (Store.exec (fun _ _ => none) (fun _ => none) ⟨0, 0⟩ e).1
  move
    | 3, _ => .begin (.getIdentity (hollowToken.string hollowPrims))
    | _, _ => .step 0
  guess _ := false

theorem C102_case (s : Standalone) :
    chance (trialGame (fun uek => dirCall hollowPrims (s.withUek uek)) (userTerms hollowPrims s) userForger 4) = 1 := by
  have h : ∀ uek, userForger.trial (dirCall hollowPrims (s.withUek uek)) (userTerms hollowPrims s) 4 [] [] [] = PMF.pure true := by
    intro uek
    obtain ⟨t, ht, hw, hc, hn, he⟩ := C25_roundtrip hollowLaws hollowToken
    have hd : (s.withUek uek).tokenCryptor.decrypt hollowPrims J.toBytes (.ofTime hollowPrims t.expiryTime)
        t.wrappedKey.bytes t.ciphertext.bytes = .ok (some [1]) := by
      have : J.ofTime hollowPrims t.expiryTime = J.ofTime hollowPrims ⟨0, 0⟩ := congrArg J.str he
      rw [this, hw, hc]
      exact decrypt_madeUp s.tokenCryptor.kwp J.toBytes (.ofTime hollowPrims ⟨0, 0⟩) (.ofBytes (some [1]))
        (by rw [san_ofBytes, toBytes_ofBytes])
    obtain ⟨k, hp, hk⟩ := getIdentity_user hollowLaws (s.withUek uek) (su := hollowUser) ht hd (by decide) (unseal_hollowUser uek.1)
    have hb : t.expiryTime.before ⟨0, 0⟩ = false := by
      have : t.expiryTime.ns = 0 := hn
      simp [GoTime.before, this]
    rw [solo_begin (x := .getIdentity (hollowToken.string hollowPrims)) rfl, hp]
    have ha : (if t.expiryTime.before (userForger.answer [] .now) then .err .idNotAuthenticated
        else .op (.get [1] dtUser) k) = Prog.op (.get [1] dtUser) k := if_neg (by rw [Bool.not_eq_true]; exact hb)
    rw [solo_op rfl (by intro n h; exact nomatch h) (by intro D h; exact nomatch h), ha]
    have ha : ∀ v, k (userForger.answer v (.get [1] dtUser)) = .ret (.identity ⟨[1], scopeAll, []⟩) := fun v => hk
    rw [solo_op rfl (by intro n h; exact nomatch h) (by intro D h; exact nomatch h), ha]
    exact solo_ret rfl (.inl rfl) fun f H hf => by cases f <;> exact hf
  simp only [trialGame, h, PMF.bind_const, chance_true]

/-! ## C103 -/

/-- The provider with a given key for groups. -/
def Standalone.withGek (s : Standalone) (gek : BytesN 32) : Standalone := { s with groupCryptor := ⟨gek.1⟩ }

/-- `NewGroup` gives the scopes it is called with, as soon as it sends a group to be stored; `GetIdentity` should return only groups with scopes that were given. -/
def groupTerms : Terms DirCall DirOut Scope where
  brings
    | .newGroup _ sc, x, H => x = allScopes sc ∧ ∃ g d, H (.inr (.put g dtGroup d))
    | _, _, _ => False
  needs
    | .getIdentity _, .inl (.identity i), D => ∃ g ∈ i.groups, D = (· = g.2.scopes)
    | _, _, _ => False

/-! ## C103: proof -/

section
variable {R : Type}

/-- Reading a group. -/
def groupI (P : Prims) (gid : GoString) (k : Group → IProg R) : IProg R :=
  .after (ioGet (onNotFound .groupNotFound) gid dtGroup) fun b => match (P.unmarshal b).bind SealedGroup.ofJ with
    | none => .err .json
    | some sg => .read Group.ofJ (J.str sg.gid).render sg.wrappedKey.bytes sg.ciphertext.bytes k

theorem expand_groupI (P : Prims) (s : Standalone) (gek : BytesN 32) (gid : GoString) (k : Group → IProg R) :
    (groupI P gid k).expand P gek = ((s.withGek gek).getGroup P gid).bind fun g => (k g).expand P gek := by
  rw [groupI, IProg.expand_after, Standalone.getGroup, Prog.bind_eq, Prog.bind_assoc]
  congr 1; funext b
  cases (P.unmarshal b).bind SealedGroup.ofJ with
  | none => rfl
  | some sg => exact IProg.expand_read P gek Group.ofJ _ _ _ k

/-- Reading the groups of a user. -/
def fetchI (P : Prims) : List GoString → (List (GoString × AccessGroup) → IProg R) → IProg R
  | [], k => k []
  | g :: l, k => groupI P g fun gr => fetchI P l fun rest => k ((g, ⟨g, gr.scopes⟩) :: rest)

theorem expand_fetchI (P : Prims) (s : Standalone) (gek : BytesN 32) (l : List GoString) (k : List (GoString × AccessGroup) → IProg R) :
    (fetchI P l k).expand P gek = ((s.withGek gek).fetchGroups P l).bind fun gs => (k gs).expand P gek := by
  induction l generalizing k with
  | nil => rfl
  | cons g l ih =>
    rw [fetchI, expand_groupI P s, Standalone.fetchGroups]
    simp only [ih, Prog.bind_eq, Prog.pure_eq, Prog.bind_assoc, Prog.ret_bind]

end

/-- The scopes in a box. -/
def scopesOf (_ : Bytes) (m : J) (f : Scope) : Prop := ∃ g, Group.ofJ m.san = some g ∧ g.scopes = f

theorem keeps_fetchI {R X : Type} {t : Terms X R Scope} {x : X} {P : Prims} (hn : ∀ g D, ¬t.needs x (.inr (.get g dtGroup)) D)
    (l : List GoString) : ∀ {K : Scope → Prop} {H : Outcome R ⊕ Eff → Prop} {k : List (GoString × AccessGroup) → IProg R}, Unended H →
      (∀ (K' : Scope → Prop) gs H', Unended H' → (∀ f, K f → K' f) → (∀ g ∈ gs, K' g.2.scopes) → (k gs).Keeps scopesOf t x K' H') →
      (fetchI P l k).Keeps scopesOf t x K H := by
  induction l with
  | nil => exact fun hH hk => hk _ [] _ hH (fun _ => id) (by simp)
  | cons g l ih =>
    intro K H k hH hk
    refine IProg.keeps_after _ ⟨fun D hD => (hn _ D hD).elim, fun r => by cases r <;> trivial⟩ hH fun b H hH _ => ?_
    cases (P.unmarshal b).bind SealedGroup.ofJ with
    | none => trivial
    | some sg =>
      refine IProg.keeps_read fun m gr hm => ih hH fun K' gs H hH hK hgs => hk K' _ H hH (fun f hf => hK f (.inl hf)) ?_
      intro y hy
      rcases List.mem_cons.mp hy with rfl | hy
      · exact hK _ (.inr ⟨gr, hm, rfl⟩)
      · exact hgs y hy

/-- Identifying the caller. -/
def memberI (P : Prims) (s : Standalone) (t : GoString) (k : Identity → IProg DirOut) : IProg DirOut :=
  .after ((holderProg P s t).bind fun u => (s.getUser P u).bind fun user => .ret (u, user)) fun x =>
    fetchI P (x.2.groups.getD []) fun gs => k ⟨x.1, x.2.scopes, gs⟩

theorem expand_memberI (P : Prims) (s : Standalone) (gek : BytesN 32) (t : GoString) (k : Identity → IProg DirOut) :
    (memberI P s t k).expand P gek = ((s.withGek gek).getIdentity P t).bind fun i => (k i).expand P gek := by
  rw [memberI, IProg.expand_after, getIdentity_eq]
  simp only [expand_fetchI P s, Prog.bind_assoc, Prog.ret_bind]
  rfl

theorem keeps_memberI {P : Prims} {s : Standalone} {T : Terms DirCall DirOut Scope} {x : DirCall} {t : GoString}
    {k : Identity → IProg DirOut} (hn : ∀ e D, ¬T.needs x (.inr e) D)
    (hk : ∀ (K : Scope → Prop) i H, Unended H → (∀ g ∈ i.groups, K g.2.scopes) → (k i).Keeps scopesOf T x K H) :
    (memberI P s t k).Keeps scopesOf T x (fun _ => False) fun _ => False :=
  IProg.keeps_after _ (Prog.sends_all (fun e D hD => (hn e D hD).elim) _) nofun fun _ _ hH _ =>
    keeps_fetchI (fun g D => hn _ D) _ hH fun K gs H hH _ hgs => hk K _ H hH hgs

/-- A call with sealing and opening of groups left open. -/
def scopeI (P : Prims) (s : Standalone) : DirCall → IProg DirOut
  | .newGroup t sc => memberI P s t fun i => .after newV4 fun gid => .box (D1.newGroup sc).toJ (J.str (uuidText gid)).render fun x =>
      .lift ((ioPut (onAlreadyExists .groupAlreadyExists) (uuidText gid) dtGroup
        (⟨uuidText gid, some x.2, some x.1⟩ : SealedGroup).toJ.render).bind fun _ => (s.getUser P i.id).bind fun user =>
          (Prog.ofPanic (user.addGroups [uuidText gid])).bind fun user => (s.putUser P i.id user true).bind fun _ =>
            .ret (.group (uuidText gid)))
  | .addUser t u gs => memberI P s t fun i => .lift ((checkMembership i gs).bind fun _ => (s.getUser P u).bind fun user =>
      (Prog.ofPanic (user.addGroups gs)).bind fun user => (s.putUser P u user true).bind fun _ => .ret .unit)
  | .removeUser t u gs => memberI P s t fun i => .lift ((checkMembership i gs).bind fun _ => (s.getUser P u).bind fun user =>
      (s.putUser P u (user.removeGroups gs) true).bind fun _ => .ret .unit)
  | .deleteUser t u => memberI P s t fun _ => .lift ((ioDelete .io u dtUser).bind fun _ => .ret .unit)
  | .getIdentity t => memberI P s t fun i => .ret (.identity i)
  | c => .lift (dirCall P s c)

theorem expand_scopeI {P : Prims} (L : P.Laws) (s : Standalone) (gek : BytesN 32) (c : DirCall) :
    (scopeI P s c).expand P gek = dirCall P (s.withGek gek) c := by
  cases c with
  | newGroup t sc =>
    simp only [scopeI, expand_memberI, IProg.expand_after, IProg.expand, IProg.expand_lift, dirCall,
      Standalone.newGroup, Standalone.putGroup, Group.seal, Cryptor.encrypt_eq L, Prog.bind_eq, Prog.pure_eq, Prog.bind_assoc, Prog.ret_bind]
    rfl
  | addUser t u gs =>
    simp only [scopeI, expand_memberI, IProg.expand_lift, dirCall, Standalone.addUserToGroups, Prog.bind_eq, Prog.pure_eq,
      Prog.bind_assoc, Prog.ret_bind]
    rfl
  | removeUser t u gs =>
    simp only [scopeI, expand_memberI, IProg.expand_lift, dirCall, Standalone.removeUserFromGroups, Prog.bind_eq, Prog.pure_eq,
      Prog.bind_assoc, Prog.ret_bind]
    rfl
  | deleteUser t u =>
    simp only [scopeI, expand_memberI, IProg.expand_lift, dirCall, Standalone.deleteUser, Prog.bind_eq, Prog.pure_eq, Prog.bind_assoc,
      Prog.ret_bind]
  | getIdentity t => simp only [scopeI, expand_memberI, IProg.expand, dirCall]
  | _ => simp only [scopeI, IProg.expand_lift]; rfl

theorem keeps_scopeI {P : Prims} (s : Standalone) (x : DirCall) :
    (scopeI P s x).Keeps scopesOf groupTerms x (fun _ => False) fun _ => False := by
  cases x with
  | newGroup t sc =>
    rw [scopeI]
    refine keeps_memberI ?_ ?_
    · exact fun e D hD => nomatch hD
    intro K i H hH _
    refine IProg.keeps_after _ (Prog.sends_all (fun e D hD => nomatch hD) _) hH fun gid H hH _ => fun r => ⟨?_, ?_⟩
    · rintro f ⟨g, hg, rfl⟩
      rw [Group.ofJ_toJ, Option.some.injEq] at hg
      subst hg
      exact .inr (IProg.soon_sent nofun fun H' _ h => ⟨scopeUnion_eq sc, _, _, h⟩)
    · exact IProg.keeps_lift (Prog.does_all (fun s' D hD => nomatch hD) _)
  | getIdentity t =>
    rw [scopeI]
    refine keeps_memberI ?_ ?_
    · exact fun e D hD => nomatch hD
    rintro K i H - hi D ⟨g, hg, rfl⟩
    exact ⟨_, rfl, hi g hg⟩
  | addUser t u gs =>
    rw [scopeI]
    refine keeps_memberI ?_ ?_
    · exact fun e D hD => nomatch hD
    exact fun K i _ _ _ => IProg.keeps_lift (Prog.does_all (fun s' D hD => nomatch hD) _)
  | removeUser t u gs =>
    rw [scopeI]
    refine keeps_memberI ?_ ?_
    · exact fun e D hD => nomatch hD
    exact fun K i _ _ _ => IProg.keeps_lift (Prog.does_all (fun s' D hD => nomatch hD) _)
  | deleteUser t u =>
    rw [scopeI]
    refine keeps_memberI ?_ ?_
    · exact fun e D hD => nomatch hD
    exact fun K i _ _ _ => IProg.keeps_lift (Prog.does_all (fun s' D hD => nomatch hD) _)
  | _ => exact IProg.keeps_lift (Prog.does_all (fun s' D hD => nomatch hD) _)

/-- C103: whoever has scopes of a group accepted that were not given to a group tells wrapped keys from other keys, or forges
AES-GCM ciphertexts. -/
theorem C103_groups {P : Prims} (L : P.Laws) (s : Standalone) (A : Spy DirCall DirOut) (n : Nat) :
    chance (trialGame (fun gek => dirCall P (s.withGek gek)) groupTerms A n) ≤
      wrapGap P (unwrapAttack P (scopeI P s) groupTerms A n) + forgeGap P (forgeAttack P (scopeI P s) groupTerms A n) := by
  have h := trial_chance L (keeps_scopeI (P := P) s) A n
  simp only [expand_scopeI L s] at h
  exact h

theorem bursts_fetchI {R : Type} {P : Prims} (l : List GoString) : ∀ {n : Nat} {k : List (GoString × AccessGroup) → IProg R}, n ≤ 2 →
    1 ≤ n → (∀ gs, (k gs).Bursts 2 1) → (fetchI P l k).Bursts 2 n := by
  induction l with
  | nil => exact fun _ h hk => (hk []).mono h
  | cons g l ih =>
    intro n k hn h1 hk
    refine bursts_get fun b => ?_
    cases (P.unmarshal b).bind SealedGroup.ofJ with
    | none => trivial
    | some sg =>
      intro r
      dsimp only
      cases readAs Group.ofJ r with
      | error e => trivial
      | ok gr => exact ih (by omega) (Nat.le_refl 1) fun gs => hk _

theorem bursts_memberI {P : Prims} {s : Standalone} {t : GoString} {k : Identity → IProg DirOut} (hk : ∀ i, (k i).Bursts 2 1) :
    (memberI P s t k).Bursts 2 2 :=
  IProg.bursts_after (Nat.le_refl 2) _ fun _ => bursts_fetchI _ (Nat.le_refl 2) (by omega) fun _ => hk _

theorem bursts_scopeI (P : Prims) (s : Standalone) (x : DirCall) : (scopeI P s x).Bursts 2 2 := by
  cases x with
  | newGroup t sc =>
    rw [scopeI]
    exact bursts_memberI fun i => IProg.bursts_after (by omega) _ fun gid => fun x => IProg.bursts_lift (Nat.zero_le 2) _
  | getIdentity t => rw [scopeI]; exact bursts_memberI fun i => trivial
  | addUser t u gs => rw [scopeI]; exact bursts_memberI fun i => IProg.bursts_lift (by omega) _
  | removeUser t u gs => rw [scopeI]; exact bursts_memberI fun i => IProg.bursts_lift (by omega) _
  | deleteUser t u => rw [scopeI]; exact bursts_memberI fun i => IProg.bursts_lift (by omega) _
  | _ => exact IProg.bursts_lift (Nat.le_refl 2) _

/-- C103: the attacks ask at most two questions for each move of the adversary. -/
theorem C103_questions (P : Prims) (s : Standalone) (A : Spy DirCall DirOut) (n : Nat) :
    (unwrapAttack P (scopeI P s) groupTerms A n).Asks (2 * n) ∧ (forgeAttack P (scopeI P s) groupTerms A n).Asks (2 * n) :=
  ⟨bursts_unwrapAttack P _ (bursts_scopeI P s) A n, bursts_forgeAttack P _ (bursts_scopeI P s) A n⟩

/-- A user that is in a group, and the group; both made up. -/
def hollowMember : SealedUser :=
  ⟨[65], some (madeUp (.str [65]) (⟨none, 0, some [[65]]⟩ : User).toJ).2, some (madeUp (.str [65]) (⟨none, 0, some [[65]]⟩ : User).toJ).1⟩

def hollowGroup : SealedGroup :=
  ⟨[65], some (madeUp (.str [65]) (⟨scopeAll⟩ : Group).toJ).2, some (madeUp (.str [65]) (⟨scopeAll⟩ : Group).toJ).1⟩

theorem unseal_hollowMember (uek : Bytes) : hollowMember.unseal hollowPrims ⟨uek⟩ = .ok ⟨none, 0, some [[65]]⟩ :=
  decrypt_madeUp uek User.ofJ (.str [65]) _ (by rw [User.ofJ_toJ]; simp only [Option.map_some, sanList_A])

theorem unseal_hollowGroup (gek : Bytes) : hollowGroup.unseal hollowPrims ⟨gek⟩ = .ok ⟨scopeAll⟩ :=
  decrypt_madeUp gek Group.ofJ (.str [65]) _ (by rw [Group.ofJ_toJ])

theorem fetch_one {P : Prims} (L : P.Laws) (s : Standalone) {g : GoString} {sg : SealedGroup} {gr : Group} (hs : sanitize sg.gid = sg.gid)
    (hu : sg.unseal P s.groupCryptor = .ok gr) (f : List (GoString × AccessGroup) → Prog DirOut) :
    ∃ k, (s.fetchGroups P [g]).bind f = .op (.get g dtGroup) k ∧ k (.ok sg.toJ.render) = f [(g, ⟨g, gr.scopes⟩)] := by
  have hr : (P.unmarshal sg.toJ.render).bind SealedGroup.ofJ = some sg := by
    rw [L.unmarshal_render, Option.bind_some, SealedGroup.ofJ_toJ, hs]
  refine ⟨_, rfl, ?_⟩
  simp only [Prog.bind, hr, hu, Prog.ofExcept, Standalone.fetchGroups, Prog.bind_eq, Prog.pure_eq]

/-- The adversary holds a token for a user, and answers with made-up records of the user and of a group. -/
def groupForger : Spy DirCall DirOut where
  answer _ e := match e with
    | .get _ dt => .ok (if dt = dtUser then hollowMember.toJ.render else hollowGroup.toJ.render)
    | e => (Store.exec (fun _ _ => none) (fun _ => none) ⟨0, 0⟩ e).1
  move
    | 4, _ => .begin (.getIdentity (hollowToken.string hollowPrims))
    | _, _ => .step 0
  guess _ := false

theorem C103_case (s : Standalone) :
    chance (trialGame (fun gek => dirCall hollowPrims (s.withGek gek)) groupTerms groupForger 5) = 1 := by
  have h : ∀ gek, groupForger.trial (dirCall hollowPrims (s.withGek gek)) groupTerms 5 [] [] [] = PMF.pure true := by
    intro gek
    obtain ⟨t, ht, hw, hc, hn, he⟩ := C25_roundtrip hollowLaws hollowToken
    have hd : (s.withGek gek).tokenCryptor.decrypt hollowPrims J.toBytes (.ofTime hollowPrims t.expiryTime)
        t.wrappedKey.bytes t.ciphertext.bytes = .ok (some [1]) := by
      have : J.ofTime hollowPrims t.expiryTime = J.ofTime hollowPrims ⟨0, 0⟩ := congrArg J.str he
      rw [this, hw, hc]
      exact decrypt_madeUp s.tokenCryptor.kwp J.toBytes (.ofTime hollowPrims ⟨0, 0⟩) (.ofBytes (some [1]))
        (by rw [san_ofBytes, toBytes_ofBytes])
    obtain ⟨k, hp, hk⟩ := getIdentity_user hollowLaws (s.withGek gek) (su := hollowMember) ht hd (by decide)
      (unseal_hollowMember s.userCryptor.kwp)
    obtain ⟨k', hp', hk'⟩ := fetch_one hollowLaws (s.withGek gek) (g := [65]) (sg := hollowGroup) (by decide) (unseal_hollowGroup gek.1)
      fun gs => .ret (.identity ⟨[1], 0, gs⟩)
    have hb : t.expiryTime.before ⟨0, 0⟩ = false := by
      have : t.expiryTime.ns = 0 := hn
      simp [GoTime.before, this]
    rw [solo_begin (x := .getIdentity (hollowToken.string hollowPrims)) rfl, hp]
    have ha : (if t.expiryTime.before (groupForger.answer [] .now) then .err .idNotAuthenticated
        else .op (.get [1] dtUser) k) = Prog.op (.get [1] dtUser) k := if_neg (by rw [Bool.not_eq_true]; exact hb)
    rw [solo_op rfl (by intro n h; exact nomatch h) (by intro D h; exact nomatch h), ha]
    have ha : ∀ v, k (groupForger.answer v (.get [1] dtUser)) = .op (.get [65] dtGroup) k' := fun v => by
      have : groupForger.answer v (.get [1] dtUser) = .ok hollowMember.toJ.render := congrArg Except.ok (if_pos rfl)
      rw [this]
      exact hk.trans hp'
    rw [solo_op rfl (by intro n h; exact nomatch h) (by intro D h; exact nomatch h), ha]
    have ha : ∀ v, k' (groupForger.answer v (.get [65] dtGroup)) = .ret (.identity ⟨[1], 0, [([65], ⟨[65], scopeAll⟩)]⟩) := fun v => by
      have : groupForger.answer v (.get [65] dtGroup) = .ok hollowGroup.toJ.render := congrArg Except.ok (if_neg (by decide))
      rw [this]
      exact hk'
    rw [solo_op rfl (by intro n h; exact nomatch h) (by intro D h; exact nomatch h), ha]
    exact solo_ret rfl ⟨_, .head _, rfl⟩ fun f H hf => hf
  simp only [trialGame, h, PMF.bind_const, chance_true]

end D1
