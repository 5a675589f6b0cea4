import Verif.Props.GroupNames
import Verif.Props.Story
/-!
# C116: scopes of users and groups are secret

The adversary is the IO Provider and the clock of the Standalone provider, decides which calls are made and how their steps are
interleaved, and sees all requests and all results.  It knows all keys except the one for users (or the one for groups).  With each
`NewUser` (or `NewGroup`) it proposes other scopes, such that scopes are the same on one side whenever they are on the other.  In all
calls of one game the scopes are replaced, or they are not.  The scopes that `GetIdentity` finds are shown as on the left.  It has to
tell whether scopes were replaced.
-/
namespace D1
open Spec Prog

/-! ## Specification -/

/-- A call, and the scopes of the right side. -/
abbrev ScopeCall : Type := DirCall × List Scope

/-- The scopes that a call gives, to a user or (`g`) to a group. -/
def givenScopes (g : Bool) : DirCall → Option Scope
  | .newUser l => if g then none else some (allScopes l)
  | .newGroup _ l => if g then some (allScopes l) else none
  | _ => none

/-- The call of one side. -/
def scopeCall (g right : Bool) (x : ScopeCall) : DirCall :=
  match right, g, x.1 with
  | true, false, .newUser _ => .newUser x.2
  | true, true, .newGroup t _ => .newGroup t x.2
  | _, _, c => c

/-- The scopes that were proposed together. -/
def scopePairs (g : Bool) (xs : List ScopeCall) : List (Scope × Scope) :=
  xs.filterMap fun x => (givenScopes g x.1).map fun l => (l, allScopes x.2)

/-- What can be proposed: scopes that agree on one side with earlier ones whenever they do on the other, and have equally many
decimal digits. -/
structure FairScopes (g : Bool) (xs : List ScopeCall) (x : ScopeCall) : Prop where
  paired : ∀ p ∈ scopePairs g (xs ++ [x]), ∀ q ∈ scopePairs g (xs ++ [x]), p.1 = q.1 ↔ p.2 = q.2
  digits : ∀ p ∈ scopePairs g [x], (decEnc p.1.toNat).length = (decEnc p.2.toNat).length

/-- The scopes on the left for those on the right. -/
def leftScope (ps : List (Scope × Scope)) (s : Scope) : Scope := ((ps.find? fun p => p.2 = s).map Prod.fst).getD s

/-- Groups as on the left. -/
def leftGroups (ps : List (Scope × Scope)) (gs : List (GoString × AccessGroup)) : List (GoString × AccessGroup) :=
  gs.map fun e => (e.1, { e.2 with scopes := leftScope ps e.2.scopes })

/-- A result as on the left. -/
def leftOut (g : Bool) (ps : List (Scope × Scope)) : DirOut → DirOut
  | .identity i => .identity (if g then { i with groups := leftGroups ps i.groups } else { i with scopes := leftScope ps i.scopes })
  | r => r

/-- What is shown of a result: left scopes. -/
def scopeShown {R : Type} (report : DirOut → R) (g right : Bool) (r : DirOut) (xs : List ScopeCall) : R :=
  report (if right then leftOut g (scopePairs g xs) r else r)

/-- The calls of one side. -/
def scopeContest {R : Type} (P : Prims) (s : Standalone) (report : DirOut → R) (g right : Bool) (key : BytesN 32) : Contest ScopeCall R where
  fair := FairScopes g
  prog x := (dirCall P (if g then s.withGek key else s.withUek key) (scopeCall g right x)).bind fun r => .ret (scopeShown report g right r)

/-! ## Scopes of a game -/

/-- Two scopes that were proposed together. -/
def PeerScopes (g : Bool) (ys : List ScopeCall) (l r : Scope) : Prop := (l, r) ∈ scopePairs g ys

theorem scopePairs_append (g : Bool) (xs ys : List ScopeCall) : scopePairs g (xs ++ ys) = scopePairs g xs ++ scopePairs g ys := by
  simp [scopePairs]

theorem left_eq {g : Bool} {ys : List ScopeCall} (hy : Legal (FairScopes g) ys) {l r : Scope} (h : PeerScopes g ys l r) :
    leftScope (scopePairs g ys) r = l := by
  have hp : ∀ p ∈ scopePairs g ys, ∀ q ∈ scopePairs g ys, p.1 = q.1 ↔ p.2 = q.2 := by
    cases hy with
    | nil => exact nofun
    | snoc _ hf => exact hf.paired
  unfold leftScope
  cases hf : (scopePairs g ys).find? fun p => p.2 = r with
  | none =>
    have := List.find?_eq_none.mp hf _ h
    simp at this
  | some q =>
    have h1 := List.mem_of_find?_eq_some hf
    have h2 := List.find?_some hf
    simp only [decide_eq_true_eq] at h2
    exact (hp _ h1 _ h).mpr h2

theorem peer_digits {g : Bool} {ys : List ScopeCall} (hy : Legal (FairScopes g) ys) :
    ∀ {l r}, PeerScopes g ys l r → (decEnc l.toNat).length = (decEnc r.toNat).length := by
  induction hy with
  | nil => exact nofun
  | snoc _ hf ih =>
    intro l r h
    rw [PeerScopes, scopePairs_append, List.mem_append] at h
    rcases h with h | h
    · exact ih h
    · exact hf.digits _ h

/-- Results that correspond. -/
def PeerOut (g : Bool) (ys : List ScopeCall) (r r' : DirOut) : Prop := r = leftOut g (scopePairs g ys) r'

/-! ## Users -/

/-- Users that correspond. -/
def UserPeers (ys : List ScopeCall) (m m' : J) : Prop :=
  ∃ (u : User) (r : Scope), PeerScopes false ys u.scopes r ∧ m = u.toJ ∧ m' = User.toJ { u with scopes := r }

section
variable {ys : List ScopeCall} {P : Prims} {R : Type} {Q : R → R → Prop}

theorem mirror_userI {uid : GoString} {k k' : Except Err User → IProg R} (he : ∀ e, (k (.error e)).Mirror (UserPeers ys) Q (k' (.error e)))
    (hk : ∀ u r, PeerScopes false ys u.scopes r → (k (.ok u)).Mirror (UserPeers ys) Q (k' (.ok { u with scopes := r }))) :
    (userI P uid k).Mirror (UserPeers ys) Q (userI P uid k') := by
  refine IProg.mirror_after _ fun r => ?_
  cases r with
  | error e => exact he e
  | ok b =>
    simp only
    cases (P.unmarshal b).bind SealedUser.ofJ with
    | none => exact he _
    | some su =>
      refine ⟨rfl, rfl, rfl, fun e => he e, ?_⟩
      rintro _ _ ⟨u, r, h, rfl, rfl⟩
      simp only [readAs, Option.bind_some, User.ofJ_toJ]
      exact hk { u with groups := u.groups.map sanList } r h

theorem mirror_userOkI {uid : GoString} {k k' : User → IProg R}
    (hk : ∀ u r, PeerScopes false ys u.scopes r → (k u).Mirror (UserPeers ys) Q (k' { u with scopes := r })) :
    (userOkI P uid k).Mirror (UserPeers ys) Q (userOkI P uid k') :=
  mirror_userI (fun _ => rfl) hk

theorem mirror_putUserI (hy : Legal (FairScopes false) ys) {uid : GoString} {u : User} {r : Scope} (h : PeerScopes false ys u.scopes r) {b : Bool}
    {x x' : R} (hx : Q x x') : (putUserI uid u b x).Mirror (UserPeers ys) Q (putUserI uid { u with scopes := r } b x') := by
  refine ⟨rfl, ⟨u, r, h, rfl, rfl⟩, ?_, fun _ => IProg.mirror_after _ fun _ => hx⟩
  simp only [User.toJ, J.render, JFields.render, J.ofScope, List.length_append, peer_digits hy h]

theorem mirror_joinI {u : User} {r : Scope} (h : PeerScopes false ys u.scopes r) {gs : List GoString} {k k' : User → IProg R}
    (hk : ∀ u r, PeerScopes false ys u.scopes r → (k u).Mirror (UserPeers ys) Q (k' { u with scopes := r })) :
    (IProg.after (Prog.ofPanic (u.addGroups gs)) k).Mirror (UserPeers ys) Q (.after (Prog.ofPanic (User.addGroups { u with scopes := r } gs)) k') := by
  unfold User.addGroups
  cases addToSet u.groups gs with
  | none => trivial
  | some g => exact hk { u with groups := g } r h

end

theorem mirror_callerI {ys : List ScopeCall} {P : Prims} {s : Standalone} {Q : DirOut → DirOut → Prop} {t : GoString} {k k' : Identity → IProg DirOut}
    (hk : ∀ i r, PeerScopes false ys i.scopes r → (k i).Mirror (UserPeers ys) Q (k' { i with scopes := r })) :
    (callerI P s t k).Mirror (UserPeers ys) Q (callerI P s t k') :=
  IProg.mirror_after _ fun u => mirror_userOkI fun user r h => IProg.mirror_after _ fun gs => hk ⟨u, user.scopes, gs⟩ r h

theorem mapErr_ret {α β : Type} (p : Prog α) (f : α → β) (e : Err) :
    (p.bind fun a => .ret (f a)).mapErr e = (p.mapErr e).bind fun a => .ret (f a) := by
  unfold Prog.mapErr
  rw [Prog.attempt_bind, Prog.bind_attempt]
  congr 1; funext r
  cases r <;> rfl

theorem changePassword_ret (P : Prims) (u : User) (p : GoString) :
    u.changePassword P p = ((u.authenticate P p).bind fun _ => generatePassword P).bind fun g => .ret ({ u with saltAndHash := some g.2 }, g.1) := by
  simp only [User.changePassword, Prog.bind_eq, Prog.pure_eq, Prog.bind_assoc]

theorem mirror_grantI {ys : List ScopeCall} (hy : Legal (FairScopes false) ys) (P : Prims) (s : Standalone) {x : ScopeCall}
    (hx : ∀ p ∈ scopePairs false [x], p ∈ scopePairs false ys) :
    (grantI P s (scopeCall false false x)).Mirror (UserPeers ys) (PeerOut false ys) (grantI P s (scopeCall false true x)) := by
  obtain ⟨c, l⟩ := x
  cases c with
  | newUser sc =>
    have h : PeerScopes false ys (allScopes sc) (allScopes l) := hx _ (by simp [scopePairs, givenScopes])
    simp only [scopeCall, grantI, IProg.after_bind, D1.newUser, Prog.bind_eq, Prog.pure_eq, scopeUnion_eq]
    refine IProg.mirror_after _ fun uid => IProg.mirror_after _ fun g => ?_
    exact mirror_putUserI (u := ⟨some g.2, allScopes sc, some []⟩) hy h rfl
  | loginUser u p =>
    simp only [scopeCall, grantI]
    refine mirror_userI (fun _ => rfl) fun user r h => IProg.mirror_after _ fun _ => ?_
    simp only [IProg.lift, IProg.after_bind]
    exact IProg.mirror_after _ fun tok => IProg.mirror_after _ fun st => rfl
  | changePassword u p =>
    simp only [scopeCall, grantI]
    refine mirror_userI (fun _ => rfl) fun user r h => ?_
    simp only [changePassword_ret, mapErr_ret, IProg.after_bind]
    refine IProg.mirror_after _ fun g => ?_
    exact mirror_putUserI (u := { user with saltAndHash := some g.2 }) hy h rfl
  | newGroup t sc =>
    simp only [scopeCall, grantI]
    refine mirror_callerI fun i r h => IProg.mirror_after _ fun gid => IProg.mirror_after _ fun _ => mirror_userOkI fun user r h =>
      mirror_joinI h fun user r h => mirror_putUserI hy h rfl
  | addUser t u gs =>
    simp only [scopeCall, grantI]
    exact mirror_callerI fun i r h => IProg.mirror_after _ fun _ => mirror_userOkI fun user r h =>
      mirror_joinI h fun user r h => mirror_putUserI hy h rfl
  | removeUser t u gs =>
    simp only [scopeCall, grantI]
    exact mirror_callerI fun i r h => IProg.mirror_after _ fun _ => mirror_userOkI fun user r h =>
      mirror_putUserI (u := user.removeGroups gs) hy h rfl
  | deleteUser t u =>
    simp only [scopeCall, grantI]
    refine mirror_callerI fun i r h => ?_
    simp only [IProg.lift, IProg.after_bind]
    exact IProg.mirror_after _ fun _ => rfl
  | getIdentity t =>
    simp only [scopeCall, grantI]
    refine mirror_callerI fun i r h => ?_
    show DirOut.identity i = .identity { i with scopes := leftScope _ r }
    rw [left_eq hy h]

/-! ## Groups -/

/-- Groups that correspond. -/
def GroupPeers (ys : List ScopeCall) (m m' : J) : Prop := ∃ l r, PeerScopes true ys l r ∧ m = (Group.mk l).toJ ∧ m' = (Group.mk r).toJ

theorem mirror_fetchI {ys : List ScopeCall} (hy : Legal (FairScopes true) ys) {P : Prims} {R : Type} {Q : R → R → Prop} (l : List GoString) :
    ∀ {k k' : List (GoString × AccessGroup) → IProg R}, (∀ gs, (k (leftGroups (scopePairs true ys) gs)).Mirror (GroupPeers ys) Q (k' gs)) →
      (fetchI P l k).Mirror (GroupPeers ys) Q (fetchI P l k') := by
  induction l with
  | nil => exact fun hk => hk []
  | cons g l ih =>
    intro k k' hk
    refine IProg.mirror_after _ fun b => ?_
    cases (P.unmarshal b).bind SealedGroup.ofJ with
    | none => rfl
    | some sg =>
      refine ⟨rfl, rfl, rfl, fun e => rfl, ?_⟩
      rintro _ _ ⟨a, a', h, rfl, rfl⟩
      simp only [readAs, Option.bind_some, Group.ofJ_toJ]
      refine ih fun gs => ?_
      have := hk ((g, ⟨g, a'⟩) :: gs)
      rw [leftGroups, List.map_cons, left_eq hy h] at this
      exact this

theorem mirror_memberI {ys : List ScopeCall} (hy : Legal (FairScopes true) ys) {P : Prims} {s : Standalone} {Q : DirOut → DirOut → Prop} {t : GoString}
    {k k' : Identity → IProg DirOut}
    (hk : ∀ i, (k { i with groups := leftGroups (scopePairs true ys) i.groups }).Mirror (GroupPeers ys) Q (k' i)) :
    (memberI P s t k).Mirror (GroupPeers ys) Q (memberI P s t k') :=
  IProg.mirror_after _ fun x => mirror_fetchI hy _ fun gs => hk ⟨x.1, x.2.scopes, gs⟩

theorem checkMembership_left (ps : List (Scope × Scope)) (i : Identity) (gs : List GoString) :
    checkMembership { i with groups := leftGroups ps i.groups } gs = checkMembership i gs := by
  have : Identity.getIDs { i with groups := leftGroups ps i.groups } = i.getIDs := by
    simp [Identity.getIDs, leftGroups, Function.comp_def]
  rw [checkMembership, this, checkMembership]

theorem mirror_scopeI {ys : List ScopeCall} (hy : Legal (FairScopes true) ys) (P : Prims) (s : Standalone) {x : ScopeCall}
    (hx : ∀ p ∈ scopePairs true [x], p ∈ scopePairs true ys) :
    (scopeI P s (scopeCall true false x)).Mirror (GroupPeers ys) (PeerOut true ys) (scopeI P s (scopeCall true true x)) := by
  obtain ⟨c, l⟩ := x
  cases c with
  | newUser sc =>
    simp only [scopeCall, scopeI, dirCall, IProg.lift, IProg.after_bind]
    exact IProg.mirror_after _ fun _ => rfl
  | loginUser u p =>
    simp only [scopeCall, scopeI, dirCall, IProg.lift, IProg.after_bind]
    exact IProg.mirror_after _ fun _ => rfl
  | changePassword u p =>
    simp only [scopeCall, scopeI, dirCall, IProg.lift, IProg.after_bind]
    exact IProg.mirror_after _ fun _ => rfl
  | newGroup t sc =>
    have h : PeerScopes true ys (allScopes sc) (allScopes l) := hx _ (by simp [scopePairs, givenScopes])
    simp only [scopeCall, scopeI]
    refine mirror_memberI hy fun i => IProg.mirror_after _ fun gid => ?_
    simp only [D1.newGroup, scopeUnion_eq, IProg.lift, IProg.after_bind]
    refine ⟨rfl, ⟨_, _, h, rfl, rfl⟩, ?_, fun x => ?_⟩
    · simp only [Group.toJ, J.render, JFields.render, J.ofScope, List.length_append, peer_digits hy h]
    · exact IProg.mirror_after _ fun _ => IProg.mirror_after _ fun _ => IProg.mirror_after _ fun _ => IProg.mirror_after _ fun _ => rfl
  | addUser t u gs =>
    simp only [scopeCall, scopeI]
    refine mirror_memberI hy fun i => ?_
    simp only [checkMembership_left, IProg.lift, IProg.after_bind]
    exact IProg.mirror_after _ fun _ => IProg.mirror_after _ fun _ => IProg.mirror_after _ fun _ => IProg.mirror_after _ fun _ => rfl
  | removeUser t u gs =>
    simp only [scopeCall, scopeI]
    refine mirror_memberI hy fun i => ?_
    simp only [checkMembership_left, IProg.lift, IProg.after_bind]
    exact IProg.mirror_after _ fun _ => IProg.mirror_after _ fun _ => IProg.mirror_after _ fun _ => rfl
  | deleteUser t u =>
    simp only [scopeCall, scopeI]
    refine mirror_memberI hy fun i => ?_
    simp only [IProg.lift, IProg.after_bind]
    exact IProg.mirror_after _ fun _ => rfl
  | getIdentity t =>
    simp only [scopeCall, scopeI]
    exact mirror_memberI hy fun i => rfl

/-! ## The theorem -/

/-- A call of one side, with boxes. -/
def scopedI {R : Type} (P : Prims) (s : Standalone) (report : DirOut → R) (g right : Bool) (x : ScopeCall) : IProg (List ScopeCall → R) :=
  (if g then scopeI P s (scopeCall g right x) else grantI P s (scopeCall g right x)).map (scopeShown report g right)

/-- The game of one side, with boxes. -/
noncomputable def scopeTree {R : Type} (P : Prims) (s : Standalone) (report : DirOut → R) (g : Bool) (A : Spy ScopeCall R) (n : Nat) (right : Bool) : IAdv :=
  A.sideTree (FairScopes g) (scopedI P s report g right) n

/-- C116: whoever can tell which scopes are given to users, or (`g`) to groups, tells wrapped keys from other keys, forges AES-GCM
ciphertexts, or tells AES-GCM ciphertexts apart. -/
theorem C116_scopes {P : Prims} (L : P.Laws) (s : Standalone) {R : Type} (report : DirOut → R) (g : Bool) (A : Spy ScopeCall R) (n : Nat) :
    gap (contestGame (scopeContest P s report g false) A n) (contestGame (scopeContest P s report g true) A n) ≤
      wrapGap P (toUnwrap P (scopeTree P s report g A n false) []) + forgeGap P (forger P (scopeTree P s report g A n false)) +
        sealGap P (picker P (scopeTree P s report g A n false) (scopeTree P s report g A n true)) +
        forgeGap P (forger P (scopeTree P s report g A n true)) + wrapGap P (toUnwrap P (scopeTree P s report g A n true) []) := by
  have hprog : ∀ right key x, (scopeContest P s report g right key).prog x = (scopedI P s report g right x).expand P key := by
    intro right key x
    rw [scopedI, IProg.expand_map]
    cases g
    · simp only [Bool.false_eq_true, if_false, expand_grantI L]; rfl
    · simp only [if_true, expand_scopeI L]; rfl
  refine contest_gap L (B := fun ys => if g then GroupPeers ys else UserPeers ys) (fair := FairScopes g) (C := scopeContest P s report g false)
    (C' := scopeContest P s report g true) (S := scopedI P s report g false) (S' := scopedI P s report g true) (fun _ => rfl) (fun _ => rfl)
    (hprog false) (hprog true) (fun xs x hl hf => ?_) A n
  rintro ys ⟨hpre, hy⟩
  have hx : ∀ p ∈ scopePairs g [x], p ∈ scopePairs g ys := by
    obtain ⟨t, rfl⟩ := hpre
    intro p hp
    rw [scopePairs_append, scopePairs_append]
    exact List.mem_append_left _ (List.mem_append_right _ hp)
  have hs : ∀ r r', PeerOut g ys r r' → scopeShown report g false r ys = scopeShown report g true r' ys := fun r r' h => congrArg report h
  refine IProg.mirror_map (Q := PeerOut g ys) (Q' := fun f f' : List ScopeCall → R => f ys = f' ys) hs _ _ ?_
  cases g
  · exact mirror_grantI hy P s hx
  · exact mirror_scopeI hy P s hx

/-- C116: the attacks ask at most twice for each move of the adversary. -/
theorem C116_questions {R : Type} (P : Prims) (s : Standalone) (report : DirOut → R) (g : Bool) (A : Spy ScopeCall R) (n : Nat) :
    (∀ right, (toUnwrap P (scopeTree P s report g A n right) []).Asks (2 * n)) ∧
      (∀ right, (forger P (scopeTree P s report g A n right)).Asks (2 * n)) ∧
      (picker P (scopeTree P s report g A n false) (scopeTree P s report g A n true)).Asks (2 * n) := by
  have h : ∀ right, (scopeTree P s report g A n right).Asks (2 * n) := fun right => by
    refine bursts_contest A (FairScopes g) (fun xs x s => ?_) n () [] [] [] nofun
    refine IProg.bursts_map _ _ ?_
    cases g
    · exact bursts_grantI P _ _
    · exact bursts_scopeI P _ _
  exact ⟨fun right => asks_toUnwrap P _ _ (h right), fun right kek => asks_toForge P kek _ _ (h right),
    fun kek => asks_toPick P kek _ _ _ (h false)⟩

/-! ## A case

With an AES-GCM that leaves messages readable the adversary below guesses right every time, so the right hand side of the theorem is
at least 1. -/

/-- The record that `NewUser` makes. -/
def userFor (P : Prims) (s : Standalone) (uid : GoString) (u : User) (key : BytesN 32) (nonce : BytesN 12) : SealedUser :=
  ⟨uid, some (gcmBox P key.1 nonce.1 (J.str uid).render u.toJ.render), some (kwpBox P s.userCryptor.kwp key.1)⟩

theorem newUser_draws {P : Prims} (L : P.Laws) (s : Standalone) (l : List Scope) : s.newUser P l =
    (randBytes 16).bind fun b => (randBytes 32).bind fun pw => (randBytes 8).bind fun salt => (randBytes 32).bind fun key => (randBytes 12).bind fun nonce =>
      (ioPut (onAlreadyExists .userAlreadyExists) (uuidText (mkV4 b)) dtUser (userFor P s (uuidText (mkV4 b))
        ⟨some (salt.1 ++ P.pbkdf2 (b64Enc true pw.1) salt.1), allScopes l, some []⟩ key nonce).toJ.render).bind fun _ =>
      .ret (uuidText (mkV4 b), b64Enc true pw.1) := by
  simp only [Standalone.newUser, newV4, D1.newUser, generatePassword, Standalone.putUser, User.seal, Cryptor.encrypt_eq L, Prog.bind_eq, Prog.pure_eq,
    Prog.bind_assoc, Prog.ret_bind, scopeUnion_eq]
  rfl

/-- The scopes in a user record whose text can be read. -/
def peekUser (data : Bytes) : Bool :=
  match (toyPrims.unmarshal data).bind SealedUser.ofJ with
  | some su => match (toyPrims.unmarshal (su.ciphertext.bytes.take (su.ciphertext.bytes.length - 28))).bind User.ofJ with
    | some u => u.scopes == scopeDecrypt
    | none => false
  | none => false

theorem peek_user (uid : GoString) (u : User) (s : Standalone) (key : BytesN 32) (nonce : BytesN 12) :
    peekUser (userFor toyPrims s uid u key nonce).toJ.render = (u.scopes == scopeDecrypt) := by
  have h : ∀ aad m, (gcmBox toyPrims key.1 nonce.1 aad m).take ((gcmBox toyPrims key.1 nonce.1 aad m).length - 28) = m := by
    intro aad m
    have hl : (gcmBox toyPrims key.1 nonce.1 aad m).length - 28 = m.length := by
      rw [gcmBox, List.length_append, nonce.2]
      show (m ++ toyTag _ _ _ _).length + 12 - 28 = _
      rw [List.length_append, toyTag_length]
      omega
    rw [hl]
    show ((m ++ toyTag _ _ _ _) ++ nonce.1).take _ = _
    rw [List.append_assoc, List.take_left']
    rfl
  rw [peekUser, toyLaws.unmarshal_render, Option.bind_some, SealedUser.ofJ_toJ]
  simp only [userFor, NBytes.bytes, Option.getD_some, h, toyLaws.unmarshal_render, Option.bind_some, User.ofJ_toJ]

/-- The adversary has a user made that may encrypt, or decrypt, and looks at the record. -/
def scopeSpy : Spy ScopeCall DirOut where
  answer _ e := (Store.exec (fun _ _ => none) (fun _ => none) ⟨0, 0⟩ e).1
  move
    | 1, _ => .begin (.newUser [scopeEncrypt], [scopeDecrypt])
    | _, _ => .step 0
  guess v := match v with
    | [.request _ ⟨.put _ _ data, _⟩] => peekUser data
    | _ => false

theorem C116_case : gap (contestGame (scopeContest toyPrims toyStandalone id false false) scopeSpy 2)
    (contestGame (scopeContest toyPrims toyStandalone id false true) scopeSpy 2) = 1 := by
  refine gap_sure (fun right => contestGame (scopeContest toyPrims toyStandalone id false right) scopeSpy 2) fun right => ?_
  unfold contestGame
  refine Eq.trans (congrArg (PMF.bind _) (funext fun uek => ?_)) (PMF.bind_const _ _)
  have hf : FairScopes false [] (.newUser [scopeEncrypt], [scopeDecrypt]) := by
    have hp : scopePairs false ([] ++ [(.newUser [scopeEncrypt], [scopeDecrypt])]) = [(scopeEncrypt, scopeDecrypt)] := rfl
    refine ⟨?_, ?_⟩
    · rw [hp]; simp
    · show ∀ p ∈ [(scopeEncrypt, scopeDecrypt)], _
      decide
  rw [contest_begin scopeSpy _ (rfl : scopeSpy.move 1 [] = _) hf]
  have hp : (scopeContest toyPrims toyStandalone id false right uek).prog (.newUser [scopeEncrypt], [scopeDecrypt]) =
      (((toyStandalone.withUek uek).newUser toyPrims [bif right then scopeDecrypt else scopeEncrypt]).bind fun r => .ret (.user r.1 r.2)).bind fun r =>
        .ret (scopeShown id false right r) := by
    cases right <;> rfl
  rw [hp, newUser_draws toyLaws]
  simp only [Prog.bind_assoc]
  refine contest_sure scopeSpy _ (rfl : scopeSpy.move 0 [] = .step 0) rfl fun b => ?_
  refine contest_sure scopeSpy _ (rfl : scopeSpy.move 0 [] = .step 0) rfl fun pw => ?_
  refine contest_sure scopeSpy _ (rfl : scopeSpy.move 0 [] = .step 0) rfl fun salt => ?_
  refine contest_sure scopeSpy _ (rfl : scopeSpy.move 0 [] = .step 0) rfl fun key => ?_
  refine contest_sure scopeSpy _ (rfl : scopeSpy.move 0 [] = .step 0) rfl fun nonce => ?_
  have hpeek := peek_user (uuidText (mkV4 b)) ⟨some (salt.1 ++ toyPrims.pbkdf2 (b64Enc true pw.1) salt.1), allScopes [bif right then scopeDecrypt else scopeEncrypt], some []⟩
    (toyStandalone.withUek uek) key nonce
  generalize userFor toyPrims (toyStandalone.withUek uek) (uuidText (mkV4 b))
    ⟨some (salt.1 ++ toyPrims.pbkdf2 (b64Enc true pw.1) salt.1), allScopes [bif right then scopeDecrypt else scopeEncrypt], some []⟩ key nonce = su at hpeek ⊢
  simp only [List.nil_append, List.set_cons_zero]
  rw [contest_put scopeSpy _ (.ok ()) (rfl : scopeSpy.move 0 [] = .step 0) rfl rfl rfl]
  rw [Spy.contest]
  simp only [scopeSpy, List.nil_append]
  rw [hpeek]
  cases right <;> rfl

end D1
