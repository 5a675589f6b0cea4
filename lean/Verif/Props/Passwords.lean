import Verif.Props.Grants
import Verif.Proofs.Thief
/-!
# Passwords of the Standalone provider against whoever has the IO Provider (C104)
-/
namespace D1
open Spec Prog

/-! ## C104 -/

/-- What is shown of a result, and the password in it. -/
def keepPassword : DirOut → DirOut × Option GoString
  | .user u p => (.user u [], some p)
  | .password p => (.password [], some p)
  | r => (r, none)

/-! ## C104: proof -/

namespace IProg
variable {R R' β : Type}

/-- The program with another result. -/
def map (f : R → R') : IProg R → IProg R'
  | ret a => ret (f a)
  | err e => err e
  | panic => panic
  | diverge => diverge
  | op e k => op e fun r => (k r).map f
  | box m aad k => box m aad fun x => (k x).map f
  | unbox aad w c k => unbox aad w c fun r => (k r).map f

theorem expand_map (P : Prims) (kek : BytesN 32) (f : R → R') (p : IProg R) :
    (p.map f).expand P kek = (p.expand P kek).bind fun r => .ret (f r) := by
  induction p with
  | op e k ih => simp only [map, expand, Prog.bind]; congr 1; funext r; exact ih r
  | box m aad k ih => simp only [map, expand, Prog.bind_assoc, ih]
  | unbox aad w c k ih => simp only [map, expand, ih]
  | _ => rfl

theorem map_after (f : R → R') (p : Prog β) (k : β → IProg R) : (after p k).map f = after p fun a => (k a).map f := by
  induction p with
  | op e c ih => simp only [after, map]; congr 1; funext r; exact ih r
  | _ => rfl

end IProg

theorem map_userI {R R' : Type} (f : R → R') (P : Prims) (uid : GoString) (k : Except Err User → IProg R) :
    (userI P uid k).map f = userI P uid fun r => (k r).map f := by
  rw [userI, IProg.map_after, userI]
  congr 1; funext r
  cases r with
  | error e => rfl
  | ok b => simp only; cases (P.unmarshal b).bind SealedUser.ofJ <;> rfl

theorem map_userOkI {R R' : Type} (f : R → R') (P : Prims) (uid : GoString) (k : User → IProg R) :
    (userOkI P uid k).map f = userOkI P uid fun u => (k u).map f := by
  rw [userOkI, map_userI, userOkI]
  congr 1; funext r
  cases r <;> rfl

theorem map_putUserI {R R' : Type} (f : R → R') (uid : GoString) (u : User) (update : Bool) (r : R) :
    (putUserI uid u update r).map f = putUserI uid u update (f r) := by
  simp only [putUserI, IProg.map, IProg.map_after]

section
variable {M : Type}

/-- Reading a user. -/
def userH (P : Prims) (uid : GoString) (k : Except Err SUser → HProg M) : HProg M :=
  .after ((ioGet (onNotFound .userNotFound) uid dtUser).attempt .ret) fun r => match r with
    | .error e => k (.error e)
    | .ok b => match (P.unmarshal b).bind SealedUser.ofJ with
      | none => k (.error .json)
      | some su => .ask (.open (J.str su.uid).render su.wrappedKey.bytes su.ciphertext.bytes) k

/-- The user goes on only if it was read. -/
def userOkH (P : Prims) (uid : GoString) (k : SUser → HProg M) : HProg M :=
  userH P uid fun r => match r with
    | .error e => .err e
    | .ok u => k u

/-- Storing a user. -/
def putUserH (uid : GoString) (u : SUser) (update : Bool) (res : HProg M) : HProg M :=
  .ask (.seal u (J.str uid).render) fun (x : Bytes × Bytes) =>
    .after (if update then ioUpdate (onNotFound .userNotFound) uid dtUser (⟨uid, some x.2, some x.1⟩ : SealedUser).toJ.render
      else ioPut (onAlreadyExists .userAlreadyExists) uid dtUser (⟨uid, some x.2, some x.1⟩ : SealedUser).toJ.render) fun _ => res

/-- Comparing a password. -/
def testH (w : Word) (u : SUser) (k : HProg M) : HProg M :=
  .ask (.test w u.src) fun (r : Option Bool) => match r with
    | none => .panic
    | some false => .err .idNotAuthenticated
    | some true => k

/-- Making a password. -/
def issueH (j : Nat) (k : Src → HProg M) : HProg M :=
  .ask (.issue j) fun _ => .op (.rand saltLength) fun (r : Option (BytesN saltLength)) => match r with
    | none => .err .rand
    | some salt => k (.made j salt)

/-- Identifying the caller. -/
def callerH (P : Prims) (s : Standalone) (t : GoString) (k : Identity → HProg M) : HProg M :=
  .after (holderProg P s t) fun u => userOkH P u fun user => .after (s.fetchGroups P (user.groups.getD [])) fun gs =>
    k ⟨u, user.scopes, gs⟩

end

def wordOf (p : GoString) : Option Nat → Word
  | none => .known p
  | some i => .made i

/-- A call that does not know passwords. -/
def theftH (P : Prims) (s : Standalone) (j : Nat) : DirCall → Option Nat → HProg DirOut
  | .newUser sc, _ => .after newV4 fun uid => issueH j fun src =>
      putUserH (uuidText uid) ⟨src, scopeUnion sc, some []⟩ false (.ret (.user (uuidText uid) []) true)
  | .loginUser u p, i => userH P u fun r => match r with
      | .error _ => .err .idNotAuthenticated
      | .ok user => testH (wordOf p i) user (.after ((newToken (some u) tokenValidity).bind fun tok =>
          (tok.seal P s.tokenCryptor).mapErr .idNotAuthenticated) fun st => .ret (.token (st.string P) st.expiryTime.unix) false)
  | .changePassword u p, i => userH P u fun r => match r with
      | .error _ => .err .idNotAuthenticated
      | .ok user => testH (wordOf p i) user (issueH j fun src => putUserH u { user with src := src } true (.ret (.password []) true))
  | .newGroup t sc, _ => callerH P s t fun i => .after newV4 fun gid =>
      .after (s.putGroup P (uuidText gid) (D1.newGroup sc)) fun _ => userOkH P i.id fun user =>
        .after (Prog.ofPanic (addToSet user.groups [uuidText gid])) fun gs =>
          putUserH i.id { user with groups := gs } true (.ret (.group (uuidText gid)) false)
  | .addUser t u gs, _ => callerH P s t fun i => .after (checkMembership i gs) fun _ => userOkH P u fun user =>
      .after (Prog.ofPanic (addToSet user.groups gs)) fun gs => putUserH u { user with groups := gs } true (.ret .unit false)
  | .removeUser t u gs, _ => callerH P s t fun i => .after (checkMembership i gs) fun _ => userOkH P u fun user =>
      putUserH u { user with groups := removeFromSet user.groups gs } true (.ret .unit false)
  | .deleteUser t u, _ => callerH P s t fun _ => .after (ioDelete .io u dtUser) fun _ => .ret .unit false
  | .getIdentity t, _ => callerH P s t fun i => .ret (.identity i) false

/-! ### It does the same -/

section
variable {M : Type} {P : Prims} {j : Nat} {ω : Tape}

theorem sim_userH {uid : GoString} {k : Except Err SUser → HProg M} {k' : Except Err User → IProg (M × Option GoString)}
    (h : ∀ ω', Grows j ω ω' → ∀ a, (∀ u, a = .ok u → u.src.In ω') → Sim P j (k a) ω' (k' (readAt P ω' a))) :
    Sim P j (userH P uid k) ω (userI P uid k') := by
  refine sim_after _ fun r ω' hg => ?_
  cases r with
  | error e => exact h ω' hg (.error e) nofun
  | ok b =>
    simp only
    cases (P.unmarshal b).bind SealedUser.ofJ with
    | none => exact h ω' hg (.error .json) nofun
    | some su => exact ⟨_, rfl, fun ω'' hg' a r ha hr => hr ▸ h ω'' (hg.trans hg') a ha⟩

theorem sim_userOkH {uid : GoString} {k : SUser → HProg M} {k' : User → IProg (M × Option GoString)}
    (h : ∀ ω', Grows j ω ω' → ∀ u, u.src.In ω' → Sim P j (k u) ω' (k' (u.at P ω'))) :
    Sim P j (userOkH P uid k) ω (userOkI P uid k') := by
  refine sim_userH fun ω' hg a ha => ?_
  cases a with
  | error e => rfl
  | ok u => exact h ω' hg u (ha u rfl)

theorem sim_putUserH {uid : GoString} {u : SUser} {update : Bool} {res : HProg M} {r : M × Option GoString} (hu : u.src.In ω)
    (h : ∀ ω', Grows j ω ω' → Sim P j res ω' (.ret r)) : Sim P j (putUserH uid u update res) ω (putUserI uid (u.at P ω) update r) :=
  ⟨hu, _, rfl, fun _ hg _ => sim_after _ fun _ ω' hg' => h ω' (hg.trans hg')⟩

theorem sim_testH {w : Word} {u : SUser} {k : HProg M} {q : IProg (M × Option GoString)} {p : GoString}
    (hw : ∀ ω', Grows j ω ω' → w.at ω' = p) (hu : u.src.In ω) (h : ∀ ω', Grows j ω ω' → Sim P j k ω' q) :
    Sim P j (testH w u k) ω (.after (((u.at P ω).authenticate P p).mapErr .idNotAuthenticated) fun _ => q) := by
  intro ω' hg
  rw [hw ω' hg, hu.at_eq hg.2]
  rw [User.authenticate, show (u.at P ω).saltAndHash = u.src.at P ω from rfl]
  cases comparePassword P p (u.src.at P ω).bytes with
  | none => rfl
  | some b =>
    cases b with
    | false => rfl
    | true => exact h ω' hg

theorem sim_issueH {k : Src → HProg M} {k' : GoString × Bytes → IProg (M × Option GoString)} {g : Prog (GoString × Bytes)}
    (hg : g = generatePassword P ∨ ∃ e, g = (generatePassword P).mapErr e) (hj : ω j = none)
    (h : ∀ ω' salt b, ω' j = some b → (∀ i c, ω i = some c → ω' i = some c) →
      Sim P j (k (.made j salt)) ω' (k' (passwordText b, salt.1 ++ P.pbkdf2 (passwordText b) salt.1))) :
    Sim P j (issueH j k) ω (.after g k') := by
  have key : ∃ k1, IProg.after g k' = .op (.rand passwordLength) k1 ∧ ∀ b, ∃ k2, k1 (some b) = .op (.rand saltLength) k2 ∧
      ∀ salt, k2 (some salt) = k' (passwordText b, salt.1 ++ P.pbkdf2 (passwordText b) salt.1) := by
    rcases hg with rfl | ⟨e, rfl⟩
    · exact ⟨_, rfl, fun b => ⟨_, rfl, fun salt => rfl⟩⟩
    · exact ⟨_, rfl, fun b => ⟨_, rfl, fun salt => rfl⟩⟩
  obtain ⟨k1, h1, h2⟩ := key
  refine ⟨rfl, hj, k1, h1, fun ω' hgr b => ?_⟩
  obtain ⟨k2, h3, h4⟩ := h2 b
  refine ⟨k2, h3, fun ω'' hgr' r hr => ?_⟩
  cases r with
  | none => exact (hr rfl).elim
  | some salt =>
    rw [h4]
    refine h ω'' salt b (by rw [hgr'.1, Function.update_self]) fun i c hi => hgr'.2 i c ?_
    rw [Function.update_of_ne fun h : i = j => by rw [h, hj] at hi; exact nomatch hi]
    exact hgr.2 i c hi

theorem map_callerI (f : DirOut → DirOut × Option GoString) (s : Standalone) (t : GoString) (k : Identity → IProg DirOut) :
    (callerI P s t k).map f = .after (holderProg P s t) fun u => userOkI P u fun user =>
      .after (s.fetchGroups P (user.groups.getD [])) fun gs => (k ⟨u, user.scopes, gs⟩).map f := by
  simp only [callerI, IProg.map_after, map_userOkI]

theorem sim_callerH {s : Standalone} {t : GoString} {f : DirOut → DirOut × Option GoString} {k : Identity → HProg DirOut}
    {k' : Identity → IProg DirOut} (h : ∀ i ω', Grows j ω ω' → Sim P j (k i) ω' ((k' i).map f)) :
    Sim P j (callerH P s t k) ω ((callerI P s t k').map f) := by
  rw [map_callerI]
  exact sim_after _ fun u ω1 h1 => sim_userOkH fun ω2 h2 user _ => sim_after _ fun gs ω3 h3 => h _ ω3 ((h1.trans h2).trans h3)

end

theorem mapErr_changePassword (P : Prims) (u : User) (p : GoString) (e : Err) : (u.changePassword P p).mapErr e =
    ((u.authenticate P p).mapErr e).bind fun _ => ((generatePassword P).mapErr e).bind fun x =>
      .ret ({ u with saltAndHash := some x.2 }, x.1) := by
  simp only [User.changePassword, Prog.bind_eq, Prog.pure_eq, Prog.mapErr, Prog.bind_attempt, Prog.attempt_bind]
  congr 1; funext r
  cases r with
  | error e => rfl
  | ok _ =>
    simp only [Prog.bind_attempt, Prog.ret_bind, Prog.attempt_bind]
    congr 1; funext r
    cases r <;> rfl

theorem sim_ret {M : Type} {P : Prims} {j : Nat} {m : M} {ω : Tape} : Sim P j (.ret m false) ω (.ret (m, none)) := ⟨nofun, rfl⟩

theorem sim_own {M : Type} {P : Prims} {j : Nat} {m : M} {ω : Tape} {b : BytesN passwordLength} (h : ω j = some b) :
    Sim P j (.ret m true) ω (.ret (m, some (passwordText b))) := ⟨fun _ => ⟨b, h⟩, by rw [h]; rfl⟩

theorem src_made (P : Prims) {j : Nat} {ω : Tape} {b : BytesN passwordLength} (h : ω j = some b) (salt : BytesN saltLength) :
    (Src.made j salt).at P ω = some (salt.1 ++ P.pbkdf2 (passwordText b) salt.1) := by
  rw [Src.at, h, Option.map_some]

theorem sim_theft (P : Prims) (s : Standalone) (j : Nat) (c : DirCall) (i : Option Nat) (ω : Tape) (p : GoString) (hj : ω j = none)
    (hp : ∀ q, passwordOf c = some q → ∀ ω', Grows j ω ω' → (wordOf q i).at ω' = p) :
    Sim P j (theftH P s j c i) ω ((grantI P s (withPassword p c)).map keepPassword) := by
  cases c with
  | newUser sc =>
    simp only [withPassword, grantI, theftH, IProg.map_after, map_putUserI, D1.newUser, IProg.after_bind, Prog.bind_eq, Prog.pure_eq,
      Prog.bind_assoc, Prog.ret_bind]
    refine sim_after _ fun uid ω1 h1 => sim_issueH (.inl rfl) (h1.1.trans hj) fun ω2 salt b h2 h3 => ?_
    have := sim_putUserH (P := P) (j := j) (ω := ω2) (uid := uuidText uid) (u := ⟨.made j salt, scopeUnion sc, some []⟩) (update := false)
      (res := .ret (DirOut.user (uuidText uid) []) true) ⟨b, h2⟩ fun ω3 h => sim_own (h.1.trans h2)
    rw [SUser.at, src_made P h2] at this
    exact this
  | loginUser u q =>
    simp only [withPassword, grantI, theftH, map_userI]
    refine sim_userH fun ω1 h1 a ha => ?_
    cases a with
    | error e => rfl
    | ok user =>
      simp only [readAt, IProg.map_after, IProg.lift, IProg.after_bind, IProg.map, keepPassword]
      refine sim_testH (fun ω' h => hp q rfl ω' (h1.trans h)) (ha user rfl) fun ω2 h2 => ?_
      rw [← IProg.after_bind]
      exact sim_after _ fun st ω3 _ => sim_ret
  | changePassword u q =>
    simp only [withPassword, grantI, theftH, map_userI]
    refine sim_userH fun ω1 h1 a ha => ?_
    cases a with
    | error e => rfl
    | ok user =>
      simp only [readAt, IProg.map_after, mapErr_changePassword, IProg.after_bind, map_putUserI, keepPassword]
      refine sim_testH (fun ω' h => hp q rfl ω' (h1.trans h)) (ha user rfl) fun ω2 h2 => ?_
      refine sim_issueH (.inr ⟨_, rfl⟩) ((h1.trans h2).1.trans hj) fun ω3 salt b h3 _ => ?_
      have := sim_putUserH (P := P) (j := j) (ω := ω3) (uid := u) (u := { user with src := .made j salt }) (update := true)
        (res := .ret (DirOut.password []) true) ⟨b, h3⟩ fun ω4 h => sim_own (h.1.trans h3)
      rw [SUser.at, src_made P h3] at this
      exact this
  | newGroup t sc =>
    simp only [withPassword, grantI, theftH]
    refine sim_callerH fun i ω1 h1 => ?_
    simp only [IProg.map_after, map_userOkI, map_putUserI, keepPassword]
    refine sim_after _ fun gid ω2 h2 => sim_after _ fun _ ω3 h3 => sim_userOkH fun ω4 h4 user hu => ?_
    rw [User.addGroups]
    cases hg : addToSet user.groups [uuidText gid] with
    | none => simp only [SUser.at, hg]; rfl
    | some gs =>
      simp only [SUser.at, hg, Option.map_some, Prog.ofPanic, HProg.after, IProg.after]
      exact sim_putUserH (u := { user with groups := gs }) hu fun ω5 _ => sim_ret
  | addUser t u gs =>
    simp only [withPassword, grantI, theftH]
    refine sim_callerH fun i ω1 h1 => ?_
    simp only [IProg.map_after, map_userOkI, map_putUserI, keepPassword]
    refine sim_after _ fun gid ω2 h2 => sim_userOkH fun ω4 h4 user hu => ?_
    rw [User.addGroups]
    cases hg : addToSet user.groups gs with
    | none => simp only [SUser.at, hg]; rfl
    | some gs =>
      simp only [SUser.at, hg, Option.map_some, Prog.ofPanic, HProg.after, IProg.after]
      exact sim_putUserH (u := { user with groups := gs }) hu fun ω5 _ => sim_ret
  | removeUser t u gs =>
    simp only [withPassword, grantI, theftH]
    refine sim_callerH fun i ω1 h1 => ?_
    simp only [IProg.map_after, map_userOkI, map_putUserI, keepPassword]
    refine sim_after _ fun gid ω2 h2 => sim_userOkH fun ω4 h4 user hu => ?_
    exact sim_putUserH (u := { user with groups := removeFromSet user.groups gs }) hu fun ω5 _ => sim_ret
  | deleteUser t u =>
    simp only [withPassword, grantI, theftH]
    refine sim_callerH fun i ω1 h1 => ?_
    simp only [IProg.lift, IProg.after_bind, IProg.map_after]
    exact sim_after _ fun _ ω2 _ => sim_ret
  | getIdentity t =>
    simp only [withPassword, grantI, theftH]
    exact sim_callerH fun i ω1 h1 => sim_ret

/-! ### It succeeds only with the password -/

section
variable {M : Type} {P : Prims} {j : Nat} {own : Option GoString} {passed fresh : Bool}

theorem sound_userH {uid : GoString} {k : Except Err SUser → HProg M} (he : ∀ e, Sound j own passed fresh (k (.error e)))
    (hk : ∀ u, (∀ x, u.src ≠ .read x) → Sound j own passed fresh (k (.ok u))) : Sound j own passed fresh (userH P uid k) := by
  refine sound_after _ fun r => ?_
  cases r with
  | error e => exact he e
  | ok b =>
    simp only
    cases (P.unmarshal b).bind SealedUser.ofJ with
    | none => exact he _
    | some su => exact ⟨he, hk⟩

theorem sound_userOkH {uid : GoString} {k : SUser → HProg M}
    (hk : ∀ u, (∀ x, u.src ≠ .read x) → Sound j own passed fresh (k u)) : Sound j own passed fresh (userOkH P uid k) :=
  sound_userH (fun _ => trivial) hk

theorem sound_putUserH {uid : GoString} {u : SUser} {update : Bool} {res : HProg M} (hu : ∀ x, u.src ≠ .read x)
    (h : Sound j own passed fresh res) : Sound j own passed fresh (putUserH uid u update res) :=
  ⟨hu, fun _ => sound_after _ fun _ => h⟩

theorem sound_testH {w : Word} {u : SUser} {k : HProg M} (hu : ∀ x, u.src ≠ .read x) (hw : ∀ p, own = some p → w = .known p)
    (h : Sound j own true fresh k) : Sound j own passed fresh (testH w u k) :=
  ⟨hu, hw, trivial, trivial, h⟩

theorem sound_issueH {k : Src → HProg M} (h : ∀ salt, Sound j own passed false (k (.made j salt))) :
    Sound j own passed true (issueH j k) :=
  ⟨rfl, rfl, fun (r : Option (BytesN saltLength)) => by cases r <;> [trivial; exact h _]⟩

theorem sound_plain {m : M} {kept : Bool} (h : own = none) : Sound j own passed fresh (.ret m kept) := fun h' => (h' h).elim

theorem sound_callerH {s : Standalone} {t : GoString} {k : Identity → HProg M} (h : ∀ i, Sound j own passed fresh (k i)) :
    Sound j own passed fresh (callerH P s t k) :=
  sound_after _ fun _ => sound_userOkH fun _ _ => sound_after _ fun _ => h _

end

theorem sound_theft (P : Prims) (s : Standalone) (j : Nat) (c : DirCall) (i : Option Nat) (own : Option GoString)
    (ho : own ≠ none → ∃ p, passwordOf c = some p ∧ own = some p ∧ i = none) : Sound j own false true (theftH P s j c i) := by
  have hnone : passwordOf c = none → own = none := fun h => by
    cases hown : own with
    | none => rfl
    | some p =>
      obtain ⟨q, hq, -⟩ := ho (by rw [hown]; exact nofun)
      rw [h] at hq
      exact nomatch hq
  have hword : ∀ q, passwordOf c = some q → ∀ p, own = some p → wordOf q i = .known p := by
    intro q hq p hown
    obtain ⟨p', hp', h1, h2⟩ := ho (by rw [hown]; exact nofun)
    rw [hq] at hp'
    rw [h2, wordOf]
    rw [hown] at h1
    cases hp'; cases h1
    rfl
  cases c with
  | newUser sc =>
    exact sound_after _ fun uid => sound_issueH fun salt => sound_putUserH nofun (sound_plain (hnone rfl))
  | loginUser u q =>
    rw [theftH]
    refine sound_userH (fun _ => trivial) fun user hu => sound_testH hu (hword q rfl) (sound_after _ fun _ _ => rfl)
  | changePassword u q =>
    rw [theftH]
    refine sound_userH (fun _ => trivial) fun user hu => sound_testH hu (hword q rfl) ?_
    exact sound_issueH fun salt => sound_putUserH nofun fun _ => rfl
  | newGroup t sc =>
    rw [theftH]
    exact sound_callerH fun i => sound_after _ fun gid => sound_after _ fun _ => sound_userOkH fun user hu => sound_after _ fun gs =>
      sound_putUserH hu (sound_plain (hnone rfl))
  | addUser t u gs =>
    rw [theftH]
    exact sound_callerH fun i => sound_after _ fun _ => sound_userOkH fun user hu => sound_after _ fun gs =>
      sound_putUserH hu (sound_plain (hnone rfl))
  | removeUser t u gs =>
    rw [theftH]
    exact sound_callerH fun i => sound_after _ fun _ => sound_userOkH fun user hu => sound_putUserH hu (sound_plain (hnone rfl))
  | deleteUser t u => rw [theftH]; exact sound_callerH fun i => sound_after _ fun _ => sound_plain (hnone rfl)
  | getIdentity t => rw [theftH]; exact sound_callerH fun i => sound_plain (hnone rfl)

/-! ### How many questions it asks -/

/-- What a step costs. -/
structure Prices (f : HAsk → Nat) (b x y z : Nat) : Prop where
  issue : ∀ j, f (.issue j) = 0
  test : ∀ w h, f (.test w h) = x
  opened : ∀ aad w c, f (.open aad w c) = y
  sealed : ∀ u aad, f (.seal u aad) = z
  total : x + y + z ≤ b

section
variable {M : Type} {P : Prims} {f : HAsk → Nat} {b x y z : Nat}

theorem priced_userH (hf : Prices f b x y z) {uid : GoString} {n : Nat} {k : Except Err SUser → HProg M}
    (hk : ∀ r, (k r).Bursts f b (x + z)) : (userH P uid k).Bursts f b n := by
  have ht := hf.total
  have key : (HProg.after ((ioGet (onNotFound .userNotFound) uid dtUser).attempt .ret) fun r => match r with
    | .error e => k (.error e)
    | .ok b => match (P.unmarshal b).bind SealedUser.ofJ with
      | none => k (.error .json)
      | some su => .ask (.open (J.str su.uid).render su.wrappedKey.bytes su.ciphertext.bytes) k).Bursts f b b := by
    refine HProg.bursts_after (Nat.le_refl b) _ fun r => ?_
    cases r with
    | error e => exact (hk _).mono (by omega)
    | ok a =>
      simp only
      cases (P.unmarshal a).bind SealedUser.ofJ with
      | none => exact (hk _).mono (by omega)
      | some su => exact ⟨by rw [hf.opened]; omega, fun r => (hk r).mono (by rw [hf.opened]; omega)⟩
  exact key

theorem priced_userOkH (hf : Prices f b x y z) {uid : GoString} {n : Nat} {k : SUser → HProg M}
    (hk : ∀ r, (k r).Bursts f b (x + z)) : (userOkH P uid k).Bursts f b n :=
  priced_userH hf fun r => by cases r <;> [trivial; exact hk _]

theorem priced_putUserH (hf : Prices f b x y z) {uid : GoString} {n : Nat} {u : SUser} {update : Bool} {m : M} {kept : Bool} (hn : z ≤ n) (hb : n ≤ b) :
    (putUserH uid u update (.ret m kept)).Bursts f b n := by
  refine ⟨by rw [hf.sealed]; exact hn, fun r => ?_⟩
  exact HProg.bursts_after (by omega) _ fun _ => trivial

theorem priced_testH (hf : Prices f b x y z) {w : Word} {u : SUser} {k : HProg M} (hk : k.Bursts f b z) : (testH w u k).Bursts f b (x + z) := by
  refine ⟨by rw [hf.test]; omega, fun (r : Option Bool) => ?_⟩
  rw [hf.test, Nat.add_sub_cancel_left]
  rcases r with _ | _ | _ <;> [trivial; trivial; exact hk]

theorem priced_issueH (hf : Prices f b x y z) {j n : Nat} {k : Src → HProg M} (hk : ∀ s, (k s).Bursts f b n) : (issueH j k).Bursts f b n :=
  ⟨by rw [hf.issue]; omega, fun _ => by
    rw [hf.issue]
    exact fun (r : Option (BytesN saltLength)) => by cases r <;> [trivial; exact hk _]⟩

theorem priced_callerH (hf : Prices f b x y z) {s : Standalone} {t : GoString} {k : Identity → HProg M} (hk : ∀ i, (k i).Bursts f b (x + z)) :
    (callerH P s t k).Bursts f b b :=
  HProg.bursts_after (Nat.le_refl b) _ fun _ => priced_userOkH hf fun _ => HProg.bursts_after (by have := hf.total; omega) _ fun _ => hk _

end

theorem priced_theft {f : HAsk → Nat} {b x y z : Nat} (hf : Prices f b x y z) (P : Prims) (s : Standalone) (j : Nat) (c : DirCall)
    (i : Option Nat) : (theftH P s j c i).Bursts f b b := by
  have ht := hf.total
  cases c with
  | newUser sc =>
    exact HProg.bursts_after (Nat.le_refl b) _ fun _ => priced_issueH hf fun _ => priced_putUserH hf (by omega) (Nat.le_refl b)
  | loginUser u q =>
    rw [theftH]
    refine priced_userH hf fun r => ?_
    cases r with
    | error e => trivial
    | ok user => exact priced_testH hf (HProg.bursts_after (by omega) _ fun _ => trivial)
  | changePassword u q =>
    rw [theftH]
    refine priced_userH hf fun r => ?_
    cases r with
    | error e => trivial
    | ok user => exact priced_testH hf (priced_issueH hf fun _ => priced_putUserH hf (Nat.le_refl z) (by omega))
  | newGroup t sc =>
    rw [theftH]
    exact priced_callerH hf fun i => HProg.bursts_after (by omega) _ fun gid => HProg.bursts_after (by omega) _ fun _ =>
      priced_userOkH hf fun user => HProg.bursts_after (by omega) _ fun gs => priced_putUserH hf (by omega) (by omega)
  | addUser t u gs =>
    rw [theftH]
    exact priced_callerH hf fun i => HProg.bursts_after (by omega) _ fun _ =>
      priced_userOkH hf fun user => HProg.bursts_after (by omega) _ fun gs => priced_putUserH hf (by omega) (by omega)
  | removeUser t u gs =>
    rw [theftH]
    exact priced_callerH hf fun i => HProg.bursts_after (by omega) _ fun _ =>
      priced_userOkH hf fun user => priced_putUserH hf (by omega) (by omega)
  | deleteUser t u => rw [theftH]; exact priced_callerH hf fun i => HProg.bursts_after (by omega) _ fun _ => trivial
  | getIdentity t => rw [theftH]; exact priced_callerH hf fun i => trivial

/-- C104: whoever logs in, or changes a password, with a password of its own that has not the hash of a password that it was told, tells
wrapped keys from other keys, forges AES-GCM ciphertexts, tells AES-GCM ciphertexts from ciphertexts of zeros, or guesses. -/
theorem C104_password {P : Prims} (L : P.Laws) (s : Standalone) {δ : ℝ} (hδ : ∀ p salt, luck P p salt ≤ δ) (A : Thief DirOut) (n : Nat) :
    chance (thiefGame P (fun uek c => (dirCall P (s.withUek uek) c).bind fun r => .ret (keepPassword r)) A n) ≤
      wrapGap P (theftUnwrap P (theftH P s) A n) + forgeGap P (theftForge P (theftH P s) A n) +
        sealGap P (theftSeal P (theftH P s) A n) + n * δ := by
  have hI : ∀ c, withPassword ((passwordOf c).getD []) c = c := fun c => by cases c <;> rfl
  have h := theft_chance L hδ (S := theftH P s) (I := fun c => (grantI P s c).map keepPassword) ?_ ?_ ?_ A n
  · simp only [IProg.expand_map, expand_grantI L s] at h
    exact h
  · refine fun j c ω hj => ⟨?_, fun i hi => ?_⟩
    · have := sim_theft P s j c none ω ((passwordOf c).getD []) hj (fun q hq ω' _ => by rw [hq]; rfl)
      rw [hI] at this
      exact this
    · obtain ⟨b, hb⟩ := hi
      refine sim_theft P s j c (some i) ω _ hj fun q _ ω' hg => ?_
      simp only [wordOf, Word.at, hb, hg.2 i b hb]
  · refine fun j c => ⟨sound_theft P s j c none _ fun h => ?_, fun i => sound_theft P s j c (some i) none fun h => (h rfl).elim⟩
    obtain ⟨p, hp⟩ := Option.ne_none_iff_exists'.mp h
    exact ⟨p, hp, hp, rfl⟩
  · exact fun j c i => priced_theft (x := 1) (y := 0) (z := 0) ⟨fun _ => rfl, fun _ _ => rfl, fun _ _ _ => rfl, fun _ _ => rfl, Nat.le_refl 1⟩ P s j c i

/-- C104: the attacks ask at most two questions for each move of the adversary. -/
theorem C104_questions (P : Prims) (s : Standalone) (A : Thief DirOut) (n : Nat) :
    (theftUnwrap P (theftH P s) A n).Asks (2 * n) ∧ (theftForge P (theftH P s) A n).Asks (2 * n) ∧
      (theftSeal P (theftH P s) A n).Asks n := by
  have h2 : Costs boxCost (2 * n) (theftTree P (theftH P s) A n) := costs_thief (fun _ => rfl) P A (fun j c i => priced_theft (x := 0) (y := 1) (z := 1)
    ⟨fun _ => rfl, fun _ _ => rfl, fun _ _ _ => rfl, fun _ _ => rfl, Nat.le_refl 2⟩ P s j c i) n [] [] [] [] (by simp)
  have h1 : Costs sealCost n (theftTree P (theftH P s) A n) := by
    have := costs_thief (fun _ => rfl) P A (fun j c i => priced_theft (f := sealCost) (b := 1) (x := 0) (y := 0) (z := 1)
      ⟨fun _ => rfl, fun _ _ => rfl, fun _ _ _ => rfl, fun _ _ => rfl, Nat.le_refl 1⟩ P s j c i) n [] [] [] [] (by simp)
    rw [Nat.one_mul] at this
    exact this
  have hb : (toBoxes P (theftTree P (theftH P s) A n) (fun _ => none) []).Asks (2 * n) := asks_toBoxes P _ _ _ h2
  refine ⟨asks_toUnwrap P _ _ hb, fun kek => asks_toForge P kek _ _ hb, fun kek => asks_toBlank P kek _ _ _ h1⟩

/-- C104: if no two passwords that `NewUser` and `ChangeUserPassword` can make have the same hash with the same salt, then a random
one has a given hash with probability at most 1/256^32. -/
theorem C104_luck {P : Prims} (h : ∀ (b b' : BytesN passwordLength) salt, P.pbkdf2 (b64Enc true b.1) salt = P.pbkdf2 (b64Enc true b'.1) salt → b = b')
    (p : GoString) (salt : Bytes) : luck P p salt ≤ 1 / 256 ^ 32 := by
  letI := Fintype.ofFinite (BytesN passwordLength)
  have hcard : Fintype.card (BytesN passwordLength) = 256 ^ 32 := by
    letI := Fintype.ofFinite UInt8
    have h8 : Fintype.card UInt8 = 256 := by
      rw [Fintype.card_congr (⟨UInt8.toFin, UInt8.ofFin, fun _ => rfl, fun _ => rfl⟩ : UInt8 ≃ Fin UInt8.size)]
      exact Fintype.card_fin _
    have := card_vector (α := UInt8) 32
    rw [h8] at this
    rw [← this]
    exact Fintype.card_congr (Equiv.refl _)
  by_cases hx : ∃ b : BytesN passwordLength, P.pbkdf2 (b64Enc true b.1) salt = P.pbkdf2 p salt
  · obtain ⟨b, hb⟩ := hx
    have : ∀ x : BytesN passwordLength, decide (P.pbkdf2 (b64Enc true x.1) salt = P.pbkdf2 p salt) = decide (x = b) := fun x =>
      decide_eq_decide.mpr ⟨fun hx => h x b salt (hx.trans hb.symm), fun hx => hx ▸ hb⟩
    simp only [luck, this]
    rw [chance, PMF.bind_apply, tsum_eq_single b fun x hx => by simp [hx]]
    simp only [decide_true, PMF.pure_apply, if_true, mul_one]
    rw [unif, PMF.uniformOfFintype_apply, hcard]
    norm_num
  · have : ∀ x : BytesN passwordLength, decide (P.pbkdf2 (b64Enc true x.1) salt = P.pbkdf2 p salt) = false := fun x =>
      decide_eq_false fun hb => hx ⟨x, hb⟩
    simp only [luck, this, PMF.bind_const, chance_pure_false]
    positivity

/-- A case for the hypothesis: the hash is the password itself. -/
def plainPrims : Prims :=
  { toyPrims with pbkdf2 := fun p _ => ((b64Dec true p).filter fun b => b.length = 32).getD (List.replicate 32 0) }

theorem plainLaws : plainPrims.Laws :=
  { toyLaws with
    pbkdf2_len := fun p _ => by
      show (((b64Dec true p).filter fun b => b.length = 32).getD (List.replicate 32 0)).length = 32
      cases h : (b64Dec true p).filter fun b => b.length = 32 with
      | none => simp
      | some b => simpa using (Option.filter_eq_some_iff.mp h).2 }

theorem C104_luck_case (p : GoString) (salt : Bytes) : luck plainPrims p salt ≤ 1 / 256 ^ 32 := by
  refine C104_luck (fun b b' salt h => Subtype.ext ?_) p salt
  have key : ∀ b : BytesN passwordLength, plainPrims.pbkdf2 (b64Enc true b.1) salt = b.1 := fun b => by
    show ((b64Dec true (b64Enc true b.1)).filter fun b => b.length = 32).getD (List.replicate 32 0) = b.1
    rw [b64Dec_enc, Option.filter_some, if_pos (by simpa [passwordLength] using b.2)]
    rfl
  rwa [key, key] at h

/-- Logging in with a user record that is opened and accepts the password. -/
theorem login_opened {P : Prims} (L : P.Laws) (s : Standalone) {u p : GoString} {su : SealedUser} {user : User}
    (hs : sanitize su.uid = su.uid) (hu : su.unseal P s.userCryptor = .ok user) (hc : comparePassword P p user.saltAndHash.bytes = some true) :
    ∃ k k', dirCall P s (.loginUser u p) = .op (.get u dtUser) k ∧ k (.ok su.toJ.render) = .op .now k' ∧ ∀ now, ∃ k1,
      k' now = .op (.rand 32) k1 ∧ ∀ key, ∃ k2, k1 (some key) = .op (.rand 12) k2 ∧ ∀ nonce, ∃ r, k2 (some nonce) = .ret r := by
  have hr : (P.unmarshal su.toJ.render).bind SealedUser.ofJ = some su := by
    rw [L.unmarshal_render, Option.bind_some, SealedUser.ofJ_toJ, hs]
  have ha : user.authenticate P p = .ret () := by rw [User.authenticate, hc]; rfl
  obtain ⟨k, hk, hk'⟩ : ∃ k, dirCall P s (.loginUser u p) = .op (.get u dtUser) k ∧
      k (.ok su.toJ.render) = ((newToken (some u) tokenValidity).bind fun tok => ((tok.seal P s.tokenCryptor).mapErr .idNotAuthenticated).bind fun st =>
        .ret (.token (st.string P) st.expiryTime.unix)) := by
    rw [dirCall, loginUser_eq, Standalone.getUser]
    refine ⟨_, rfl, ?_⟩
    simp only [Prog.bind, Prog.ret_bind, Prog.attempt, hr, hu, ha, Prog.ofExcept, Prog.mapErr, Prog.bind_assoc]
  refine ⟨k, _, hk, hk'.trans rfl, fun now => ?_⟩
  simp only [Token.seal, Cryptor.encrypt_eq L, Prog.bind_eq, Prog.pure_eq, randBytes, Prog.bind, Prog.mapErr, Prog.attempt]
  exact ⟨_, rfl, fun key => ⟨_, rfl, fun nonce => ⟨_, rfl⟩⟩⟩

/-- A user that was made up, with a password of the adversary's own. -/
def hollowLogin : SealedUser :=
  let u : User := ⟨some (List.replicate saltLength 0 ++ hollowPrims.pbkdf2 [112] (List.replicate saltLength 0)), 0, some []⟩
  ⟨[65], some (madeUp (.str [65]) u.toJ).2, some (madeUp (.str [65]) u.toJ).1⟩

/-- The adversary logs in with its own password, and answers with the made-up record. -/
def hollowThief : Thief DirOut where
  answer _ e := match e with
    | .get _ _ => .ok hollowLogin.toJ.render
    | e => (Store.exec (fun _ _ => none) (fun _ => none) ⟨0, 0⟩ e).1
  move
    | 3, _ => .order (.loginUser [65] [112]) none
    | _, _ => .step 0

theorem C104_case (s : Standalone) :
    chance (thiefGame hollowPrims (fun uek c => (dirCall hollowPrims (s.withUek uek) c).bind fun r => .ret (keepPassword r)) hollowThief 4) = 1 := by
  have h : ∀ uek, hollowThief.play hollowPrims (fun c => (dirCall hollowPrims (s.withUek uek) c).bind fun r => .ret (keepPassword r)) 4 [] [] [] [] =
      PMF.pure true := by
    intro uek
    have hc := compare_generated hollowPrims [112] ⟨List.replicate saltLength 0, by simp⟩
    have hu : hollowLogin.unseal hollowPrims (s.withUek uek).userCryptor =
        .ok ⟨some (List.replicate saltLength 0 ++ hollowPrims.pbkdf2 [112] (List.replicate saltLength 0)), 0, some []⟩ :=
      decrypt_madeUp uek.1 User.ofJ (.str [65]) _ (by rw [User.ofJ_toJ]; rfl)
    obtain ⟨k, k', h1, h2, h3⟩ := login_opened hollowLaws (s.withUek uek) (u := [65]) (p := [112]) (su := hollowLogin) (by decide) hu hc
    have hm3 : ∀ v, hollowThief.move 3 v = .order (.loginUser [65] [112]) none := fun _ => rfl
    have hm2 : ∀ v, hollowThief.move 2 v = .step 0 := fun _ => rfl
    have hm1 : ∀ v, hollowThief.move 1 v = .step 0 := fun _ => rfl
    have hm0 : ∀ v, hollowThief.move 0 v = .step 0 := fun _ => rfl
    have ha : ∀ v, hollowThief.answer v (.get [65] dtUser) = .ok hollowLogin.toJ.render := fun _ => rfl
    have hs : ∀ now, ∃ f : BytesN 32 → BytesN 12 → DirOut, settle ((k' now).bind fun r => .ret (keepPassword r)) =
        (unif 32).bind fun key => (unif 12).bind fun nonce => PMF.pure (.ret (keepPassword (f key nonce))) := by
      intro now
      obtain ⟨k1, h4, h5⟩ := h3 now
      choose k2 h6 h7 using h5
      choose f h8 using h7
      refine ⟨f, ?_⟩
      rw [h4]
      simp only [Prog.bind, settle, h6, h8]
    simp only [Thief.play, hm3, hm2, hm1, hm0, h1, List.nil_append, List.getElem?_cons_zero, Prog.bind, settle, PMF.pure_bind, nextStep,
      List.set_cons_zero, ha, h2]
    obtain ⟨f, hf⟩ := hs (hollowThief.answer [Glimpse.request 0 ⟨.get [65] dtUser, hollowThief.answer [] (.get [65] dtUser)⟩] .now)
    refine (congrArg (PMF.bind · _) hf).trans ?_
    simp only [PMF.bind_bind, PMF.pure_bind]
    refine Eq.trans ?_ (PMF.bind_const (unif 32) (PMF.pure true))
    refine congrArg (PMF.bind _) (funext fun key => ?_)
    refine Eq.trans ?_ (PMF.bind_const (unif 12) (PMF.pure true))
    refine congrArg (PMF.bind _) (funext fun nonce => ?_)
    refine if_pos ⟨⟨_, rfl⟩, .loginUser [65] [112], [112], rfl, rfl, fun i q hq => ?_⟩
    simp at hq
  simp only [thiefGame, h, PMF.bind_const, chance_true]

end D1
