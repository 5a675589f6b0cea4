import Verif.Props.Opaque
/-!
# Scopes are final: C92

D1 and the index with the Standalone provider.  Users and groups have the scopes that they were created with, for good: no concurrent calls, IO failures
or crashes can change them.  So a call that needs a scope which its caller was not given fails, and touches nothing; and users who were not
given the Decrypt scope learn nothing about the contents of any object, even with all of them working together and whatever others write.
-/
namespace D1
open Spec Prog

/-- The stored users and groups have these scopes. -/
structure ScopesAre (P : Prims) (s : Standalone) (us gs : GoString → Option Scope) (st : Store) : Prop where
  user : ∀ u sc, us u = some sc → ∀ b x, st u dtUser = some b → HoldsUser P s b x → x.scopes = sc
  group : ∀ g sc, gs g = some sc → ∀ b y, st g dtGroup = some b → HoldsGroup P s b y → y.scopes = sc

/-- What is performed to find out who calls. -/
def OnlyAsks (e : Eff) : Prop := e = .now ∨ ∃ x, e = .get x dtUser ∨ e = .get x dtGroup

/-- The caller, found out by the token, was not given the scope. -/
def NotGiven (P : Prims) (s : Standalone) (us : GoString → Option Scope) (token : GoString) (sc : Scope) : Prop :=
  ∃ u sc', Names P s token u ∧ us u = some sc' ∧ scopeIn sc sc' = false

/-- The call needs a scope that its caller was not given. -/
def LacksScope (P : Prims) (s : Standalone) (us : GoString → Option Scope) : ApiCall → Prop
  | .d1 c => NotGiven P s us c.token (docScope c)
  | .index _ c => NotGiven P s us c.token scopeIndex
  | _ => False

/-- The answer to somebody who is not let through. -/
def TurnedAway {α : Type} : Outcome α → Prop
  | .err e => e = .notAuthenticated ∨ e = .notAuthorized ∨ e = .ixNotAuthenticated ∨ e = .ixNotAuthorized
  | _ => False

/-- What is said about an identity. -/
def IdentityAs (us gs : GoString → Option Scope) : Outcome LibRes → Prop
  | .ok (.dir (.identity u sc gr)) => (∀ sc', us u = some sc' → sc = sc') ∧ ∀ g a sc', gr g = some a → gs g = some sc' → a = sc'
  | _ => True

section
variable {P : Prims} (L : P.Laws) {d : D1} {i : SecureIndex} {s : Standalone} {env : Env} {lo : Nat} {us gs : GoString → Option Scope}

local notation "KEPT" => ScopesAre P s us gs
local notation "STEP" => RunStep env lo

/-- Effects that keep the invariant. -/
def LetBe (P : Prims) (s : Standalone) (us gs : GoString → Option Scope) (e : Eff) : Prop :=
  ∀ st r st', ScopesAre P s us gs st → AnyStep st e r st' → ScopesAre P s us gs st'

local notation "LETBE" => LetBe P s us gs

theorem scopes_of_same {st st' : Store} (h : KEPT st) (h1 : ∀ u, us u ≠ none → st' u dtUser = st u dtUser ∨ st' u dtUser = none)
    (h2 : ∀ g, gs g ≠ none → st' g dtGroup = st g dtGroup ∨ st' g dtGroup = none) : KEPT st' := by
  refine ⟨fun u sc hu b x hb => ?_, fun u sc hu b x hb => ?_⟩
  · rcases h1 u (by simp [hu]) with h1 | h1
    · exact h.user u sc hu b x (h1 ▸ hb)
    · rw [h1] at hb; cases hb
  · rcases h2 u (by simp [hu]) with h1 | h1
    · exact h.group u sc hu b x (h1 ▸ hb)
    · rw [h1] at hb; cases hb

theorem letBe_frame {e : Eff} (h1 : ∀ u, us u ≠ none → e.target ≠ some (u, dtUser)) (h2 : ∀ g, gs g ≠ none → e.target ≠ some (g, dtGroup)) : LETBE e :=
  fun _ _ _ h hst => scopes_of_same h (fun u hu => .inl (hst.frame (h1 u hu))) (fun g hg => .inl (hst.frame (h2 g hg)))

theorem letBe_rand (n : Nat) : LETBE (.rand n) := letBe_frame (by simp [Eff.target]) (by simp [Eff.target])
theorem letBe_now : LETBE .now := letBe_frame (by simp [Eff.target]) (by simp [Eff.target])
theorem letBe_get (id : Bytes) (dt : DataType) : LETBE (.get id dt) := letBe_frame (by simp [Eff.target]) (by simp [Eff.target])
theorem letBe_type {e : Eff} {dt : DataType} (h : e.dataType = some dt) (h1 : dt ≠ dtUser) (h2 : dt ≠ dtGroup) : LETBE e := by
  refine letBe_frame (fun u _ => ?_) (fun u _ => ?_) <;> cases e <;> simp only [Eff.dataType, Option.some.injEq, reduceCtorEq] at h <;>
    simp [Eff.target, h, h1, h2]

theorem letBe_delete (id : Bytes) (dt : DataType) : LETBE (.delete id dt) := by
  rintro st r st' h ⟨rnd, clk, hst⟩
  have hd : (st.exec rnd clk (.delete id dt)).2 = st.set id dt none := rfl
  have key : KEPT (st.set id dt none) := by
    refine scopes_of_same h (fun u _ => ?_) (fun u _ => ?_) <;> simp only [Store.set] <;> split <;> simp
  rcases hst with hst | ⟨-, rfl | rfl⟩
  · rw [hst] at hd
    obtain rfl : st' = _ := hd
    exact key
  · exact h
  · exact hd ▸ key

theorem scopes_letBe {α : Type} {R : Outcome α → Prop} {p : Prog α} (hp : AllEff LETBE p) (ho : AllOut R p) : Safe STEP KEPT R p :=
  (safe_frame (Q := LETBE) (fun _ h => h) hp ho).anti fun _ _ _ _ h => h.any

/-! ### Reading users and groups -/

theorem scopes_getUser (uid : GoString) : Safe STEP KEPT (fun o => ∀ x, o = .ok x → ∀ sc, us uid = some sc → x.scopes = sc) (s.getUser P uid) := by
  rw [getUser_op]
  intro st r st' h hst
  obtain ⟨rfl, hr⟩ := anyStep_get (r := r) hst.any
  refine ⟨h, ?_⟩
  rcases hr with hr | rfl
  · cases hs : st' uid dtUser with
    | none => rw [hs] at hr; subst hr; rintro _ ⟨⟩
    | some b =>
      rw [hs] at hr
      subst hr
      show Safe _ _ _ (match (P.unmarshal b).bind SealedUser.ofJ with | none => .err .json | some user => Prog.ofExcept (user.unseal P s.userCryptor))
      cases hu : (P.unmarshal b).bind SealedUser.ofJ with
      | none => rintro _ ⟨⟩
      | some su =>
        simp only
        cases hx : su.unseal P s.userCryptor with
        | error e => rintro _ ⟨⟩
        | ok x =>
          rintro _ ⟨⟩ sc ho
          exact h.user uid sc ho b x hs ⟨su, hu, hx⟩
  · rintro _ ⟨⟩

theorem scopes_getGroup (gid : GoString) : Safe STEP KEPT (fun o => ∀ y, o = .ok y → ∀ sc, gs gid = some sc → y.scopes = sc) (s.getGroup P gid) := by
  rw [Standalone.getGroup, Prog.bind_eq, ioGet, op_bind]
  intro st r st' h hst
  obtain ⟨rfl, hr⟩ := anyStep_get (r := r) hst.any
  refine ⟨h, ?_⟩
  rcases hr with hr | rfl
  · cases hs : st' gid dtGroup with
    | none => rw [hs] at hr; subst hr; rintro _ ⟨⟩
    | some b =>
      rw [hs] at hr
      subst hr
      simp only [ret_bind]
      cases hu : (P.unmarshal b).bind SealedGroup.ofJ with
      | none => rintro _ ⟨⟩
      | some su =>
        simp only
        cases hx : su.unseal P s.groupCryptor with
        | error e => rintro _ ⟨⟩
        | ok x =>
          rintro _ ⟨⟩ sc ho
          exact h.group gid sc ho b x hs ⟨su, hu, hx⟩
  · rintro _ ⟨⟩

theorem scopes_fetchGroups (l : List GoString) : Safe STEP KEPT (fun o => ∀ gr, o = .ok gr → ∀ g a, (g, a) ∈ gr → ∀ sc, gs g = some sc → a.scopes = sc)
    (s.fetchGroups P l) := by
  induction l with
  | nil => rintro _ ⟨⟩ g a hm; cases hm
  | cons x l ih =>
    rw [Standalone.fetchGroups, Prog.bind_eq]
    refine (scopes_getGroup x).bind (fun y hy => ?_) (fun _ _ => by rintro _ ⟨⟩) (fun _ => by rintro _ ⟨⟩) (fun _ => by rintro _ ⟨⟩)
    refine ih.bind (fun gr hgr => ?_) (fun _ _ => by rintro _ ⟨⟩) (fun _ => by rintro _ ⟨⟩) (fun _ => by rintro _ ⟨⟩)
    rintro _ ⟨⟩ g a hm sc hsc
    rcases List.mem_cons.mp hm with hm | hm
    · cases hm; exact hy y rfl sc hsc
    · exact hgr gr rfl g a hm sc hsc

/-- What is known of the caller. -/
def CallerAs (P : Prims) (s : Standalone) (us gs : GoString → Option Scope) (token : GoString) (x : Identity) : Prop :=
  Names P s token x.id ∧ (∀ sc, us x.id = some sc → x.scopes = sc) ∧ ∀ g a, (g, a) ∈ x.groups → ∀ sc, gs g = some sc → a.scopes = sc

theorem scopes_getIdentity (token : GoString) : Safe STEP KEPT (fun o => ∀ x, o = .ok x → CallerAs P s us gs token x) (s.getIdentity P token) := by
  rw [Standalone.getIdentity]
  cases ht : tokenFromString P token with
  | error e => rintro _ ⟨⟩
  | ok t =>
    simp only
    have hun : Safe STEP KEPT (fun o => ∀ tk, o = .ok tk → Names P s token tk.plaintext.bytes) (t.unseal P s.tokenCryptor) := by
      refine scopes_letBe (allEff_tokenUnseal letBe_now _ _) ?_
      rw [SealedToken.unseal]
      intro now
      show AllOut _ (if t.expiryTime.before now = true then _ else _)
      by_cases hexp : t.expiryTime.ns < GoTime.ns now
      · rw [if_pos (by show decide _ = true; simpa using hexp)]
        rintro _ ⟨⟩
      · rw [if_neg (by show ¬ decide _ = true; simpa using hexp)]
        cases hd : s.tokenCryptor.decrypt P J.toBytes (.ofTime P t.expiryTime) t.wrappedKey.bytes t.ciphertext.bytes with
        | error e => rintro _ ⟨⟩
        | ok p =>
          rintro _ ⟨⟩
          refine ⟨GoTime.ns now, ?_⟩
          rw [tokenUser, ht]
          simp only
          rw [if_neg hexp, hd]
    refine hun.attempt ?_ (fun _ _ => by rintro _ ⟨⟩) (fun _ => by rintro _ ⟨⟩) (fun _ => by rintro _ ⟨⟩)
    intro tk htk
    have hn := htk tk rfl
    simp only [Prog.bind_eq, Prog.pure_eq]
    refine (scopes_getUser _).bind ?_ (fun _ _ => by rintro _ ⟨⟩) (fun _ => by rintro _ ⟨⟩) (fun _ => by rintro _ ⟨⟩)
    intro x hx
    refine (scopes_fetchGroups _).bind ?_ (fun _ _ => by rintro _ ⟨⟩) (fun _ => by rintro _ ⟨⟩) (fun _ => by rintro _ ⟨⟩)
    rintro gr hgr _ ⟨⟩
    exact ⟨hn, hx x rfl, hgr gr rfl⟩

/-! ### Writing users -/

include L in
theorem scopes_putUser (hus : ∀ u, us u ≠ none → sanitize u = u) {uid : GoString} {x : User} (hx : ∀ sc, us uid = some sc → x.scopes = sc) (up : Bool) :
    Safe STEP KEPT (fun _ => True) (s.putUser P uid x up) := by
  rw [Standalone.putUser, User.seal, Prog.bind_eq, Prog.bind_eq, Prog.bind_assoc]
  refine ((safe_encrypt L s.userCryptor _ _).anti fun _ _ _ _ h => h.any).bind ?_ (fun _ _ => trivial) (fun h => h.elim) (fun h => h.elim)
  rintro r ⟨k, n, rfl⟩
  show Safe STEP KEPT _ (if up = true then ioUpdate (onNotFound .userNotFound) uid dtUser (sealedUser P s uid x k n).toJ.render
    else ioPut (onAlreadyExists .userAlreadyExists) uid dtUser (sealedUser P s uid x k n).toJ.render)
  have key : ∀ st, KEPT st → KEPT (st.set uid dtUser (some (sealedUser P s uid x k n).toJ.render)) := by
    intro st h
    refine ⟨fun u sc hu b y hb hy => ?_, fun g sc hg b y hb => h.group g sc hg b y ?_⟩
    · by_cases huu : u = uid
      · subst huu
        rw [Store.set_same, Option.some.injEq] at hb
        subst hb
        obtain rfl := holdsUser_sealed L (hus u (by simp [hu])) hy
        exact hx sc hu
      · rw [Store.set_other _ _ _ _ _ _ (fun h => huu h.1)] at hb
        exact h.user u sc hu b y hb hy
    · rwa [Store.set_other _ _ _ _ _ _ (fun h => absurd h.2 (by decide))] at hb
  cases up
  · rw [if_neg (by simp), ioPut]
    intro st r st' h hst
    refine ⟨?_, scopes_letBe (by cases r <;> trivial) allOut_true⟩
    rcases anyStep_put (r := r) hst.any with ⟨-, rfl⟩ | rfl
    · exact key _ h
    · exact h
  · rw [if_pos rfl, ioUpdate]
    intro st r st' h hst
    refine ⟨?_, scopes_letBe (by cases r <;> trivial) allOut_true⟩
    rcases (anyStep_update (r := r) hst.any).1 with rfl | rfl
    · exact h
    · exact key _ h

theorem scopes_newV4 : Safe STEP KEPT (fun o => ∀ u, o = .ok u → ∃ t b, lo ≤ t ∧ env.rand t 16 = some b ∧ u = mkV4 b) newV4 := by
  rw [newV4, randBytes, Prog.bind_eq, op_bind]
  intro st r st' h hst
  refine ⟨letBe_rand 16 st r st' h hst.any, ?_⟩
  cases r with
  | none => rintro _ ⟨⟩
  | some b =>
    obtain ⟨t, h0, ht⟩ := hst.rand
    rintro _ ⟨⟩
    exact ⟨t, b, h0, ht, rfl⟩

theorem changePassword_scopes (x : User) (p : GoString) : AllOut (fun o => ∀ r, o = .ok r → r.1.scopes = x.scopes) (x.changePassword P p) := by
  rw [User.changePassword]
  refine (allOut_true (p := x.authenticate P p)).bind ?_ (fun _ _ => by rintro _ ⟨⟩) (fun _ => by rintro _ ⟨⟩) (fun _ => by rintro _ ⟨⟩)
  intro _ _
  refine (allOut_true (p := generatePassword P)).bind ?_ (fun _ _ => by rintro _ ⟨⟩) (fun _ => by rintro _ ⟨⟩) (fun _ => by rintro _ ⟨⟩)
  rintro _ _ _ ⟨⟩
  rfl

include L in
/-- The calls of the Standalone provider. -/
theorem scopes_dir (hus : ∀ u, us u ≠ none → sanitize u = u) (hdraw : ∀ t b, lo ≤ t → env.rand t 16 = some b → us (newName b) = none ∧ gs (newName b) = none)
    (c : DirCall) : Safe STEP KEPT (fun _ => True) (dirProg P s c) := by
  have fin : ∀ {α β : Type} {R : Outcome α → Prop} {p : Prog α} (k : α → β), Safe STEP KEPT R p → Safe STEP KEPT (fun _ => True) (p.bind fun r => .ret (k r)) :=
    fun k h => h.bind (fun _ _ => trivial) (fun _ _ => trivial) (fun _ => trivial) (fun _ => trivial)
  cases c with
  | newUser sc =>
    refine fin _ (R := fun _ => True) ?_
    refine scopes_newV4.bind (fun u hu => ?_) (fun _ _ => trivial) (fun _ => trivial) (fun _ => trivial)
    refine Safe.bind (R := fun _ => True) (scopes_letBe ?_ allOut_true) (fun r hr => ?_) (fun _ _ => trivial) (fun _ => trivial) (fun _ => trivial)
    · exact AllEff.bind (allEff_generatePassword letBe_rand) fun _ => trivial
    · refine (scopes_putUser L hus (fun sc h => ?_) false).bind (fun _ _ => trivial) (fun _ _ => trivial) (fun _ => trivial) (fun _ => trivial)
      obtain ⟨t, b, h0, hb, rfl⟩ := hu u rfl
      have := (hdraw t b h0 hb).1
      simp only [newName] at this
      rw [this] at h
      cases h
  | loginUser u p => exact fin _ (scopes_letBe (R := fun _ => True) (allEff_loginUser letBe_rand letBe_now (letBe_get _ _) p) allOut_true)
  | changePassword u p =>
    refine fin _ (R := fun _ => True) ?_
    rw [Standalone.changeUserPassword, Prog.bind_eq]
    refine Safe.bind (R := fun o => ∀ x, o = .ok x → ∀ sc, us u = some sc → x.scopes = sc) ?_ (fun x hx => ?_) (fun _ _ => trivial) (fun _ => trivial) (fun _ => trivial)
    · refine (scopes_getUser u).attempt (fun x hx => ?_) (fun _ _ => by rintro _ ⟨⟩) (fun _ => by rintro _ ⟨⟩) (fun _ => by rintro _ ⟨⟩)
      rintro _ ⟨⟩
      exact hx x rfl
    rw [Prog.bind_eq]
    refine Safe.bind (R := fun o => ∀ r, o = .ok r → r.1.scopes = x.scopes) ?_ (fun r hr => ?_) (fun _ _ => trivial) (fun _ => trivial) (fun _ => trivial)
    · refine (scopes_letBe (allEff_changePassword letBe_rand x p) (changePassword_scopes x p)).attempt (fun r hr => ?_)
        (fun _ _ => by rintro _ ⟨⟩) (fun _ => by rintro _ ⟨⟩) (fun _ => by rintro _ ⟨⟩)
      rintro _ ⟨⟩
      exact hr r rfl
    refine (scopes_putUser L hus (fun sc h => ?_) true).bind (fun _ _ => trivial) (fun _ _ => trivial) (fun _ => trivial) (fun _ => trivial)
    rw [hr r rfl]
    exact hx x rfl sc h
  | newGroup t sc =>
    refine fin _ (R := fun _ => True) ?_
    refine (scopes_getIdentity t).bind (fun i hi => ?_) (fun _ _ => trivial) (fun _ => trivial) (fun _ => trivial)
    refine scopes_newV4.bind (fun u hu => ?_) (fun _ _ => trivial) (fun _ => trivial) (fun _ => trivial)
    obtain ⟨tm, b, h0, hb, rfl⟩ := hu u rfl
    have hnew := (hdraw tm b h0 hb).2
    refine (scopes_letBe (R := fun _ => True) (allEff_putGroup letBe_rand (fun b' => letBe_frame (fun _ _ => ?_) (fun g hg => ?_))) allOut_true).bind (fun _ _ => ?_)
      (fun _ _ => trivial) (fun _ => trivial) (fun _ => trivial)
    · simp only [Eff.target, ne_eq, Option.some.injEq, Prod.mk.injEq, not_and]
      intro _
      decide
    · simp only [Eff.target, ne_eq, Option.some.injEq, Prod.mk.injEq, and_true]
      rintro rfl
      exact hg hnew
    refine (scopes_getUser i.id).bind (fun x hx => ?_) (fun _ _ => trivial) (fun _ => trivial) (fun _ => trivial)
    show Safe _ _ _ ((Prog.ofPanic ((addToSet x.groups [uuidText (mkV4 b)]).map fun g => { x with groups := g })).bind _)
    cases ha : addToSet x.groups [uuidText (mkV4 b)] with
    | none => trivial
    | some gr => exact (scopes_putUser L hus (fun sc h => (by exact hx x rfl sc h)) true).bind (fun _ _ => trivial) (fun _ _ => trivial) (fun _ => trivial) (fun _ => trivial)
  | addUser t u gs' =>
    refine fin _ (R := fun _ => True) ?_
    refine (scopes_getIdentity t).bind (fun i hi => ?_) (fun _ _ => trivial) (fun _ => trivial) (fun _ => trivial)
    refine (scopes_letBe (R := fun _ => True) (allEff_checkMembership _ _) allOut_true).bind (fun _ _ => ?_) (fun _ _ => trivial) (fun _ => trivial) (fun _ => trivial)
    refine (scopes_getUser u).bind (fun x hx => ?_) (fun _ _ => trivial) (fun _ => trivial) (fun _ => trivial)
    show Safe _ _ _ ((Prog.ofPanic ((addToSet x.groups gs').map fun g => { x with groups := g })).bind _)
    cases ha : addToSet x.groups gs' with
    | none => trivial
    | some gr => exact scopes_putUser L hus (fun sc h => (by exact hx x rfl sc h)) true
  | removeUser t u gs' =>
    refine fin _ (R := fun _ => True) ?_
    refine (scopes_getIdentity t).bind (fun i hi => ?_) (fun _ _ => trivial) (fun _ => trivial) (fun _ => trivial)
    refine (scopes_letBe (R := fun _ => True) (allEff_checkMembership _ _) allOut_true).bind (fun _ _ => ?_) (fun _ _ => trivial) (fun _ => trivial) (fun _ => trivial)
    refine (scopes_getUser u).bind (fun x hx => ?_) (fun _ _ => trivial) (fun _ => trivial) (fun _ => trivial)
    exact scopes_putUser L hus (fun sc h => (by exact hx x rfl sc h)) true
  | deleteUser t u =>
    exact fin _ (scopes_letBe (R := fun _ => True) (allEff_deleteUser letBe_now (fun _ => letBe_get _ _) (fun _ => letBe_get _ _) (letBe_delete _ _) _) allOut_true)
  | getIdentity t =>
    refine fin _ (R := fun _ => True) ?_
    exact (scopes_getIdentity t).mono fun _ _ => trivial

/-! ### All calls -/

theorem letBe_identity (t : GoString) : AllEff LETBE (s.getIdentity P t) := allEff_getIdentity letBe_now (fun _ => letBe_get _ _) (fun _ => letBe_get _ _) t

include L in
theorem scopes_api (hus : ∀ u, us u ≠ none → sanitize u = u) (hdraw : ∀ t b, lo ≤ t → env.rand t 16 = some b → us (newName b) = none ∧ gs (newName b) = none)
    (hd : d.idProvider = s.getIdentity P) (hi : i.idProvider = s.getIdentity P) (c : ApiCall) : Safe STEP KEPT (fun _ => True) (answerProg P d i s c) := by
  have h1 : ∀ (e : Eff) (dt : DataType), e.dataType = some dt → (dt = dtObject ∨ dt = dtAccess) → LETBE e := by
    rintro e dt h (rfl | rfl) <;> exact letBe_type h (by decide) (by decide)
  refine safe_forget ?_
  rw [← apiProg_answer]
  have fin : ∀ {α β : Type} {R : Outcome α → Prop} {p : Prog α} (k : α → β), Safe STEP KEPT R p → Safe STEP KEPT (fun _ => True) (p.bind fun r => .ret (k r)) :=
    fun k h => h.bind (fun _ _ => trivial) (fun _ _ => trivial) (fun _ => trivial) (fun _ => trivial)
  cases c with
  | d1 c => exact fin _ (scopes_letBe (R := fun _ => True) (allEff_call c (hd ▸ letBe_identity _) letBe_rand fun e dt h h' _ => h1 e dt h h') allOut_true)
  | dir c => exact fin _ (scopes_dir L hus hdraw c)
  | createToken p =>
    refine fin _ (scopes_letBe (R := fun _ => True) ?_ allOut_true)
    exact AllEff.bind (AllEff.bind (allEff_now letBe_now) fun _ => trivial) fun _ => AllEff.bind (allEff_encrypt letBe_rand _ _ _) fun _ => trivial
  | tokenContents t =>
    exact fin _ (scopes_letBe (R := fun _ => True) (AllEff.bind (allEff_tokenUnseal letBe_now _ _) fun _ => trivial) allOut_true)
  | index fuel c =>
    refine fin _ (scopes_letBe (R := fun _ => True) ?_ allOut_true)
    have hn : ∀ e : Eff, e.dataType = some dtNode → LETBE e := fun e h => letBe_type h (by decide) (by decide)
    have hi' : ∀ t, AllEff LETBE (i.idProvider t) := fun t => hi ▸ letBe_identity t
    cases c with
    | add t kw x => exact AllEff.bind (allEff_add (hi' _) letBe_rand hn _ _ _) fun _ => trivial
    | search t kw => exact AllEff.bind (allEff_search (hi' _) (fun _ => hn _ rfl) _ _) fun _ => trivial
    | delete t kw x => exact AllEff.bind (allEff_delete (hi' _) letBe_rand hn _ _ _) fun _ => trivial

/-- Every call of D1 begins with finding out the caller. -/
theorem call_verifies (c : Call) : ∃ K, callProg P d c = (d.verifyAccess c.token (docScope c)).bind K := by
  cases c with
  | encrypt t o gs => exact ⟨_, Prog.bind_assoc ..⟩
  | update t x o => simp only [callProg, update_eq, guardProg, Prog.bind_assoc]; exact ⟨_, rfl⟩
  | decrypt t x => simp only [callProg, decrypt_eq, guardProg, Prog.bind_assoc]; exact ⟨_, rfl⟩
  | delete t x => exact ⟨_, Prog.bind_assoc ..⟩
  | getGroups t x => simp only [callProg, getAccessGroups_eq, guardProg, Prog.bind_assoc]; exact ⟨_, rfl⟩
  | addGroups t x gs => simp only [callProg, addGroupsToAccess_eq, guardProg, Prog.bind_assoc]; exact ⟨_, rfl⟩
  | removeGroups t x gs => simp only [callProg, removeGroupsFromAccess_eq, guardProg, Prog.bind_assoc]; exact ⟨_, rfl⟩
  | authorize t x => simp only [callProg, authorizeIdentity_eq, guardProg, Prog.bind_assoc]; exact ⟨_, rfl⟩

theorem asks_identity (t : GoString) : AllEff OnlyAsks (s.getIdentity P t) :=
  allEff_getIdentity (.inl rfl) (fun x => .inr ⟨x, .inl rfl⟩) (fun x => .inr ⟨x, .inr rfl⟩) t

theorem not_given {token : GoString} {sc : Scope} (h : NotGiven P s us token sc) {x : Identity} (hx : CallerAs P s us gs token x) : x.scopes.contains sc = false := by
  obtain ⟨u, sc', h1, h2, h3⟩ := h
  obtain rfl := names_unique h1 hx.1
  rw [hx.2.1 sc' h2, ← scopeIn_eq, h3]

/-- Neither a panic nor an endless loop. -/
def Ends {α : Type} (p : Prog α) : Prop := AllOut (fun o => o ≠ .panic ∧ o ≠ .diverge) p

theorem Ends.bind {α β : Type} {p : Prog α} {k : α → Prog β} (h : Ends p) (hk : ∀ a, Ends (k a)) : Ends (p.bind k) :=
  AllOut.bind h (fun a _ => hk a) (fun _ _ => ⟨nofun, nofun⟩) (fun h => absurd rfl h.1) (fun h => absurd rfl h.2)

theorem Ends.attempt {α β : Type} {p : Prog α} {k : Except Err α → Prog β} (h : Ends p) (hk : ∀ a, Ends (k a)) : Ends (p.attempt k) :=
  AllOut.attempt h (fun a _ => hk _) (fun a _ => hk _) (fun h => absurd rfl h.1) (fun h => absurd rfl h.2)

theorem ends_ret {α : Type} (a : α) : Ends (.ret a) := ⟨nofun, nofun⟩
theorem ends_err {α : Type} (e : Err) : Ends (.err e : Prog α) := ⟨nofun, nofun⟩
theorem ends_ofExcept {α : Type} (x : Except Err α) : Ends (Prog.ofExcept x) := by cases x <;> exact ⟨nofun, nofun⟩
theorem ends_ioGet (f : IoErr → Err) (x : Bytes) (dt : DataType) : Ends (ioGet f x dt) := fun r => by cases r <;> exact ⟨nofun, nofun⟩

theorem ends_getIdentity (t : GoString) : Ends (s.getIdentity P t) := by
  unfold Standalone.getIdentity
  split
  · exact ends_err _
  · refine Ends.attempt ?_ fun r => ?_
    · intro now
      show Ends (if _ then _ else _)
      split
      · exact ends_err _
      · exact (ends_ofExcept _).bind fun _ => ends_ret _
    · cases r with
      | error e => exact ends_err _
      | ok t =>
        have hu : ∀ u, Ends (s.getUser P u) := fun u => (ends_ioGet _ _ _).bind fun b => by
          split
          · exact ends_err _
          · exact ends_ofExcept _
        have hg : ∀ l, Ends (s.fetchGroups P l) := by
          intro l
          induction l with
          | nil => exact ends_ret _
          | cons g l ih =>
            refine Ends.bind ((ends_ioGet _ _ _).bind fun b => ?_) fun _ => ih.bind fun _ => ends_ret _
            split
            · exact ends_err _
            · exact ends_ofExcept _
        exact (hu _).bind fun u => (hg _).bind fun _ => ends_ret _

theorem Safe.and_out {S α : Type} {step : S → (e : Eff) → e.Resp → S → Prop} {I : S → Prop} {R R' : Outcome α → Prop} {p : Prog α} (h : Safe step I R p)
    (h' : AllOut R' p) : Safe step I (fun o => R o ∧ R' o) p := by
  induction p with
  | op e k ih => exact fun s r s' h1 h2 => ⟨(h s r s' h1 h2).1, ih r (h s r s' h1 h2).2 (h' r)⟩
  | _ => exact ⟨h, h'⟩

/-- Whoever was not given the scope is not let through. -/
theorem scopes_verifyAccess (hd : d.idProvider = s.getIdentity P) {t : GoString} {sc : Scope} (h : NotGiven P s us t sc) :
    Safe STEP KEPT TurnedAway (d.verifyAccess t sc) := by
  rw [D1.verifyAccess, hd]
  refine ((scopes_getIdentity t).and_out (ends_getIdentity t)).attempt (fun x hx => ?_) (fun _ _ => .inl rfl) (fun h => absurd rfl h.2.1) (fun h => absurd rfl h.2.2)
  simp only [not_given h (hx.1 x rfl), Bool.not_false, if_true]
  exact .inr (.inl rfl)

theorem scopes_ixVerifyAccess (hi : i.idProvider = s.getIdentity P) {t : GoString} (h : NotGiven P s us t scopeIndex) :
    Safe STEP KEPT TurnedAway (i.verifyAccess t) := by
  rw [SecureIndex.verifyAccess, hi]
  refine ((scopes_getIdentity t).and_out (ends_getIdentity t)).attempt (fun x hx => ?_) (fun _ _ => .inr (.inr (.inl rfl))) (fun h => absurd rfl h.2.1) (fun h => absurd rfl h.2.2)
  simp only [not_given h (hx.1 x rfl), Bool.not_false, if_true]
  exact .inr (.inr (.inr rfl))

theorem scopes_lacking (hd : d.idProvider = s.getIdentity P) (hi : i.idProvider = s.getIdentity P) {c : ApiCall} (h : LacksScope P s us c) :
    Within STEP KEPT OnlyAsks TurnedAway (answerProg P d i s c) := by
  have fin : ∀ {α β : Type} {p : Prog α} (k : α → Prog β), Within STEP KEPT OnlyAsks TurnedAway p →
      Within STEP KEPT OnlyAsks TurnedAway (p.bind k) :=
    fun k h => h.bind (fun a ha => ha.elim) (fun _ h => h) (fun h => h) (fun h => h)
  cases c with
  | d1 c =>
    refine fin _ ?_
    obtain ⟨K, hK⟩ := call_verifies (P := P) (d := d) c
    rw [hK]
    exact fin _ ((scopes_verifyAccess hd h).within (allEff_verifyAccess (hd ▸ asks_identity _) _))
  | index fuel c =>
    refine fin _ ?_
    cases c <;> exact fin _ (fin _ ((scopes_ixVerifyAccess hi h).within (allEff_ixVerifyAccess (hi ▸ asks_identity _))))
  | _ => exact h.elim

theorem Within.weaken {S α : Type} {step : S → (e : Eff) → e.Resp → S → Prop} {I : S → Prop} {E : Eff → Prop} {R R' : Outcome α → Prop}
    (hr : ∀ o, R o → R' o) {p : Prog α} (h : Within step I E R p) : Within step I E R' p := by
  induction p with
  | op e k ih => exact ⟨h.1, fun s r s' h1 h2 => ⟨(h.2 s r s' h1 h2).1, ih r (h.2 s r s' h1 h2).2⟩⟩
  | _ => exact hr _ h

theorem lookupGroup_mem {l : List (GoString × AccessGroup)} {g : GoString} {a : AccessGroup} (h : lookupGroup l g = some a) : (g, a) ∈ l := by
  induction l with
  | nil => cases h
  | cons x l ih =>
    simp only [lookupGroup] at h
    split at h
    next hx => cases h; subst hx; exact List.mem_cons_self
    next => exact List.mem_cons_of_mem _ (ih h)

include L in
/-- C92.  D1 and the index identify their callers with the Standalone provider; `us` and `gs` say which scopes some users and groups have at the start, and new IDs are
none of theirs.  Any calls of the whole library run concurrently, with any IO failures and crashes.  Then at the end the stored users and groups still have these scopes,
every identity that was handed out has them, and every call that needs a scope which its caller does not have was turned away, and performed nothing but
reading user and group records and the clock. -/
theorem C92_scopes (hd : d.idProvider = s.getIdentity P) (hi : i.idProvider = s.getIdentity P) (hus : ∀ u, us u ≠ none → sanitize u = u) {w : World}
    (h0 : ScopesAre P s us gs w.store) (hdraw : ∀ t b, w.t ≤ t → env.rand t 16 = some b → us (newName b) = none ∧ gs (newName b) = none)
    (calls : List ApiCall) (sch : List Nat) :
    ScopesAre P s us gs (sched env sch w (calls.map (answerProg P d i s))).1.store ∧
    (∀ (j : Nat) t, calls[j]? = some (.dir (.getIdentity t)) → ∀ o, (j, o) ∈ commits env sch w (calls.map (answerProg P d i s)) → IdentityAs us gs o) ∧
    ∀ (j : Nat) c, calls[j]? = some c → LacksScope P s us c → (∀ o, (j, o) ∈ commits env sch w (calls.map (answerProg P d i s)) → TurnedAway o) ∧
      ∀ e, (j, e) ∈ performed env sch w (calls.map (answerProg P d i s)) → OnlyAsks e := by
  have key := Within.sched (env := env) (lo := w.t) (I := ScopesAre P s us gs)
    (E := fun j e => ∀ c, calls[j]? = some c → LacksScope P s us c → OnlyAsks e)
    (R := fun j o => ∀ c, calls[j]? = some c → (LacksScope P s us c → TurnedAway o) ∧ ((∃ t, c = .dir (.getIdentity t)) → IdentityAs us gs o))
    sch (w := w) (ps := calls.map (answerProg P d i s)) le_rfl h0 fun j p hp => by
      rw [List.getElem?_map, Option.map_eq_some_iff] at hp
      obtain ⟨c, hj, rfl⟩ := hp
      by_cases hl : LacksScope P s us c
      · have := scopes_lacking (env := env) (lo := w.t) (gs := gs) hd hi hl
        refine (this.mono fun e he c' hc' _ => he).weaken fun o ho c' hc' => ⟨fun _ => ho, ?_⟩
        rw [hj] at hc'
        cases hc'
        rintro ⟨t, rfl⟩
        exact hl.elim
      · have he : AllEff (fun e => ∀ c, calls[j]? = some c → LacksScope P s us c → OnlyAsks e) (answerProg P d i s c) := by
          refine allEff_true.mono fun e _ c' hc' h => ?_
          rw [hj] at hc'
          cases hc'
          exact absurd h hl
        by_cases hx : ∃ t, c = .dir (.getIdentity t)
        · obtain ⟨t, rfl⟩ := hx
          refine Safe.within ?_ he
          simp only [answerProg, dirProg, Prog.bind_assoc, ret_bind]
          refine (scopes_getIdentity t).bind (fun x hx => ?_) ?_ ?_ ?_
          · intro c hc
            rw [hj] at hc
            cases hc
            refine ⟨fun h => h.elim, fun _ => ⟨(hx x rfl).2.1, fun g a sc' h1 h2 => ?_⟩⟩
            obtain ⟨y, h3, rfl⟩ := Option.map_eq_some_iff.mp h1
            exact (hx x rfl).2.2 g y (lookupGroup_mem h3) sc' h2
          all_goals
            intros
            rename_i c hc
            rw [hj] at hc
            cases hc
            exact ⟨fun h => h.elim, fun _ => trivial⟩
        · refine ((scopes_api L hus hdraw hd hi c).mono fun o _ c' hc' => ?_).within he
          rw [hj] at hc'
          cases hc'
          exact ⟨fun h => absurd h hl, fun h => absurd h hx⟩
  exact ⟨key.1, fun j t hj o ho => (key.2.1 j o ho _ hj).2 ⟨t, rfl⟩,
    fun j c hj hl => ⟨fun o ho => (key.2.1 j _ ho c hj).1 hl, fun e he => key.2.2 j e he c hj hl⟩⟩

/-- The stores hold the same users and groups. -/
theorem ScopesAre.of_same {st st' : Store} (h : ScopesAre P s us gs st) (hs : SameLists P d st st') : ScopesAre P s us gs st' :=
  scopes_of_same h (fun u _ => .inl (hs.other u dtUser (by decide) (by decide)).symm) fun g _ => .inl (hs.other g dtGroup (by decide) (by decide)).symm

include L in
/-- C92 for users without the Decrypt scope.  Two executions differ only in contents, as in C91: those given to Encrypt and Update and those that are stored already.  If everybody
who calls Decrypt is a user that was not given the Decrypt scope, all answers of all calls are the same, whatever else is called at the same time. -/
theorem C92_write_only (hd : d.idProvider = s.getIdentity P) (hi : i.idProvider = s.getIdentity P) (hus : ∀ u, us u ≠ none → sanitize u = u) {st st' : Store} {t : Nat}
    (hs : SameLists P d st st') (h0 : ScopesAre P s us gs st)
    (hdraw : ∀ n b, t ≤ n → env.rand n 16 = some b → us (newName b) = none ∧ gs (newName b) = none)
    {calls calls' : List ApiCall} (hc : List.Forall₂ ApiSameButContents calls calls')
    (hdec : ∀ tk o, .d1 (.decrypt tk o) ∈ calls → NotGiven P s us tk scopeDecrypt) (sch : List Nat) :
    commits env sch ⟨st, t⟩ (calls.map (answerProg P d i s)) = commits env sch ⟨st', t⟩ (calls'.map (answerProg P d i s)) := by
  obtain ⟨h1, -, -⟩ := C91_contents (env := env) (t := t) L (fun t => hd ▸ aside_identity t) hi hs hc sch
  obtain ⟨-, -, h2⟩ := C92_scopes (env := env) (w := ⟨st, t⟩) L hd hi hus h0 hdraw calls sch
  have away : ∀ {o : Outcome LibRes}, TurnedAway o → ¬ Opened o := by
    rintro (_ | e | _ | _) h h' <;> first | exact h | skip
    rcases h with rfl | rfl | rfl | rfl <;> rcases h' with h' | h' | h' <;> cases h'
  have key : ∀ {l l' : List (Nat × Outcome LibRes)}, (∀ x ∈ l, x ∈ commits env sch ⟨st, t⟩ (calls.map (answerProg P d i s))) →
      List.Forall₂ (fun x y => x.1 = y.1 ∧ ∃ c, calls[x.1]? = some c ∧ SameAnswer c x.2 y.2) l l' → l = l' := by
    intro l l' hl h
    induction h with
    | nil => rfl
    | @cons x y l l' h _ ih =>
      obtain ⟨e1, c, hj, hs⟩ := h
      rcases hs with hs | ⟨⟨tk, o, rfl⟩, ho, -⟩
      · rw [ih fun x hx => hl x (List.mem_cons_of_mem _ hx), Prod.ext e1 hs]
      · exact absurd ho (away ((h2 x.1 _ hj (hdec tk o (List.mem_of_getElem? hj))).1 x.2 (hl x List.mem_cons_self)))
  exact key (fun _ h => h) h1

/-- The initial condition in terms of the directory. -/
theorem scopesAre_of_rel (L : P.Laws) {st : Store} {v : Dir} (h : DirRel P s st v) :
    ScopesAre P s (fun u => (v.users u).map (·.scopes)) v.groups st := by
  refine ⟨fun u sc hu b x hb hx => ?_, fun g sc hg b y hb hy => ?_⟩
  · obtain ⟨du, hv, rfl⟩ := Option.map_eq_some_iff.mp hu
    have hrel := h.1 u
    rw [hv] at hrel
    obtain ⟨hash, k, n, hst, -, q1, q2, q3⟩ := hrel
    rw [hst, Option.some.injEq] at hb
    subst hb
    obtain rfl := holdsUser_sealed L q1 hx
    rfl
  · have hrel := h.2 g
    rw [hg] at hrel
    obtain ⟨k, n, hst, hsan⟩ := hrel
    rw [hst, Option.some.injEq] at hb
    subst hb
    obtain ⟨sg, h1, h2⟩ := hy
    rw [L.unmarshal_render, Option.bind_some, SealedGroup.ofJ_toJ] at h1
    cases h1
    simp only [sealedGroup, hsan, SealedGroup.unseal, NBytes.bytes, Option.getD_some] at h2
    rw [Cryptor.decrypt_box L, Group.ofJ_toJ] at h2
    cases h2
    rfl

include L in
/-- C92 in terms of the directory: a call of D1 that needs a scope which the caller does not have in the directory at the start is turned away, whatever is called at the same time. -/
theorem C92_directory (hd : d.idProvider = s.getIdentity P) (hi : i.idProvider = s.getIdentity P) {w : World} {v : Dir} (h0 : DirRel P s w.store v)
    (hdraw : ∀ t b, w.t ≤ t → env.rand t 16 = some b → v.users (newName b) = none ∧ v.groups (newName b) = none) (calls : List ApiCall) (sch : List Nat)
    {j : Nat} {c : Call} (hj : calls[j]? = some (.d1 c)) {u : GoString} {x : DirUser} (hn : Names P s c.token u) (hu : v.users u = some x)
    (hx : scopeIn (docScope c) x.scopes = false) : ∀ o, (j, o) ∈ commits env sch w (calls.map (answerProg P d i s)) → TurnedAway o := by
  refine ((C92_scopes L hd hi (fun u hu => ?_) (scopesAre_of_rel L h0) (fun t b h h' => ?_) calls sch).2.2 j _ hj ⟨u, x.scopes, hn, by simp [hu], hx⟩).1
  · have := h0.1 u
    cases hv : v.users u with
    | none => rw [hv] at hu; exact absurd rfl hu
    | some y => rw [hv] at this; exact this.choose_spec.choose_spec.choose_spec.2.2.1
  · obtain ⟨h1, h2⟩ := hdraw t b h h'
    exact ⟨by simp [h1], h2⟩

/-- A store with an object and a user on its access list that was not given the Decrypt scope. -/
def muteStore (P : Prims) (d : D1) (s : Standalone) (o : Object) : Store :=
  (secretStore P d s o [[97]]).set [97] dtUser (some (sealedUser P s [97] ⟨some (List.replicate 48 0), scopeEncrypt ||| scopeUpdate, some []⟩ raceKey raceNonce).toJ.render)

include L in
/-- The user with the ID `a` is on the access list, but has only the scopes Encrypt and Update: whatever that user calls, the answers are the same for all contents. -/
theorem C92_case (hd : d.idProvider = s.getIdentity P) (hi : i.idProvider = s.getIdentity P) (o o' : Object) {tok : GoString} (htok : Names P s tok [97])
    (calls : List Call) (hc : ∀ c ∈ calls, c.token = tok) (sch : List Nat) :
    commits env sch ⟨muteStore P d s o, 0⟩ ((calls.map .d1).map (answerProg P d i s)) =
      commits env sch ⟨muteStore P d s o', 0⟩ ((calls.map .d1).map (answerProg P d i s)) := by
  have hsame : SameLists P d (muteStore P d s o) (muteStore P d s o') := by
    have h := C91_case (P := P) (d := d) (s := s) L o o' [[97]]
    refine ⟨fun x dt h1 h2 => ?_, fun x => ?_, fun x => ?_⟩
    · simp only [muteStore, Store.set]
      split
      · rfl
      · exact h.other x dt h1 h2
    · simp only [muteStore]
      rw [Store.set_other _ _ _ _ _ _ fun h => absurd h.2 (by decide), Store.set_other _ _ _ _ _ _ fun h => absurd h.2 (by decide)]
      exact h.object x
    · simp only [muteStore]
      rw [Store.set_other _ _ _ _ _ _ fun h => absurd h.2 (by decide), Store.set_other _ _ _ _ _ _ fun h => absurd h.2 (by decide)]
      exact h.access x
  have hself : ∀ c, ApiSameButContents c c := by
    rintro (c | _ | _ | _ | _) <;> first | rfl | skip
    cases c <;> first | rfl | exact ⟨rfl, rfl⟩
  refine C92_write_only L hd hi (us := fun u => if u = [97] then some (scopeEncrypt ||| scopeUpdate) else none) (gs := fun _ => none) (fun u hu => ?_) hsame
    ⟨fun u sc hu b x hb hx => ?_, fun g sc hg => by cases hg⟩ (fun n b _ _ => ⟨?_, rfl⟩) (List.forall₂_same.mpr fun c _ => hself c) (fun tk x hm => ?_) sch
  · split at hu
    next h => subst h; decide
    next => exact absurd rfl hu
  · split at hu
    next h =>
      subst h
      rw [muteStore, Store.set_same, Option.some.injEq] at hb
      subst hb
      obtain rfl := holdsUser_sealed L (by decide) hx
      exact Option.some.inj hu
    next => cases hu
  · refine if_neg fun h => ?_
    have := congrArg List.length h
    rw [newName, uuidText_length] at this
    cases this
  · obtain ⟨c, h1, h2⟩ := List.mem_map.mp hm
    cases h2
    refine ⟨[97], _, ?_, if_pos rfl, by decide⟩
    obtain rfl : tk = tok := hc _ h1
    exact htok

end
end D1
