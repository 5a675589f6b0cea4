import Verif.Proofs.DirRun
import Verif.Props.Guard
import Verif.Proofs.Frame
/-!
# The Standalone provider: C37, C38, C39, C40, C41, C42, C43
-/
namespace D1
open Spec Prog

/-- Run calls one after the other and collect what the callers see. -/
def dirCodeHist (P : Prims) (s : Standalone) (env : Env) : World → List DirCall → List (Outcome DirRes)
  | _, [] => []
  | w, c :: r => ((dirProg P s c).run env w).1 :: dirCodeHist P s env ((dirProg P s c).run env w).2 r

/-- The world after a list of calls. -/
def dirCodeAfter (P : Prims) (s : Standalone) (env : Env) : World → List DirCall → World
  | w, [] => w
  | w, c :: r => dirCodeAfter P s env ((dirProg P s c).run env w).2 r

/-- The inputs that come from outside, at each call. -/
def dirAnnotate (P : Prims) (s : Standalone) (env : Env) : World → List DirCall → List (DirIn × DirCall)
  | _, [] => []
  | w, c :: r => (dirIn P s env w c, c) :: dirAnnotate P s env ((dirProg P s c).run env w).2 r

/-- The directory after a list of calls. -/
def dirAfter : Dir → List (DirIn × DirCall) → Dir
  | v, [] => v
  | v, (i, c) :: r => dirAfter (dirStep v i c).2 r

/-- The empty directory. -/
def emptyDir : Dir := ⟨fun _ => none, fun _ => none⟩

section
variable {P : Prims} (L : P.Laws) {s : Standalone} {env : Env}

theorem dirRel_empty {st : Store} (h : ∀ x, st x dtUser = none ∧ st x dtGroup = none) : DirRel P s st emptyDir :=
  ⟨fun x => (h x).1, fun x => (h x).2⟩

/-! ## C38 -/

include L in
/-- C38: from any store that represents a directory, the results of any sequence of calls are the results of the directory. -/
theorem C38_directory_from (hf : NoFault env) (hr : RandOk env) (calls : List DirCall) {v : Dir} {w : World}
    (h : DirRel P s w.store v) :
    dirCodeHist P s env w calls = (dirHist v (dirAnnotate P s env w calls)).map toOutcome ∧
    DirRel P s (dirCodeAfter P s env w calls).store (dirAfter v (dirAnnotate P s env w calls)) := by
  induction calls generalizing v w with
  | nil => exact ⟨rfl, h⟩
  | cons c r ih =>
    obtain ⟨w', h1, h2, -⟩ := run_dirCall L hf hr h c
    simp only [dirCodeHist, dirAnnotate, dirHist, dirCodeAfter, dirAfter, List.map_cons]
    rw [h1]
    obtain ⟨h3, h4⟩ := ih h2
    exact ⟨by rw [h3], h4⟩

include L in
/-- C38: starting without users and groups, any sequence of calls gives the results of a plain directory. -/
theorem C38_directory (hf : NoFault env) (hr : RandOk env) (calls : List DirCall) {w : World}
    (h : ∀ x, w.store x dtUser = none ∧ w.store x dtGroup = none) :
    dirCodeHist P s env w calls = (dirHist emptyDir (dirAnnotate P s env w calls)).map toOutcome :=
  (C38_directory_from L hf hr calls (dirRel_empty h)).1

/-! ## Facts about the directory -/

theorem asCaller_keeps {v : Dir} {who : Option GoString} {f : GoString → DirUser → Except Err DirRes × Dir} {Q : Dir → Prop}
    (h0 : Q v) (h : ∀ me u, v.identify who = .ok (me, u) → v.users me = some u → Q (f me u).2) : Q (v.asCaller who f).2 := by
  unfold Dir.asCaller
  cases hi : v.identify who with
  | error e => exact h0
  | ok x =>
    obtain ⟨me, u⟩ := x
    refine h me u hi ?_
    unfold Dir.identify at hi
    cases who with
    | none => simp at hi
    | some uid =>
      simp only at hi
      cases hu : v.users uid with
      | none => rw [hu] at hi; simp at hi
      | some u' =>
        rw [hu] at hi
        simp only at hi
        split at hi
        · simp only [Except.ok.injEq, Prod.mk.injEq] at hi
          rw [← hi.1, ← hi.2, hu]
        · simp at hi

/-- Only a successful password change or deletion of a user changes which passwords it accepts; nothing changes its scopes. -/
theorem dirStep_keeps {v : Dir} {uid : GoString} {u : DirUser} (h : v.users uid = some u) (i : DirIn) (c : DirCall)
    (hd : ∀ t, c = .deleteUser t uid → (dirStep v i c).1 ≠ .ok .unit) :
    ∃ u', (dirStep v i c).2.users uid = some u' ∧ u'.scopes = u.scopes ∧
      ((∀ p q, c = .changePassword uid p → (dirStep v i c).1 ≠ .ok (.password q)) → u'.accepts = u.accepts) := by
  have keep : ∃ u', v.users uid = some u' ∧ u'.scopes = u.scopes ∧ u'.accepts = u.accepts := ⟨u, h, rfl, rfl⟩
  have weaken : ∀ {X : Dir} {H : Prop}, (∃ u', X.users uid = some u' ∧ u'.scopes = u.scopes ∧ u'.accepts = u.accepts) →
      ∃ u', X.users uid = some u' ∧ u'.scopes = u.scopes ∧ (H → u'.accepts = u.accepts) :=
    fun ⟨a, b, c, d⟩ => ⟨a, b, c, fun _ => d⟩
  have upd : ∀ (X : Dir) (x : GoString) (y : DirUser) (g : List GoString), X.users = v.users → v.users x = some y →
      ∃ u', (X.setUser x (some { y with groups := g })).users uid = some u' ∧ u'.scopes = u.scopes ∧ u'.accepts = u.accepts := by
    intro X x y g hX hx
    by_cases hxu : uid = x
    · subst hxu
      rw [h] at hx
      cases hx
      exact ⟨_, if_pos rfl, rfl, rfl⟩
    · exact ⟨u, by rw [Dir.setUser]; simp only [if_neg hxu, hX, h], rfl, rfl⟩
  cases c with
  | newUser sc =>
    simp only [dirStep]
    cases hn : v.users i.newId with
    | some _ => exact weaken keep
    | none =>
      have hxu : uid ≠ i.newId := fun he => by rw [he, hn] at h; cases h
      exact weaken ⟨u, by rw [Dir.setUser]; simp only [if_neg hxu, h], rfl, rfl⟩
  | loginUser x p =>
    refine weaken ?_
    simp only [dirStep]
    cases v.users x with
    | none => exact keep
    | some y => simp only; split <;> exact keep
  | changePassword x p =>
    simp only [dirStep]
    cases hx : v.users x with
    | none => exact weaken keep
    | some y =>
      simp only
      by_cases ha : y.accepts p
      · rw [if_pos ha]
        by_cases hxu : uid = x
        · subst hxu
          rw [h] at hx
          cases hx
          exact ⟨_, if_pos rfl, rfl, fun hh => absurd rfl (hh p i.password rfl)⟩
        · exact weaken ⟨u, by rw [Dir.setUser]; simp only [if_neg hxu, h], rfl, rfl⟩
      · rw [if_neg ha]
        exact weaken keep
  | newGroup t sc =>
    refine weaken ?_
    simp only [dirStep]
    refine asCaller_keeps (Q := fun X => ∃ u', X.users uid = some u' ∧ u'.scopes = u.scopes ∧ u'.accepts = u.accepts) keep fun me y _ hme => ?_
    cases v.groups i.newId with
    | some _ => exact keep
    | none => exact upd _ _ _ _ rfl hme
  | addUser t x gs =>
    refine weaken ?_
    simp only [dirStep]
    refine asCaller_keeps (Q := fun X => ∃ u', X.users uid = some u' ∧ u'.scopes = u.scopes ∧ u'.accepts = u.accepts) keep fun me y _ hme => ?_
    split
    · cases hx : v.users x with
      | none => exact keep
      | some z => exact upd _ _ _ _ rfl hx
    · exact keep
  | removeUser t x gs =>
    refine weaken ?_
    simp only [dirStep]
    refine asCaller_keeps (Q := fun X => ∃ u', X.users uid = some u' ∧ u'.scopes = u.scopes ∧ u'.accepts = u.accepts) keep fun me y _ hme => ?_
    split
    · cases hx : v.users x with
      | none => exact keep
      | some z => exact upd _ _ _ _ rfl hx
    · exact keep
  | deleteUser t x =>
    refine weaken ?_
    by_cases hxu : x = uid
    · subst hxu
      have := hd t rfl
      simp only [dirStep, Dir.asCaller] at this ⊢
      cases hi : v.identify i.who with
      | error e => exact keep
      | ok y => rw [hi] at this; exact absurd rfl this
    · simp only [dirStep]
      refine asCaller_keeps (Q := fun X => ∃ u', X.users uid = some u' ∧ u'.scopes = u.scopes ∧ u'.accepts = u.accepts) keep fun me y _ hme => ?_
      exact ⟨u, by rw [Dir.setUser]; simp only [if_neg (Ne.symm hxu), h], rfl, rfl⟩
  | getIdentity t =>
    refine weaken ?_
    simp only [dirStep]
    exact asCaller_keeps (Q := fun X => ∃ u', X.users uid = some u' ∧ u'.scopes = u.scopes ∧ u'.accepts = u.accepts) keep fun me y _ hme => keep

/-- Only a successful `NewUser` that draws this ID creates a user. -/
theorem dirStep_absent {v : Dir} {uid : GoString} (h : v.users uid = none) (i : DirIn) (c : DirCall)
    (hn : ∀ p, (dirStep v i c).1 ≠ .ok (.user uid p)) : (dirStep v i c).2.users uid = none := by
  have upd : ∀ (X : Dir) (x : GoString) (y : DirUser) (z : Option DirUser), X.users = v.users → v.users x = some y →
      (X.setUser x z).users uid = none := by
    intro X x y z hX hx
    have hxu : uid ≠ x := fun he => by rw [he, hx] at h; cases h
    rw [Dir.setUser]; simp only [if_neg hxu, hX, h]
  cases c with
  | newUser sc =>
    simp only [dirStep] at hn ⊢
    cases hx : v.users i.newId with
    | some _ => exact h
    | none =>
      rw [hx] at hn
      have hxu : uid ≠ i.newId := fun he => hn i.password (by rw [he])
      rw [Dir.setUser]; simp only [if_neg hxu, h]
  | loginUser x p =>
    simp only [dirStep]
    cases v.users x with
    | none => exact h
    | some y => simp only; split <;> exact h
  | changePassword x p =>
    simp only [dirStep]
    cases hx : v.users x with
    | none => exact h
    | some y => simp only; split; exacts [upd _ _ _ _ rfl hx, h]
  | newGroup t sc =>
    simp only [dirStep]
    refine asCaller_keeps (Q := fun X => X.users uid = none) h fun me y _ hme => ?_
    cases v.groups i.newId with
    | some _ => exact h
    | none => exact upd _ _ _ _ rfl hme
  | addUser t x gs =>
    simp only [dirStep]
    refine asCaller_keeps (Q := fun X => X.users uid = none) h fun me y _ hme => ?_
    split
    · cases hx : v.users x with
      | none => exact h
      | some z => exact upd _ _ _ _ rfl hx
    · exact h
  | removeUser t x gs =>
    simp only [dirStep]
    refine asCaller_keeps (Q := fun X => X.users uid = none) h fun me y _ hme => ?_
    split
    · cases hx : v.users x with
      | none => exact h
      | some z => exact upd _ _ _ _ rfl hx
    · exact h
  | deleteUser t x =>
    simp only [dirStep]
    refine asCaller_keeps (Q := fun X => X.users uid = none) h fun me y _ hme => ?_
    rw [Dir.setUser]; simp only
    split
    · rfl
    · exact h
  | getIdentity t =>
    simp only [dirStep]
    exact asCaller_keeps (Q := fun X => X.users uid = none) h fun me y _ hme => h

/-! ## C37 -/

/-- No call of the list successfully changes the password of the user or deletes it. -/
def Untouched (P : Prims) (s : Standalone) (env : Env) (uid : GoString) : World → List DirCall → Prop
  | _, [] => True
  | w, c :: r => (∀ p q, c = .changePassword uid p → ((dirProg P s c).run env w).1 ≠ .ok (.password q)) ∧
      (∀ t, c = .deleteUser t uid → ((dirProg P s c).run env w).1 ≠ .ok .unit) ∧
      Untouched P s env uid ((dirProg P s c).run env w).2 r

theorem toOutcome_ne {α : Type} {x : Except Err α} {a : α} (h : (toOutcome x : Outcome α) ≠ .ok a) : x ≠ .ok a := by
  rintro rfl; exact h rfl

include L in
theorem untouched_accepts (hf : NoFault env) (hr : RandOk env) (calls : List DirCall) {v : Dir} {w : World} {uid : GoString}
    {u : DirUser} (h : DirRel P s w.store v) (hu : v.users uid = some u) (hc : Untouched P s env uid w calls) :
    ∃ v' u', DirRel P s (dirCodeAfter P s env w calls).store v' ∧ v'.users uid = some u' ∧ u'.accepts = u.accepts ∧
      u'.scopes = u.scopes := by
  induction calls generalizing v w u with
  | nil => exact ⟨v, u, h, hu, rfl, rfl⟩
  | cons c r ih =>
    obtain ⟨w', h1, h2, -⟩ := run_dirCall L hf hr h c
    simp only [Untouched, h1] at hc
    obtain ⟨hc1, hc2, hc3⟩ := hc
    obtain ⟨u1, hu1, hs1, ha1⟩ := dirStep_keeps hu (dirIn P s env w c) c fun t ht => toOutcome_ne (hc2 t ht)
    have ha1' := ha1 fun p q hp => toOutcome_ne (hc1 p q hp)
    obtain ⟨v', u', h3, h4, h5, h6⟩ := ih h2 hu1 hc3
    simp only [dirCodeAfter, h1]
    exact ⟨v', u', h3, h4, h5.trans ha1', h6.trans hs1⟩

include L in
/-- C37: in a store that represents a directory, `LoginUser` succeeds exactly if the user's record accepts the password, and
otherwise it answers `ErrNotAuthenticated`, whether the user exists or not. -/
theorem C37_login (hf : NoFault env) (hr : RandOk env) {v : Dir} {w : World} (h : DirRel P s w.store v) (uid pwd : GoString) :
    (∃ r, ((s.loginUser P uid pwd).run env w).1 = .ok r ∧ ∃ u, v.users uid = some u ∧ u.accepts pwd = true) ∨
    (((s.loginUser P uid pwd).run env w).1 = .err .idNotAuthenticated ∧ ∀ u, v.users uid = some u → u.accepts pwd = false) := by
  obtain ⟨w', h1, _⟩ := run_loginUser L hf hr h uid pwd
  simp only [dirProg, dirStep] at h1
  have hrun : ∀ o, ((s.loginUser P uid pwd).bind fun r => (.ret (.token (tokenUser P s.tokenCryptor r.1) r.2) : Prog DirRes)).run env w = (o, w') →
      (∃ r, ((s.loginUser P uid pwd).run env w).1 = .ok r ∧ ∃ x, o = .ok x) ∨
        (∃ e, ((s.loginUser P uid pwd).run env w).1 = .err e ∧ o = .err e) ∨ o = .panic ∨ o = .diverge := by
    intro o ho
    rw [Prog.run_bind] at ho
    rcases hx : (s.loginUser P uid pwd).run env w with ⟨x, w1⟩
    rw [hx] at ho
    cases x with
    | ok r => exact .inl ⟨r, rfl, _, (Prod.mk.inj ho).1.symm⟩
    | err e => exact .inr (.inl ⟨e, rfl, (Prod.mk.inj ho).1.symm⟩)
    | panic => exact .inr (.inr (.inl (Prod.mk.inj ho).1.symm))
    | diverge => exact .inr (.inr (.inr (Prod.mk.inj ho).1.symm))
  cases hu : v.users uid with
  | none =>
    rw [hu] at h1
    rcases hrun _ h1 with ⟨_, _, x, hx⟩ | ⟨e, he, hx⟩ | hx | hx <;> simp only [toOutcome, Outcome.err.injEq, reduceCtorEq] at hx
    subst hx
    exact .inr ⟨he, by simp⟩
  | some u =>
    rw [hu] at h1
    simp only at h1
    cases ha : u.accepts pwd with
    | true =>
      rw [if_pos ha] at h1
      rcases hrun _ h1 with ⟨r, hr, x, hx⟩ | ⟨e, he, hx⟩ | hx | hx <;> simp only [toOutcome, reduceCtorEq] at hx
      exact .inl ⟨r, hr, u, rfl, ha⟩
    | false =>
      rw [if_neg (by simp [ha])] at h1
      rcases hrun _ h1 with ⟨_, _, x, hx⟩ | ⟨e, he, hx⟩ | hx | hx <;> simp only [toOutcome, Outcome.err.injEq, reduceCtorEq] at hx
      subst hx
      refine .inr ⟨he, ?_⟩
      intro u' hu'
      cases hu'
      exact ha

include L in
/-- C37: after `NewUser` or `ChangeUserPassword` returned a password for `uid`, and as long as no other password change or deletion
of `uid` succeeds, whatever else is called, `LoginUser` succeeds for that password, and for another only if PBKDF2 maps both to the
same hash. -/
theorem C37_current_password (hf : NoFault env) (hr : RandOk env) {v : Dir} {w : World} (h : DirRel P s w.store v)
    (first : DirCall) (rest : List DirCall) (uid pwd : GoString)
    (hfirst : ((dirProg P s first).run env w).1 = .ok (.user uid pwd) ∨
      ∃ old, first = .changePassword uid old ∧ ((dirProg P s first).run env w).1 = .ok (.password pwd))
    (hrest : Untouched P s env uid ((dirProg P s first).run env w).2 rest) :
    ∃ salt : Bytes, salt.length = saltLength ∧ ∀ p,
      (∃ r, ((s.loginUser P uid p).run env (dirCodeAfter P s env w (first :: rest))).1 = .ok r) ↔
        P.pbkdf2 p salt = P.pbkdf2 pwd salt := by
  obtain ⟨w', h1, h2, -⟩ := run_dirCall L hf hr h first
  rw [h1] at hfirst hrest
  simp only [dirCodeAfter, h1]
  have hacc : ∃ u, (dirStep v (dirIn P s env w first) first).2.users uid = some u ∧ u.accepts = drawnAccepts P env (w.t + 1) ∧
      pwd = drawnPassword env (w.t + 1) := by
    have hok : ∀ {x : Except Err DirRes} {y}, (toOutcome x : Outcome DirRes) = .ok y → x = .ok y := by
      intro x y hxy
      cases x <;> simp only [toOutcome, Outcome.ok.injEq, reduceCtorEq] at hxy
      rw [hxy]
    rcases hfirst with hfirst | ⟨old, rfl, hfirst⟩
    · have hfirst := hok hfirst
      have caller : ∀ {who f}, (Dir.asCaller v who f).1 = .ok (.user uid pwd) → ∃ me u, (f me u).1 = .ok (.user uid pwd) := by
        intro who f hh
        rw [Dir.asCaller] at hh
        cases hi : v.identify who with
        | error e => rw [hi] at hh; simp at hh
        | ok x => rw [hi] at hh; exact ⟨_, _, hh⟩
      cases first with
      | newUser sc =>
        simp only [dirStep] at hfirst ⊢
        cases hn : v.users (dirIn P s env w (.newUser sc)).newId with
        | some _ => rw [hn] at hfirst; simp at hfirst
        | none =>
          rw [hn] at hfirst
          simp only [Except.ok.injEq, DirRes.user.injEq] at hfirst
          refine ⟨⟨(dirIn P s env w (.newUser sc)).accepts, allScopes sc, []⟩, ?_, rfl, hfirst.2.symm⟩
          rw [← hfirst.1]
          exact if_pos rfl
      | loginUser x p =>
        simp only [dirStep] at hfirst
        cases hx : v.users x with
        | none => rw [hx] at hfirst; simp at hfirst
        | some y =>
          rw [hx] at hfirst
          simp only at hfirst
          split at hfirst <;> simp at hfirst
      | changePassword x p =>
        simp only [dirStep] at hfirst
        cases hx : v.users x with
        | none => rw [hx] at hfirst; simp at hfirst
        | some y =>
          rw [hx] at hfirst
          simp only at hfirst
          split at hfirst <;> simp at hfirst
      | newGroup t sc =>
        obtain ⟨me, u, hh⟩ := caller hfirst
        cases hg : v.groups (dirIn P s env w (.newGroup t sc)).newId <;> simp [hg] at hh
      | addUser t x gs =>
        obtain ⟨me, u, hh⟩ := caller hfirst
        split at hh
        · cases hx : v.users x <;> simp [hx] at hh
        · simp at hh
      | removeUser t x gs =>
        obtain ⟨me, u, hh⟩ := caller hfirst
        split at hh
        · cases hx : v.users x <;> simp [hx] at hh
        · simp at hh
      | deleteUser t x => obtain ⟨me, u, hh⟩ := caller hfirst; simp at hh
      | getIdentity t => obtain ⟨me, u, hh⟩ := caller hfirst; simp at hh
    · have hfirst := hok hfirst
      simp only [dirStep] at hfirst ⊢
      cases hx : v.users uid with
      | none => rw [hx] at hfirst; simp at hfirst
      | some y =>
        rw [hx] at hfirst
        simp only at hfirst ⊢
        by_cases ha : y.accepts old
        · rw [if_pos ha] at hfirst ⊢
          simp only [Except.ok.injEq, DirRes.password.injEq] at hfirst
          exact ⟨{ y with accepts := (dirIn P s env w (.changePassword uid old)).accepts }, if_pos rfl, rfl, hfirst.symm⟩
        · rw [if_neg ha] at hfirst; simp at hfirst
  obtain ⟨u, hu, hua, hpwd⟩ := hacc
  obtain ⟨v', u', h3, h4, h5, _⟩ := untouched_accepts L hf hr rest h2 hu hrest
  refine ⟨(drawn env (w.t + 1 + 1) saltLength).1, (drawn env (w.t + 1 + 1) saltLength).2, fun p => ?_⟩
  have hacc : u'.accepts p = true ↔ P.pbkdf2 p (drawn env (w.t + 1 + 1) saltLength).1 = P.pbkdf2 pwd (drawn env (w.t + 1 + 1) saltLength).1 := by
    rw [h5, hua, hpwd, drawnAccepts, decide_eq_true_eq]
  rw [← hacc]
  rcases C37_login L hf hr h3 uid p with ⟨r, hr1, u2, hu2, ha2⟩ | ⟨he, hno⟩
  · rw [h4] at hu2; cases hu2
    exact ⟨fun _ => ha2, fun _ => ⟨r, hr1⟩⟩
  · constructor
    · rintro ⟨r, hr1⟩; rw [he] at hr1; cases hr1
    · intro ha; rw [hno u' h4] at ha; cases ha

/-- C37: with any IO Provider, any stored bytes and any faults, every error of `LoginUser` is `ErrNotAuthenticated`. -/
theorem C37_errors {uid pwd : GoString} {tr : List Event} {e : Err} (h : Yields (s.loginUser P uid pwd) tr (.err e)) :
    e = .idNotAuthenticated := by
  have hm : ∀ {α : Type} {p : Prog α} {e' x : Err} {tr : List Event}, Yields (p.mapErr e') tr (.err x) → x = e' := by
    intro α p e' x tr hh
    rw [Prog.mapErr, yields_attempt] at hh
    rcases hh with ⟨_, _, _, _, _, hh⟩ | ⟨_, _, _, _, _, hh⟩ | ⟨_, hh⟩ | ⟨_, hh⟩
    · simp [yields_ret] at hh
    · simp [yields_err] at hh; exact hh.2
    · cases hh
    · cases hh
  rw [loginUser_eq, yields_bind] at h
  rcases h with ⟨_, _, user, _, _, h⟩ | ⟨e', h, he⟩ | ⟨_, h⟩ | ⟨_, h⟩
  · rw [yields_bind] at h
    rcases h with ⟨_, _, _, _, _, h⟩ | ⟨e', h, he⟩ | ⟨_, h⟩ | ⟨_, h⟩
    · rw [yields_bind] at h
      rcases h with ⟨_, _, t, _, _, h⟩ | ⟨e', h, he⟩ | ⟨_, h⟩ | ⟨_, h⟩
      · rw [yields_bind] at h
        rcases h with ⟨_, _, st, _, _, h⟩ | ⟨e', h, he⟩ | ⟨_, h⟩ | ⟨_, h⟩
        · simp [yields_ret] at h
        · cases he; exact hm h
        · cases h
        · cases h
      · exfalso
        rw [newToken, Prog.bind_eq, yields_bind] at h
        rcases h with ⟨_, _, t, _, _, h⟩ | ⟨e', h, he'⟩ | ⟨_, h⟩ | ⟨_, h⟩
        · simp [yields_ret] at h
        · have ht : timeNow = .op .now fun r => .ret r := rfl
          rw [ht, yields_op] at h
          obtain ⟨_, _, _, h⟩ := h
          cases h
        · cases h
        · cases h
      · cases h
      · cases h
    · cases he; exact hm h
    · cases h
    · cases h
  · cases he; exact hm h
  · cases h
  · cases h

/-! ## C39 -/

include L in
/-- C39: for a token that says `uid`, while the user and its groups exist, `GetIdentity` returns that ID, the user's scopes, and as
groups exactly those the user is in, each with its own ID and the scopes of the group. -/
theorem C39_identity (hf : NoFault env) {v : Dir} {w : World} (h : DirRel P s w.store v) {token uid : GoString} {u : DirUser}
    (ht : tokenUser P s.tokenCryptor token (env.now w.t).ns = some uid) (hu : v.users uid = some u)
    (hg : ∀ g ∈ u.groups, (v.groups g).isSome = true) :
    ∃ i, ((s.getIdentity P token).run env w).1 = .ok i ∧ i.id = uid ∧ i.scopes = u.scopes ∧ i.groups.map Prod.fst = u.groups ∧
      ∀ g, lookupGroup i.groups g = if g ∈ u.groups then (v.groups g).map fun sc => ⟨g, sc⟩ else none := by
  obtain ⟨w', _, h1⟩ := run_getIdentity L hf h token
  have hall : (u.groups.all fun g => (v.groups g).isSome) = true := List.all_eq_true.mpr hg
  rw [ht] at h1
  simp only [Dir.identify, hu, hall, if_true, Except.map, toOutcome] at h1
  rw [h1]
  refine ⟨_, rfl, rfl, rfl, by simp [dirIdentity, Function.comp_def], fun g => ?_⟩
  simp only [dirIdentity]
  clear h1 hall hu
  revert hg
  generalize u.groups = l
  intro hg
  induction l with
  | nil => rfl
  | cons a l ih =>
    simp only [List.map_cons, lookupGroup]
    by_cases hag : a = g
    · subst hag
      obtain ⟨sc, hsc⟩ := Option.isSome_iff_exists.mp (hg a (by simp))
      simp [hsc]
    · rw [if_neg hag]
      rw [ih fun g hg' => hg g (by simp [hg'])]
      have : (g ∈ a :: l) = (g ∈ l) := by simp [Ne.symm hag]
      simp only [this]

include L in
/-- C39: the scopes stay those given at `NewUser`, whatever is called, until the user is deleted. -/
theorem C39_scopes (hf : NoFault env) (hr : RandOk env) {v : Dir} {w : World} (h : DirRel P s w.store v) (sc : List Scope)
    (rest : List DirCall) {uid pwd : GoString} (hnew : ((dirProg P s (.newUser sc)).run env w).1 = .ok (.user uid pwd))
    (hrest : ∀ c ∈ rest, ∀ t, c ≠ .deleteUser t uid) :
    ∃ v' u', DirRel P s (dirCodeAfter P s env w (.newUser sc :: rest)).store v' ∧ v'.users uid = some u' ∧ u'.scopes = allScopes sc := by
  obtain ⟨w', h1, h2, -⟩ := run_dirCall L hf hr h (.newUser sc)
  rw [h1] at hnew
  simp only [dirCodeAfter, h1]
  have hu : ∃ u, (dirStep v (dirIn P s env w (.newUser sc)) (.newUser sc)).2.users uid = some u ∧ u.scopes = allScopes sc := by
    simp only [dirStep] at hnew ⊢
    cases hn : v.users (dirIn P s env w (.newUser sc)).newId with
    | some _ => rw [hn] at hnew; simp [toOutcome] at hnew
    | none =>
      rw [hn] at hnew
      simp only [toOutcome, Outcome.ok.injEq, DirRes.user.injEq] at hnew
      refine ⟨⟨(dirIn P s env w (.newUser sc)).accepts, allScopes sc, []⟩, ?_, rfl⟩
      rw [← hnew.1]
      exact if_pos rfl
  obtain ⟨u, hu, hsc⟩ := hu
  generalize (dirStep v (dirIn P s env w (.newUser sc)) (.newUser sc)).2 = v1 at h2 hu
  clear h1 hnew
  induction rest generalizing v1 w' u with
  | nil => exact ⟨v1, u, h2, hu, hsc⟩
  | cons c r ih =>
    obtain ⟨w2, h3, h4, _⟩ := run_dirCall L hf hr h2 c
    simp only [dirCodeAfter, h3]
    obtain ⟨u1, hu1, hs1, _⟩ := dirStep_keeps hu (dirIn P s env w' c) c fun t ht => absurd ht (hrest c (by simp) t)
    exact ih (fun c hc => hrest c (by simp [hc])) w2 u1 (hs1.trans hsc) _ h4 hu1

include L in
/-- C39: after `DeleteUser` succeeded, `GetIdentity` fails for every token of that user, at once and as long as no `NewUser` draws the
same ID again. -/
theorem C39_deleted (hf : NoFault env) (hr : RandOk env) {v : Dir} {w : World} (h : DirRel P s w.store v) {token uid : GoString}
    (rest : List DirCall) (hdel : ((dirProg P s (.deleteUser token uid)).run env w).1 = .ok .unit)
    (hrest : ∀ r ∈ dirCodeHist P s env ((dirProg P s (.deleteUser token uid)).run env w).2 rest, ∀ p, r ≠ .ok (.user uid p))
    {t : GoString} (ht : tokenUser P s.tokenCryptor t (env.now (dirCodeAfter P s env w (.deleteUser token uid :: rest)).t).ns = some uid) :
    ((s.getIdentity P t).run env (dirCodeAfter P s env w (.deleteUser token uid :: rest))).1 = .err .userNotFound := by
  obtain ⟨w', h1, h2, -⟩ := run_dirCall L hf hr h (.deleteUser token uid)
  rw [h1] at hdel hrest
  simp only [dirCodeAfter, h1] at ht ⊢
  have hu : (dirStep v (dirIn P s env w (.deleteUser token uid)) (.deleteUser token uid)).2.users uid = none := by
    simp only [dirStep, Dir.asCaller] at hdel ⊢
    cases hi : v.identify (dirIn P s env w (.deleteUser token uid)).who with
    | error e => rw [hi] at hdel; simp [toOutcome] at hdel
    | ok x => exact if_pos rfl
  generalize (dirStep v (dirIn P s env w (.deleteUser token uid)) (.deleteUser token uid)).2 = v1 at h2 hu
  clear h1 hdel
  simp only at hrest
  induction rest generalizing v1 w' with
  | nil =>
    simp only [dirCodeAfter] at ht ⊢
    obtain ⟨w2, _, h3⟩ := run_getIdentity L hf h2 t
    rw [ht] at h3
    simp only [Dir.identify, hu, Except.map, toOutcome] at h3
    rw [h3]
  | cons c r ih =>
    obtain ⟨w2, h3, h4, _⟩ := run_dirCall L hf hr h2 c
    simp only [dirCodeHist, List.mem_cons] at hrest
    rw [h3] at hrest
    simp only [dirCodeAfter, h3] at ht ⊢
    exact ih w2 (fun r hr => hrest r (.inr hr)) ht _ h4 (dirStep_absent hu _ _ fun p => toOutcome_ne (hrest _ (.inl rfl) p))

/-! ## C40 -/

/-- The program is the membership check and nothing but reads happens before it has passed. -/
theorem members_checked {token : GoString} {gids : List GoString} {α : Type} {K : Prog α} {tr : List Event} {out : Outcome α}
    (h : Yields ((s.getIdentity P token).bind fun i => (checkMembership i gids).bind fun _ => K) tr out)
    (hw : ∃ ev ∈ tr, ev.1.isWrite = true) :
    ∃ trI rest i, tr = trI ++ rest ∧ Yields (s.getIdentity P token) trI (.ok i) ∧ ∀ g ∈ gids, g ∈ i.getIDs := by
  have hro : ∀ tr o, Yields (s.getIdentity P token) tr o → ∀ ev ∈ tr, ev.1.isWrite = false := fun tr o hy =>
    (allEff_getIdentity (Q := fun e => e.isWrite = false) rfl (fun _ => rfl) (fun _ => rfl) token).yields hy
  obtain ⟨ev, hev, hwr⟩ := hw
  rcases yields_bind.mp h with ⟨tr1, tr2, i, rfl, h1, h2⟩ | ⟨e, h1, _⟩ | ⟨h1, _⟩ | ⟨h1, _⟩
  · refine ⟨tr1, tr2, i, rfl, h1, ?_⟩
    rw [checkMembership] at h2
    split at h2
    · rename_i hall
      simpa using hall
    · simp only [Prog.err_bind] at h2
      obtain ⟨rfl, _⟩ := yields_err.mp h2
      have := hro _ _ h1 ev (by simpa using hev)
      rw [this] at hwr
      cases hwr
  all_goals
    have := hro _ _ h1 ev hev
    rw [this] at hwr
    cases hwr

/-- C40, partial: with any IO Provider, if `AddUserToGroups` writes anything, then the caller was authenticated and every named group
is one of the caller's groups or the caller's own ID.  Missing from the full claim: the caller's own ID is accepted although no
such group exists (`C40_own_id_accepted`). -/
theorem C40_add_members_partial {token uid : GoString} {gids : List GoString} {tr : List Event} {out : Outcome Unit}
    (h : Yields (s.addUserToGroups P token uid gids) tr out) (hw : ∃ ev ∈ tr, ev.1.isWrite = true) :
    ∃ trI rest i, tr = trI ++ rest ∧ Yields (s.getIdentity P token) trI (.ok i) ∧
      ∀ g ∈ gids, g = i.id ∨ g ∈ i.groups.map Prod.fst := by
  obtain ⟨trI, rest, i, h1, h2, h3⟩ := members_checked h hw
  refine ⟨trI, rest, i, h1, h2, fun g hg => ?_⟩
  have := h3 g hg
  rw [Identity.getIDs, mem_foldl_setInsert] at this
  simpa [eq_comm, or_comm] using this

/-- C40, partial: the same for `RemoveUserFromGroups`. -/
theorem C40_remove_members_partial {token uid : GoString} {gids : List GoString} {tr : List Event} {out : Outcome Unit}
    (h : Yields (s.removeUserFromGroups P token uid gids) tr out) (hw : ∃ ev ∈ tr, ev.1.isWrite = true) :
    ∃ trI rest i, tr = trI ++ rest ∧ Yields (s.getIdentity P token) trI (.ok i) ∧
      ∀ g ∈ gids, g = i.id ∨ g ∈ i.groups.map Prod.fst := by
  obtain ⟨trI, rest, i, h1, h2, h3⟩ := members_checked h hw
  refine ⟨trI, rest, i, h1, h2, fun g hg => ?_⟩
  have := h3 g hg
  rw [Identity.getIDs, mem_foldl_setInsert] at this
  simpa [eq_comm, or_comm] using this

include L in
/-- C40 is false of the code: a caller adds any user to the "group" with the caller's own ID, although no such group exists. -/
theorem C40_own_id_accepted (hf : NoFault env) (hr : RandOk env) {v : Dir} {w : World} (h : DirRel P s w.store v)
    {token me uid : GoString} {u x : DirUser}
    (hi : v.identify (tokenUser P s.tokenCryptor token (env.now w.t).ns) = .ok (me, u)) (hx : v.users uid = some x) :
    ∃ w', (s.addUserToGroups P token uid [me]).run env w = (.ok (), w') ∧
      DirRel P s w'.store (v.setUser uid (some { x with groups := addAll x.groups [me] })) := by
  obtain ⟨w', h1, h2, -⟩ := run_dirCall L hf hr h (.addUser token uid [me])
  have hstep : dirStep v (dirIn P s env w (.addUser token uid [me])) (.addUser token uid [me]) =
      (.ok .unit, v.setUser uid (some { x with groups := addAll x.groups [me] })) := by
    have : (dirIn P s env w (.addUser token uid [me])).who = tokenUser P s.tokenCryptor token (env.now w.t).ns := rfl
    simp [dirStep, Dir.asCaller, this, hi, hx]
  rw [hstep] at h1 h2
  refine ⟨w', ?_, h2⟩
  simp only [dirProg, toOutcome] at h1
  obtain ⟨a, w1, h3, h4⟩ := (Prog.run_bind_ok_iff env).mp h1
  simp only [Prog.run_ret, Prod.mk.injEq] at h4
  rw [h3, h4.2]

/-! ## C41 -/

include L in
/-- C41 is false of the code: any authenticated caller can lock out any other user (or itself).  After `AddUserToGroups` of the victim to
the "group" with the caller's own ID, which succeeds, `GetIdentity` fails for every token of the victim. -/
theorem C41_lockout (hf : NoFault env) (hr : RandOk env) {v : Dir} {w : World} (h : DirRel P s w.store v)
    {token me uid : GoString} {u x : DirUser}
    (hi : v.identify (tokenUser P s.tokenCryptor token (env.now w.t).ns) = .ok (me, u)) (hx : v.users uid = some x)
    (hme : v.groups me = none) :
    ∃ w', (s.addUserToGroups P token uid [me]).run env w = (.ok (), w') ∧
      ∀ w2 t, w2.store = w'.store → tokenUser P s.tokenCryptor t (env.now w2.t).ns = some uid →
        ((s.getIdentity P t).run env w2).1 = .err .groupNotFound := by
  obtain ⟨w', h1, h2⟩ := C40_own_id_accepted L hf hr h hi hx
  refine ⟨w', h1, fun w2 t hw2 ht => ?_⟩
  rw [← hw2] at h2
  obtain ⟨w3, _, h3⟩ := run_getIdentity L hf h2 t
  have hmem : me ∈ addAll x.groups [me] := by rw [addAll_eq, mem_foldl_setInsert]; simp
  have hall : ¬ ((addAll x.groups [me]).all fun g => (v.groups g).isSome) = true := by
    intro hh
    have := List.all_eq_true.mp hh me hmem
    rw [hme] at this
    cases this
  have hid : (v.setUser uid (some { x with groups := addAll x.groups [me] })).identify (some uid) = .error .groupNotFound := by
    simp only [Dir.identify, Dir.setUser, if_true]
    exact if_neg hall
  rw [ht, hid] at h3
  rw [h3]
  rfl

/-- Every user is only in groups that exist. -/
def Usable (v : Dir) : Prop := ∀ uid u, v.users uid = some u → ∀ g ∈ u.groups, (v.groups g).isSome = true

theorem usable_setUser {v : Dir} (h : Usable v) {uid : GoString} {u : Option DirUser}
    (hu : ∀ x, u = some x → ∀ g ∈ x.groups, (v.groups g).isSome = true) : Usable (v.setUser uid u) := by
  intro y z hy g hg
  simp only [Dir.setUser] at hy ⊢
  split at hy
  · exact hu z hy g hg
  · exact h y z hy g hg

/-- One call keeps the directory usable, if any groups it adds a user to exist. -/
theorem dirStep_usable {v : Dir} (h : Usable v) (i : DirIn) (c : DirCall)
    (hc : ∀ t uid gids, c = .addUser t uid gids → ∀ g ∈ gids, (v.groups g).isSome = true) : Usable (dirStep v i c).2 := by
  cases c with
  | newUser sc =>
    simp only [dirStep]
    cases v.users i.newId with
    | some _ => exact h
    | none => exact usable_setUser h (by rintro x ⟨⟩ g hg; cases hg)
  | loginUser x p =>
    simp only [dirStep]
    cases v.users x with
    | none => exact h
    | some y => simp only; split <;> exact h
  | changePassword x p =>
    simp only [dirStep]
    cases hx : v.users x with
    | none => exact h
    | some y =>
      simp only
      split
      · exact usable_setUser h (by rintro z ⟨⟩ g hg; exact h x y hx g hg)
      · exact h
  | newGroup t sc =>
    simp only [dirStep]
    refine asCaller_keeps h fun me y _ hme => ?_
    cases hg : v.groups i.newId with
    | some _ => exact h
    | none =>
      have h' : Usable (v.setGroup i.newId (allScopes sc)) := by
        intro y z hy g hg
        have := h y z hy g hg
        simp only [Dir.setGroup]
        split
        · rfl
        · exact this
      refine usable_setUser h' ?_
      rintro z ⟨⟩ g hg
      simp only [addAll_eq, mem_foldl_setInsert, List.mem_singleton] at hg
      simp only [Dir.setGroup]
      split
      · rfl
      · rename_i hne
        rcases hg with hg | hg
        · exact h me y hme g hg
        · exact absurd hg hne
  | addUser t x gs =>
    simp only [dirStep]
    refine asCaller_keeps h fun me y _ hme => ?_
    split
    · cases hx : v.users x with
      | none => exact h
      | some z =>
        refine usable_setUser h ?_
        rintro z' ⟨⟩ g hg
        simp only [addAll_eq, mem_foldl_setInsert] at hg
        rcases hg with hg | hg
        · exact h x z hx g hg
        · exact hc t x gs rfl g hg
    · exact h
  | removeUser t x gs =>
    simp only [dirStep]
    refine asCaller_keeps h fun me y _ hme => ?_
    split
    · cases hx : v.users x with
      | none => exact h
      | some z =>
        refine usable_setUser h ?_
        rintro z' ⟨⟩ g hg
        exact h x z hx g (List.mem_filter.mp hg).1
    · exact h
  | deleteUser t x =>
    simp only [dirStep]
    exact asCaller_keeps h fun me y _ hme => usable_setUser h (by rintro x ⟨⟩)
  | getIdentity t =>
    simp only [dirStep]
    exact asCaller_keeps h fun me y _ hme => h

/-- Every group named in an `AddUserToGroups` call exists at the time of the call. -/
def AddsExisting : Dir → List (DirIn × DirCall) → Prop
  | _, [] => True
  | v, (i, c) :: r => (∀ t uid gids, c = .addUser t uid gids → ∀ g ∈ gids, (v.groups g).isSome = true) ∧
      AddsExisting (dirStep v i c).2 r

theorem usable_after {v : Dir} (h : Usable v) (l : List (DirIn × DirCall)) (hl : AddsExisting v l) : Usable (dirAfter v l) := by
  induction l generalizing v with
  | nil => exact h
  | cons a l ih =>
    obtain ⟨i, c⟩ := a
    exact ih (dirStep_usable h i c hl.1) hl.2

include L in
/-- C41, partial: in every history, if every group named in an `AddUserToGroups` call exists, then afterwards `GetIdentity`
succeeds for every token of every existing user.  Missing from the full claim: callers can name their own ID
(`C41_lockout`). -/
theorem C41_usable_partial (hf : NoFault env) (hr : RandOk env) {v : Dir} {w : World} (h : DirRel P s w.store v) (hv : Usable v)
    (calls : List DirCall) (hc : AddsExisting v (dirAnnotate P s env w calls)) {uid t : GoString} {u : DirUser}
    (hu : (dirAfter v (dirAnnotate P s env w calls)).users uid = some u)
    (ht : tokenUser P s.tokenCryptor t (env.now (dirCodeAfter P s env w calls).t).ns = some uid) :
    ∃ i, ((s.getIdentity P t).run env (dirCodeAfter P s env w calls)).1 = .ok i ∧ i.id = uid := by
  have hrel := (C38_directory_from L hf hr calls h).2
  obtain ⟨i, h1, h2, _⟩ := C39_identity L hf hrel ht hu fun g hg => usable_after hv _ hc uid u hu g hg
  exact ⟨i, h1, h2⟩

/-! ## A concrete directory for C39, C40 and C41 -/

/-- A stored user with some password record. -/
def putRecord (P : Prims) (s : Standalone) (st : Store) (uid : GoString) (sc : Scope) (groups : List GoString) (k : BytesN 32)
    (n : BytesN 12) : Store :=
  st.set uid dtUser (some (sealedUser P s uid ⟨some (List.replicate 48 0), sc, some groups⟩ k n).toJ.render)

/-- The same user in the directory. -/
def recordUser (P : Prims) (sc : Scope) (groups : List GoString) : DirUser :=
  ⟨fun p => (comparePassword P p (List.replicate 48 0)).getD false, sc, groups⟩

theorem putRecord_rel {st : Store} {v : Dir} (h : DirRel P s st v) {uid : GoString} (hs : sanitize uid = uid) (sc : Scope)
    {groups : List GoString} (hn : groups.Nodup) (hg : ∀ g ∈ groups, sanitize g = g) (k : BytesN 32) (n : BytesN 12) :
    DirRel P s (putRecord P s st uid sc groups k n) (v.setUser uid (some (recordUser P sc groups))) := by
  refine h.setUser uid _ _ ⟨List.replicate 48 0, k, n, Store.set_same _ _ _ _, fun p => ?_, hs, hn, hg⟩
  simp [recordUser, comparePassword, saltLength]

include L in
/-- In a directory with two users, the first locks the second out: the hypotheses of `C40_own_id_accepted` and `C41_lockout` are met. -/
example (hf : NoFault env) (hr : RandOk env) (k : BytesN 32) (n : BytesN 12) :
    let w : World := ⟨putRecord P s (putRecord P s (fun _ _ => none) [97] scopeAll [] k n) [98] scopeAll [] k n, 0⟩
    let token := fun uid => (sealedTok P s.tokenCryptor (some uid) ((env.now 0).add tokenValidity) k n).string P
    ∃ w', (s.addUserToGroups P (token [97]) [98] [[97]]).run env w = (.ok (), w') ∧
      ∀ w2, w2.store = w'.store → (env.now w2.t).ns ≤ (env.now 0).ns + 3600 * 1000000000 →
        ((s.getIdentity P (token [98])).run env w2).1 = .err .groupNotFound := by
  intro w token
  have hrel : DirRel P s w.store ((emptyDir.setUser [97] (some (recordUser P scopeAll []))).setUser [98] (some (recordUser P scopeAll []))) :=
    putRecord_rel (putRecord_rel (dirRel_empty (fun _ => ⟨rfl, rfl⟩)) (by decide) _ .nil (by simp) k n) (by decide) _ .nil (by simp) k n
  have htok : tokenUser P s.tokenCryptor (token [97]) (env.now w.t).ns = some [97] := by
    rw [tokenUser_string L, if_pos]
    · rfl
    · simp [GoTime.add, tokenValidity, w]
  obtain ⟨w', h1, h2⟩ := C41_lockout L hf hr hrel (token := token [97]) (me := [97]) (uid := [98]) (u := recordUser P scopeAll [])
    (x := recordUser P scopeAll []) (by rw [htok]; simp [Dir.identify, Dir.setUser, recordUser]) (by simp [Dir.setUser]) rfl
  refine ⟨w', h1, fun w2 hw2 hle => h2 w2 _ hw2 ?_⟩
  rw [tokenUser_string L, if_pos]
  · rfl
  · exact hle

end
end D1
