import Verif.Props.FailStop
import Verif.Props.Standalone
import Verif.Props.Story
/-!
# Standalone calls under crashes and failures: C87

A call of the Standalone provider that crashes or meets failures does everything or nothing.  The one exception is `NewGroup`, which can leave a
group without members.
-/
namespace D1
open Spec Prog

/-- What a call that does not run to its end may leave: the directory as it was, the directory as the whole call leaves it, or, for a `NewGroup` that
would have succeeded, the new group without members. -/
def DirCut (v : Dir) (inp : DirIn) (c : DirCall) (v' : Dir) : Prop :=
  v' = v ∨ v' = (dirStep v inp c).2 ∨
    ∃ t sc, c = .newGroup t sc ∧ v.groups inp.newId = none ∧ (dirStep v inp c).1 = .ok (.group inp.newId) ∧ v' = v.setGroup inp.newId (allScopes sc)

/-- IO requests that are answered with an error did not happen. -/
def NoAfter (env : Env) : Prop := ∀ t, env.fault t ≠ .after

/-- The only write is the last effect, and if it succeeds the program does. -/
def LastWrite {α : Type} : Prog α → Prop
  | .op e k => (e.target = none ∧ ∀ r, LastWrite (k r)) ∨ ∀ r, (k r).outcome ≠ none ∧ (¬ Broken ⟨e, r⟩ → ∃ a, k r = .ret a)
  | _ => True

section
variable {α β : Type}

theorem LastWrite.reads {p : Prog α} {k : α → Prog β} (hp : AllEff (fun e => e.target = none) p) (hk : ∀ a, LastWrite (k a)) : LastWrite (p.bind k) := by
  induction p with
  | op e c ih => exact .inl ⟨hp.1, fun r => ih r (hp.2 r)⟩
  | ret a => exact hk a
  | _ => trivial

theorem LastWrite.map {p : Prog α} (hp : LastWrite p) (f : α → β) : LastWrite (p.bind fun a => .ret (f a)) := by
  induction p with
  | op e c ih =>
    refine hp.imp (fun h => ⟨h.1, fun r => ih r (h.2 r)⟩) fun h r => ?_
    obtain ⟨h1, h2⟩ := h r
    constructor
    · show ((c r).bind _).outcome ≠ none
      cases hc : c r <;> rw [hc] at h1 <;> first | exact absurd rfl h1 | simp [Prog.outcome, Prog.bind]
    · intro hb
      obtain ⟨a, ha⟩ := h2 hb
      exact ⟨f a, by show (c r).bind _ = _; rw [ha]; rfl⟩
  | _ => trivial

theorem exec_target {env : Env} {w : World} {e : Eff} (h : e.target = none) : (w.exec env e).2.store = w.store := by
  cases e <;> simp only [Eff.target, reduceCtorEq] at h <;> simp only [World.exec, Store.exec] <;> split <;> first | rfl | (split <;> rfl)

theorem outcome_run {p : Prog α} (h : p.outcome ≠ none) (env : Env) (w : World) : (p.run env w).2 = w ∧ ∀ n, (p.runN env n w).2 = w := by
  cases p with
  | op e k => exact absurd rfl h
  | _ => exact ⟨rfl, fun n => by simp⟩

/-- However early it is cut off, the store is as before or as after the whole program. -/
theorem LastWrite.states {p : Prog α} (hp : LastWrite p) (env : Env) (w : World) :
    Always env (fun st => st = w.store ∨ st = (p.run env w).2.store) p w := by
  induction p generalizing w with
  | op e k ih =>
    rw [always_op]
    refine ⟨.inl rfl, ?_⟩
    rcases hp with ⟨h1, h2⟩ | h
    · have := ih _ (h2 (w.exec env e).1) (w.exec env e).2
      rw [exec_target h1] at this
      exact this
    · obtain ⟨h1, -⟩ := h (w.exec env e).1
      intro n
      refine .inr ?_
      rw [run_op, (outcome_run h1 env _).1, (outcome_run h1 env _).2]
  | _ => intro n; exact .inl (by simp)

/-- If it reports an error, then it has changed nothing, unless a write that was answered with an error happened all the same. -/
theorem LastWrite.refused {p : Prog α} (hp : LastWrite p) {env : Env} (hn : NoAfter env) {w w' : World} {e : Err} (h : p.run env w = (.err e, w')) :
    w'.store = w.store := by
  induction p generalizing w with
  | op f k ih =>
    rw [run_op] at h
    rcases hp with ⟨h1, h2⟩ | hl
    · rw [ih _ (h2 _) h, exec_target h1]
    · obtain ⟨h1, h2⟩ := hl (w.exec env f).1
      by_cases hb : Broken ⟨f, (w.exec env f).1⟩
      · have := (outcome_run h1 env (w.exec env f).2).1
        rw [h] at this
        simp only at this
        rw [this]
        revert hb
        have hw := hn w.t
        cases f with
        | put id dt b =>
          simp only [World.exec, Store.exec, Eff.fail, Broken]
          cases hf : env.fault w.t with
          | none => cases w.store id dt <;> first | (intro hb; exact absurd rfl hb) | simp
          | before => simp
          | after => exact absurd hf hw
        | update id dt b =>
          simp only [World.exec, Store.exec, Eff.fail, Broken]
          cases hf : env.fault w.t with
          | none => cases w.store id dt <;> first | (intro hb; exact absurd rfl hb) | simp
          | before => simp
          | after => exact absurd hf hw
        | delete id dt =>
          simp only [World.exec, Store.exec, Eff.fail, Broken]
          cases hf : env.fault w.t with
          | none => intro hb; exact absurd rfl hb
          | before => simp
          | after => exact absurd hf hw
        | _ => intro _; exact exec_target rfl
      · obtain ⟨a, ha⟩ := h2 hb
        rw [ha] at h
        simp at h
  | err x => simp only [run_err, Prod.mk.injEq] at h; rw [h.2]
  | _ => simp at h

theorem lastWrite_put (f : IoErr → Err) (id : Bytes) (dt : DataType) (b : Bytes) : LastWrite (ioPut f id dt b) :=
  .inr fun r => by
    cases r with
    | ok a => exact ⟨by simp [Prog.outcome], fun _ => ⟨(), rfl⟩⟩
    | error e => exact ⟨by simp [Prog.outcome], fun h => absurd (fun h => nomatch h) h⟩

theorem lastWrite_update (f : IoErr → Err) (id : Bytes) (dt : DataType) (b : Bytes) : LastWrite (ioUpdate f id dt b) :=
  .inr fun r => by
    cases r with
    | ok a => exact ⟨by simp [Prog.outcome], fun _ => ⟨(), rfl⟩⟩
    | error e => exact ⟨by simp [Prog.outcome], fun h => absurd (fun h => nomatch h) h⟩

theorem lastWrite_delete (f : IoErr → Err) (id : Bytes) (dt : DataType) : LastWrite (ioDelete f id dt) :=
  .inr fun r => by
    cases r with
    | ok a => exact ⟨by simp [Prog.outcome], fun _ => ⟨(), rfl⟩⟩
    | error e => exact ⟨by simp [Prog.outcome], fun h => absurd (fun h => nomatch h) h⟩

/-- The run to the end, and with failures: the same as without, unless an error is reported. -/
theorem Stops.run_mended {X : Err → Prop} {p : Prog α} (hp : Stops X p) {env : Env} {w w' : World} {o : Outcome α} (ho : ∀ e, o ≠ .err e)
    (h : p.run env w = (o, w')) : p.run env.mended w = (o, w') := by
  obtain ⟨n, hn⟩ := runN_of_run env p w
  have h1 := hn n le_rfl
  rw [h] at h1
  rcases hp.mended env n w with h2 | ⟨m, -, e, h3, -⟩
  · rw [h1] at h2
    exact run_of_runN _ p n w w' o h2.symm
  · rw [h1] at h3
    exact absurd (Option.some.inj h3) (ho e)
end

/-! ## The calls -/

section
variable {P : Prims} {s : Standalone}

/-- No effect of the program writes. -/
abbrev ReadsOnly {α : Type} (p : Prog α) : Prop := AllEff (fun e => e.target = none) p

theorem reads_ret {α : Type} (a : α) : ReadsOnly (.ret a) := trivial
theorem LastWrite.ret {α : Type} (a : α) : LastWrite (.ret a) := trivial

theorem reads_getIdentity (t : GoString) : ReadsOnly (s.getIdentity P t) := 
  allEff_getIdentity (Q := fun e => e.target = none) rfl (fun _ => rfl) (fun _ => rfl) t
theorem reads_getUser (u : GoString) : ReadsOnly (s.getUser P u) := allEff_getUser rfl
theorem reads_encrypt (c : Cryptor) (p a : J) : ReadsOnly (c.encrypt P p a) := allEff_encrypt (fun _ => rfl) _ _ _
theorem reads_newV4 : ReadsOnly newV4 := AllEff.bind (allEff_rand rfl) fun _ => trivial
theorem reads_password : ReadsOnly (generatePassword P) := AllEff.bind (allEff_rand rfl) fun _ => AllEff.bind (allEff_rand rfl) fun _ => trivial
theorem reads_authenticate (u : User) (p : GoString) : ReadsOnly (u.authenticate P p) := AllEff.bind (allEff_ofPanic _) fun ok => by cases ok <;> trivial
theorem reads_check (y : Identity) (gs : List GoString) : ReadsOnly (checkMembership y gs) := by unfold checkMembership; split <;> trivial

theorem lastWrite_putUser (uid : GoString) (u : User) (up : Bool) : LastWrite (s.putUser P uid u up) :=
  .reads (AllEff.bind (reads_encrypt _ _ _) fun _ => trivial) fun _ => by
    cases up
    · exact lastWrite_put _ _ _ _
    · exact lastWrite_update _ _ _ _

theorem lastWrite_putGroup (gid : GoString) (g : Group) : LastWrite (s.putGroup P gid g) :=
  .reads (AllEff.bind (reads_encrypt _ _ _) fun _ => trivial) fun _ => lastWrite_put _ _ _ _

/-- All calls but `NewGroup` make at most one write, and it is their last effect. -/
theorem lastWrite_dirProg (c : DirCall) (hc : ∀ t sc, c ≠ .newGroup t sc) : LastWrite (dirProg P s c) := by
  cases c with
  | newUser sc =>
    refine .map (.reads reads_newV4 fun _ => .reads (AllEff.bind reads_password fun _ => reads_ret _) fun _ => .map (lastWrite_putUser _ _ _) _) _
  | loginUser u p =>
    exact .map (.reads (AllEff.mapErr (reads_getUser _)) fun _ => .reads (AllEff.mapErr (reads_authenticate _ _)) fun _ =>
      .reads (AllEff.bind (allEff_now rfl) fun _ => reads_ret _) fun _ => .reads (AllEff.mapErr (AllEff.bind (reads_encrypt _ _ _) fun _ => reads_ret _)) fun _ => .ret _) _
  | changePassword u p =>
    exact .map (.reads (AllEff.mapErr (reads_getUser _)) fun _ => .reads (AllEff.mapErr (AllEff.bind (reads_authenticate _ _) fun _ =>
      AllEff.bind reads_password fun _ => reads_ret _)) fun _ => .map (lastWrite_putUser _ _ _) _) _
  | newGroup t sc => exact absurd rfl (hc t sc)
  | addUser t u gs =>
    exact .map (.reads (reads_getIdentity _) fun _ => .reads (reads_check _ _) fun _ => .reads (reads_getUser _) fun _ => .reads (allEff_ofPanic _) fun _ =>
      lastWrite_putUser _ _ _) _
  | removeUser t u gs =>
    exact .map (.reads (reads_getIdentity _) fun _ => .reads (reads_check _ _) fun _ => .reads (reads_getUser _) fun _ => lastWrite_putUser _ _ _) _
  | deleteUser t u => exact .map (.reads (reads_getIdentity _) fun _ => lastWrite_delete _ _ _) _
  | getIdentity t => exact .reads (reads_getIdentity _) fun _ => .ret _

/-- `NewGroup` up to and including the writing of the group. -/
def newGroupA (P : Prims) (s : Standalone) (t : GoString) (sc : List Scope) : Prog (Identity × GoString) :=
  (s.getIdentity P t).bind fun y => newV4.bind fun g => (s.putGroup P (uuidText g) (D1.newGroup sc)).bind fun _ => .ret (y, uuidText g)

/-- The rest of it. -/
def newGroupB (P : Prims) (s : Standalone) (x : Identity × GoString) : Prog DirRes :=
  (s.getUser P x.1.id).bind fun u => (Prog.ofPanic (u.addGroups [x.2])).bind fun u => (s.putUser P x.1.id u true).bind fun _ => .ret (.group x.2)

theorem newGroup_split (t : GoString) (sc : List Scope) : dirProg P s (.newGroup t sc) = (newGroupA P s t sc).bind (newGroupB P s) := by
  simp only [dirProg, Standalone.newGroup, newGroupA, newGroupB, Prog.bind_eq, Prog.pure_eq, Prog.bind_assoc, Prog.ret_bind]

theorem lastWrite_A (t : GoString) (sc : List Scope) : LastWrite (newGroupA P s t sc) :=
  .reads (reads_getIdentity _) fun _ => .reads reads_newV4 fun _ => .map (lastWrite_putGroup _ _) _

theorem lastWrite_B (x : Identity × GoString) : LastWrite (newGroupB P s x) :=
  .reads (reads_getUser _) fun _ => .reads (allEff_ofPanic _) fun _ => .map (lastWrite_putUser _ _ _) _

theorem stops_A (t : GoString) (sc : List Scope) : Stops (fun _ => True) (newGroupA P s t sc) :=
  .bind (.getIdentity _) fun _ => .bind .newV4 fun _ => .bind (.putGroup _ _) fun _ => trivial

variable (L : P.Laws) {env : Env}

include L in
theorem run_A (hf : NoFault env) (hr : RandOk env) {v : Dir} {w : World} (h : DirRel P s w.store v) (t : GoString) (sc : List Scope) :
    (∃ e w1, (newGroupA P s t sc).run env w = (.err e, w1) ∧ w1.store = w.store) ∨
    ∃ y w1, (newGroupA P s t sc).run env w = (.ok (y, (dirIn P s env w (.newGroup t sc)).newId), w1) ∧
      DirRel P s w1.store (v.setGroup (dirIn P s env w (.newGroup t sc)).newId (allScopes sc)) ∧ v.groups (dirIn P s env w (.newGroup t sc)).newId = none ∧
      (dirStep v (dirIn P s env w (.newGroup t sc)) (.newGroup t sc)).1 = .ok (.group (dirIn P s env w (.newGroup t sc)).newId) := by
  obtain ⟨w1, hs1, hg⟩ := run_getIdentity L hf h t
  cases hi : v.identify (tokenUser P s.tokenCryptor t (env.now w.t).ns) with
  | error e =>
    rw [hi] at hg
    exact .inl ⟨e, w1, Prog.run_bind_err env hg, hs1⟩
  | ok x =>
    rw [hi] at hg
    have hid : (dirIn P s env w (.newGroup t sc)).newId = uuidText (mkV4 (drawn env w1.t 16)) := by simp only [dirIn, hg]
    rw [hid, newGroupA, Prog.run_bind_ok env hg, Prog.run_bind_ok env (run_newV4 hr w1)]
    have hG := h.2 (uuidText (mkV4 (drawn env w1.t 16)))
    rw [← hs1] at hG
    cases hv : v.groups (uuidText (mkV4 (drawn env w1.t 16))) with
    | some sc' =>
      rw [hv] at hG
      obtain ⟨k, n, hst, -⟩ := hG
      exact .inl ⟨_, _, Prog.run_bind_err env (run_putGroup_exists (s := s) L hf hr (w := w1.next w1.store) _ hst), hs1⟩
    | none =>
      rw [hv] at hG
      have hR1 : DirRel P s (w.store.set (uuidText (mkV4 (drawn env w1.t 16))) dtGroup
          (some (sealedGroup P s (uuidText (mkV4 (drawn env w1.t 16))) (D1.newGroup sc) (drawn env (w1.t + 1) 32)
            (drawn env (w1.t + 1 + 1) 12)).toJ.render)) (v.setGroup (uuidText (mkV4 (drawn env w1.t 16))) (allScopes sc)) := by
        refine DirRel.setGroup h _ _ _ ⟨drawn env (w1.t + 1) 32, drawn env (w1.t + 1 + 1) 12, ?_, sanitize_uuidText _⟩
        rw [Store.set_same, D1.newGroup, scopeUnion_eq]
      have hp := run_putGroup_new (s := s) L hf hr (w := w1.next w1.store) (D1.newGroup sc) hG
      refine .inr ⟨_, _, Prog.run_bind_ok env hp, ?_, rfl, ?_⟩
      · rw [← hs1] at hR1
        exact hR1
      · simp only [dirStep, dirIn, DirCall.token, Dir.asCaller, hi, hg]
        rw [hv]

end

/-! ## C87 -/

section
variable {P : Prims} (L : P.Laws) {s : Standalone}

include L in
/-- C87: a call of Standalone that crashes anywhere, with any failures of the IO Provider and the random source before that, leaves the directory as
it was, or as the whole call leaves it; a `NewGroup` that would have succeeded may leave the new group without members. -/
theorem C87_all_or_nothing {v : Dir} {w : World} (h : DirRel P s w.store v) (c : DirCall) (env : Env) (n : Nat) :
    ∃ v', DirRel P s ((dirProg P s c).runN env n w).2.store v' ∧ DirCut v (dirIn P s env.mended w c) c v' := by
  -- without failures
  have key : ∀ n, ∃ v', DirRel P s ((dirProg P s c).runN env.mended n w).2.store v' ∧ DirCut v (dirIn P s env.mended w c) c v' := by
    have hf : NoFault env.mended := fun _ => rfl
    have hr : RandOk env.mended := fun _ _ => rfl
    obtain ⟨w', h1, h2, -⟩ := run_dirCall L hf hr h c
    by_cases hc : ∃ t sc, c = .newGroup t sc
    · obtain ⟨t, sc, rfl⟩ := hc
      rw [newGroup_split] at h1 ⊢
      refine always_bind (Q := fun st => ∃ v', DirRel P s st v' ∧ DirCut v (dirIn P s env.mended w (.newGroup t sc)) (.newGroup t sc) v') ?_ ?_
      · refine ((lastWrite_A t sc).states env.mended w).mono ?_
        rintro st (rfl | rfl)
        · exact ⟨v, h, .inl rfl⟩
        · rcases run_A L hf hr h t sc with ⟨e, w1, ha, hs⟩ | ⟨y, w1, ha, h3, h4, h5⟩
          · exact ⟨v, by rw [ha]; simp only [hs]; exact h, .inl rfl⟩
          · exact ⟨_, by rw [ha]; exact h3, .inr (.inr ⟨t, sc, rfl, h4, h5, rfl⟩)⟩
      · intro x w1 ha'
        rcases run_A L hf hr h t sc with ⟨e, w1, ha, hs⟩ | ⟨y, w1, ha, h3, h4, h5⟩
        · rw [ha] at ha'; cases ha'
        · rw [ha] at ha'
          cases ha'
          rw [Prog.run_bind_ok _ ha] at h1
          refine ((lastWrite_B _).states env.mended w1).mono ?_
          rintro st (rfl | rfl)
          · exact ⟨_, h3, .inr (.inr ⟨t, sc, rfl, h4, h5, rfl⟩)⟩
          · exact ⟨_, by rw [h1]; exact h2, .inr (.inl rfl)⟩
    · intro n
      rcases (lastWrite_dirProg c fun t sc e => hc ⟨t, sc, e⟩).states env.mended w n with h3 | h3
      · exact ⟨v, by rw [h3]; exact h, .inl rfl⟩
      · exact ⟨_, by rw [h3, h1]; exact h2, .inr (.inl rfl)⟩
  rcases (stops_dirProg c).mended env n w with h1 | ⟨m, -, e, -, h1⟩
  · rw [h1]; exact key n
  · rw [h1]; exact key m

include L in
/-- C87: if a call reports an error then the directory is as before, except that a `NewGroup` may leave the new group without members.  This holds
for IO Providers whose requests do not happen when they report an error. -/
theorem C87_refused {v : Dir} {w w' : World} (h : DirRel P s w.store v) (c : DirCall) {env : Env} (hn : NoAfter env) {e : Err}
    (hrun : (dirProg P s c).run env w = (.err e, w')) :
    DirRel P s w'.store v ∨ ∃ t sc, c = .newGroup t sc ∧ v.groups (dirIn P s env.mended w c).newId = none ∧
      DirRel P s w'.store (v.setGroup (dirIn P s env.mended w c).newId (allScopes sc)) := by
  by_cases hc : ∃ t sc, c = .newGroup t sc
  · obtain ⟨t, sc, rfl⟩ := hc
    rw [newGroup_split] at hrun
    cases ha : (newGroupA P s t sc).run env w with
    | mk o w1 =>
      cases o with
      | ok x =>
        rw [Prog.run_bind_ok _ ha] at hrun
        rcases run_A L (env := env.mended) (fun _ => rfl) (fun _ _ => rfl) h t sc with ⟨e, w2, ha', hs⟩ | ⟨y, w2, ha', h3, h4, h5⟩
        · rw [(stops_A t sc).run_mended (by simp) ha] at ha'; cases ha'
        · rw [(stops_A t sc).run_mended (by simp) ha] at ha'
          cases ha'
          exact .inr ⟨t, sc, rfl, h4, by rw [(lastWrite_B _).refused hn hrun]; exact h3⟩
      | err x =>
        rw [Prog.run_bind_err _ ha] at hrun
        cases hrun
        exact .inl (by rw [(lastWrite_A t sc).refused hn ha]; exact h)
      | panic => rw [Prog.run_bind, ha] at hrun; cases hrun
      | diverge => rw [Prog.run_bind, ha] at hrun; cases hrun
  · exact .inl (by rw [(lastWrite_dirProg c fun t sc e => hc ⟨t, sc, e⟩).refused hn hrun]; exact h)


/-- A program cut off where its first part has ended. -/
theorem runN_bind_at {α β : Type} {env : Env} {p : Prog α} (k : α → Prog β) {w w1 : World} {a : α} (h : p.run env w = (.ok a, w1)) :
    ∃ n, (p.bind k).runN env n w = (k a).runN env 0 w1 := by
  induction p generalizing w with
  | op e c ih =>
    obtain ⟨n, hn⟩ := ih _ h
    exact ⟨n + 1, hn⟩
  | ret b =>
    cases h
    exact ⟨0, rfl⟩
  | _ => cases h

include L in
/-- C87, the exception is real: for every `NewGroup` that succeeds there is a moment at which a crash leaves the new group without members.  Its
caller never learns of it. -/
theorem C87_group_alone {env : Env} (hf : NoFault env) (hr : RandOk env) {v : Dir} {w w' : World} (h : DirRel P s w.store v) (t : GoString)
    (sc : List Scope) {r : DirRes} (hrun : (dirProg P s (.newGroup t sc)).run env w = (.ok r, w')) :
    ∃ n, ((dirProg P s (.newGroup t sc)).runN env n w).1 = none ∧ v.groups (dirIn P s env w (.newGroup t sc)).newId = none ∧
      DirRel P s ((dirProg P s (.newGroup t sc)).runN env n w).2.store (v.setGroup (dirIn P s env w (.newGroup t sc)).newId (allScopes sc)) := by
  rw [newGroup_split] at hrun ⊢
  rcases run_A L hf hr h t sc with ⟨e, w1, ha, -⟩ | ⟨y, w1, ha, h3, h4, -⟩
  · rw [Prog.run_bind_err _ ha] at hrun; cases hrun
  · obtain ⟨n, hn⟩ := runN_bind_at (newGroupB P s) ha
    rw [show (newGroupB P s (y, (dirIn P s env w (.newGroup t sc)).newId)).runN env 0 w1 = (none, w1) from rfl] at hn
    exact ⟨n, by rw [hn], h4, by rw [hn]; exact h3⟩

end

/-! ## Concrete cases -/

/-- Of the result: whether it is an error; of the store: whether there is a user with the identifier that the first 16 bytes drawn give. -/
def newUserSeen (env : Env) : Bool × Bool :=
  let r := (dirProg toyPrims toyStandalone (.newUser [scopeDecrypt])).run env ⟨fun _ _ => none, 0⟩
  (match r.1 with | .err _ => true | _ => false, (r.2.store (uuidText (mkV4 (drawn env 0 16))) dtUser).isSome)

/-- `C87_refused` needs its hypothesis: when the request to store the new user happens and is answered with an error all the same, `NewUser` reports an
error and the user is there.  When it does not happen, the user is not there; without failures there is no error. -/
theorem C87_after : newUserSeen (toyFaulty 5 .after) = (true, true) ∧ newUserSeen (toyFaulty 5 .before) = (true, false) ∧
    newUserSeen toyEnv = (false, true) := by decide +kernel

end D1
