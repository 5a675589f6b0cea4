import Verif.Model.Stack
import Verif.Props.Io
import Verif.Props.NoPanic
import Verif.Props.Index
import Verif.Props.ObjectConcurrent
/-!
# C75: the library on top of its own providers
-/
namespace D1
open Spec Prog

variable {α : Type}

/-- The records that a `Mem` holds. -/
def memView (w : On KV) : World := ⟨fun id dt => w.state (memKey id dt), w.t⟩

/-- The records that a `Bolt` holds. -/
def boltView (w : On KV) : World := ⟨fun id dt => w.state (boltKey id dt), w.t⟩

theorem view_set {key : Bytes → DataType → Bytes} (hinj : ∀ id id' dt dt', key id dt = key id' dt' → id = id' ∧ dt = dt') (s : KV)
    (id : Bytes) (dt : DataType) (v : Option Bytes) :
    (fun i t => (s.set (key id dt) v) (key i t)) = Store.set (fun i t => s (key i t)) id dt v := by
  funext i t
  simp only [KV.set, Store.set]
  by_cases h : i = id ∧ t = dt
  · obtain ⟨rfl, rfl⟩ := h; simp
  · rw [if_neg h, if_neg fun hk => h (hinj _ _ _ _ hk)]

/-- One request on `Mem` is one request on the abstract store. -/
theorem mem_step (env : Env) (w : On KV) (e : Eff) :
    (memView w).exec env e = ((memProvider.step env w e).1, memView (memProvider.step env w e).2) := by
  have key : (memView w).store.exec (env.rand w.t) (env.now w.t) e =
      ((memProvider.exec w.state (env.rand w.t) (env.now w.t) e).1,
        (memView ⟨(memProvider.exec w.state (env.rand w.t) (env.now w.t) e).2, w.t⟩).store) := by
    cases e with
    | put id dt d =>
      simp only [Store.exec, Provider.exec, memProvider, memView]
      cases w.state (memKey id dt) with
      | none => simp only [view_set C60_memKey_inj]
      | some _ => rfl
    | get id dt => simp only [Store.exec, Provider.exec, memProvider, memView]; cases w.state (memKey id dt) <;> rfl
    | update id dt d =>
      simp only [Store.exec, Provider.exec, memProvider, memView]
      cases w.state (memKey id dt) with
      | some _ => simp only [view_set C60_memKey_inj]
      | none => rfl
    | delete id dt => simp only [Store.exec, Provider.exec, memProvider, memView, view_set C60_memKey_inj]
    | rand n => rfl
    | now => rfl
  simp only [World.exec, Provider.step]
  rw [show (memView w).t = w.t from rfl, key]
  cases env.fault w.t <;> rfl

/-- C75, `Mem`: a call running alone gives on `Mem` exactly what it gives on the abstract store, and leaves the same records. -/
theorem C75_mem (env : Env) (p : Prog α) (w : On KV) :
    p.run env (memView w) = ((p.runOn memProvider env w).1, memView (p.runOn memProvider env w).2) := by
  induction p generalizing w with
  | op e k ih =>
    simp only [Prog.run, Prog.runOn]
    rw [mem_step]
    exact ih _ _
  | _ => rfl

/-! ## Bolt -/

/-- bbolt's limits for the record that a request would write. -/
def BoltFits : Eff → Prop
  | .put id _ d | .update id _ d => id.length + 3 ≤ 32768 ∧ d.length ≤ 2 ^ 31 - 2
  | _ => True

/-- The request does not write empty data. -/
def Solid : Eff → Prop
  | .put _ _ d | .update _ _ d => d ≠ []
  | _ => True

/-- No record is empty. -/
def Tidy (s : KV) : Prop := ∀ k, s k ≠ some []

theorem boltKey_length (id : Bytes) (dt : DataType) : (boltKey id dt).length = id.length + 3 := by simp [boltKey, dtBytes]

theorem Tidy.set {s : KV} (h : Tidy s) (k : Bytes) {v : Option Bytes} (hv : v ≠ some []) : Tidy (s.set k v) := by
  intro k'
  simp only [KV.set]
  split
  · exact hv
  · exact h k'

theorem Tidy.exec {s : KV} (h : Tidy s) (rnd : (n : Nat) → Option (BytesN n)) (clk : GoTime) {e : Eff} (he : Solid e) :
    Tidy (boltProvider.exec s rnd clk e).2 := by
  cases e with
  | put id dt d =>
    simp only [Provider.exec, boltProvider]
    cases s (boltKey id dt) with
    | some _ => exact h
    | none =>
      simp only [bucketPut]
      split
      · exact h
      split
      · exact h
      · exact h.set _ (by simpa [Solid] using he)
  | get id dt =>
    simp only [Provider.exec, boltProvider]
    split <;> exact h
  | update id dt d =>
    simp only [Provider.exec, boltProvider]
    cases s (boltKey id dt) with
    | none => exact h
    | some _ =>
      simp only [bucketPut]
      split
      · exact h
      split
      · exact h
      · exact h.set _ (by simpa [Solid] using he)
  | delete id dt => exact h.set _ (by simp)
  | rand n => exact h
  | now => exact h

theorem Tidy.step {w : On KV} (h : Tidy w.state) (env : Env) {e : Eff} (he : Solid e) : Tidy (boltProvider.step env w e).2.state := by
  simp only [Provider.step]
  cases env.fault w.t with
  | none => exact h.exec _ _ he
  | before => exact h
  | after => exact h.exec _ _ he

/-- One request that fits on `Bolt` is one request on the abstract store. -/
theorem bolt_step (env : Env) {w : On KV} (hw : Tidy w.state) {e : Eff} (hfit : BoltFits e) :
    (boltView w).exec env e = ((boltProvider.step env w e).1, boltView (boltProvider.step env w e).2) := by
  have put : ∀ id dt (d : Bytes), id.length + 3 ≤ 32768 ∧ d.length ≤ 2 ^ 31 - 2 →
      bucketPut (boltKey id dt) d w.state = (.ok (), w.state.set (boltKey id dt) (some d)) := by
    intro id dt d h
    rw [bucketPut, boltKey_length, if_neg (by simp only [boltMaxKey]; omega), if_neg (by simp only [boltMaxValue]; omega)]
  have key : (boltView w).store.exec (env.rand w.t) (env.now w.t) e =
      ((boltProvider.exec w.state (env.rand w.t) (env.now w.t) e).1,
        (boltView ⟨(boltProvider.exec w.state (env.rand w.t) (env.now w.t) e).2, w.t⟩).store) := by
    cases e with
    | put id dt d =>
      simp only [Store.exec, Provider.exec, boltProvider, boltView, put id dt d hfit]
      cases w.state (boltKey id dt) with
      | none => simp only [view_set C60_boltKey_inj]
      | some _ => rfl
    | get id dt =>
      simp only [Store.exec, Provider.exec, boltProvider, boltView]
      have := hw (boltKey id dt)
      cases hs : w.state (boltKey id dt) with
      | none => rfl
      | some d =>
        cases d with
        | nil => exact absurd hs this
        | cons a d => rfl
    | update id dt d =>
      simp only [Store.exec, Provider.exec, boltProvider, boltView, put id dt d hfit]
      cases w.state (boltKey id dt) with
      | some _ => simp only [view_set C60_boltKey_inj]
      | none => rfl
    | delete id dt => simp only [Store.exec, Provider.exec, boltProvider, boltView, view_set C60_boltKey_inj]
    | rand n => rfl
    | now => rfl
  simp only [World.exec, Provider.step]
  rw [show (boltView w).t = w.t from rfl, key]
  cases env.fault w.t <;> rfl

/-- The same environment with another fault at one moment. -/
def Env.withFault (env : Env) (t : Nat) (f : Fault) : Env := { env with fault := fun t' => if t' = t then f else env.fault t' }

/-- A request that does not fit is answered as if the IO Provider had failed without doing anything. -/
theorem bolt_step_any (env : Env) {w : On KV} (hw : Tidy w.state) (e : Eff) : ∃ f, (f = env.fault w.t ∨ f = .before) ∧
    (boltView w).exec (env.withFault w.t f) e = ((boltProvider.step env w e).1, boltView (boltProvider.step env w e).2) := by
  by_cases hfit : BoltFits e
  · refine ⟨env.fault w.t, .inl rfl, ?_⟩
    rw [← bolt_step env hw hfit]
    simp only [World.exec, Env.withFault]
    rw [show (boltView w).t = w.t from rfl, if_pos rfl]
  · -- a write that is refused
    have refused : ∀ id dt (d : Bytes), ¬ (id.length + 3 ≤ 32768 ∧ d.length ≤ 2 ^ 31 - 2) →
        bucketPut (boltKey id dt) d w.state = (.error .failure, w.state) := by
      intro id dt d h
      rw [bucketPut, boltKey_length]
      by_cases h1 : id.length + 3 > boltMaxKey
      · rw [if_pos h1]
      · rw [if_neg h1, if_pos]
        simp only [boltMaxKey, boltMaxValue] at h1 ⊢
        omega
    cases e with
    | put id dt d =>
      cases hs : w.state (boltKey id dt) with
      | some b =>
        refine ⟨env.fault w.t, .inl rfl, ?_⟩
        simp only [World.exec, Env.withFault, Provider.step, Store.exec, Provider.exec, boltProvider, boltView, hs, if_pos]
        cases env.fault w.t <;> rfl
      | none =>
        refine ⟨.before, .inr rfl, ?_⟩
        simp only [World.exec, Env.withFault, Provider.step, Store.exec, Provider.exec, boltProvider, boltView, hs, if_pos, refused id dt d hfit]
        cases env.fault w.t <;> rfl
    | update id dt d =>
      cases hs : w.state (boltKey id dt) with
      | none =>
        refine ⟨env.fault w.t, .inl rfl, ?_⟩
        simp only [World.exec, Env.withFault, Provider.step, Store.exec, Provider.exec, boltProvider, boltView, hs, if_pos]
        cases env.fault w.t <;> rfl
      | some b =>
        refine ⟨.before, .inr rfl, ?_⟩
        simp only [World.exec, Env.withFault, Provider.step, Store.exec, Provider.exec, boltProvider, boltView, hs, if_pos, refused id dt d hfit]
        cases env.fault w.t <;> rfl
    | get id dt => exact absurd trivial hfit
    | delete id dt => exact absurd trivial hfit
    | rand n => exact absurd trivial hfit
    | now => exact absurd trivial hfit

/-! ### Schedules -/

/-- Two environments that agree from a moment on. -/
def AgreeFrom (t0 : Nat) (env env' : Env) : Prop := ∀ t, t0 ≤ t → env.rand t = env'.rand t ∧ env.now t = env'.now t ∧ env.fault t = env'.fault t

theorem exec_congr {env env' : Env} {w : World} (h : AgreeFrom w.t env env') (e : Eff) : w.exec env e = w.exec env' e := by
  obtain ⟨h1, h2, h3⟩ := h w.t (Nat.le_refl _)
  simp only [World.exec, h1, h2, h3]

theorem exec_time (env : Env) (w : World) (e : Eff) : (w.exec env e).2.t = w.t + 1 := by
  simp only [World.exec]
  split <;> rfl

theorem sched_congr {env env' : Env} (sch : List Nat) {w : World} {ps : List (Prog α)} (h : AgreeFrom w.t env env') :
    sched env sch w ps = sched env' sch w ps ∧ commits env sch w ps = commits env' sch w ps := by
  induction sch generalizing w ps with
  | nil => exact ⟨rfl, rfl⟩
  | cons j r ih =>
    simp only [sched, commits]
    split
    · next e k he =>
      rw [exec_congr h e]
      obtain ⟨h1, h2⟩ := ih (w := (w.exec env' e).2) (ps := ps.set j (k (w.exec env' e).1))
        (fun t ht => h t (by rw [exec_time] at ht; omega))
      rw [h1, h2]
      exact ⟨rfl, rfl⟩
    · exact ih h

/-- All programs write only non-empty data. -/
def SolidAll (ps : List (Prog α)) : Prop := ∀ p ∈ ps, AllEff Solid p

theorem SolidAll.next {ps : List (Prog α)} (h : SolidAll ps) {j : Nat} {e : Eff} {k : e.Resp → Prog α} (hj : ps[j]? = some (.op e k))
    (r : e.Resp) : SolidAll (ps.set j (k r)) := by
  intro p hp
  rcases List.mem_or_eq_of_mem_set hp with hp | rfl
  · exact h p hp
  · exact (h _ (List.mem_of_getElem? hj)).2 r

theorem SolidAll.eff {ps : List (Prog α)} (h : SolidAll ps) {j : Nat} {e : Eff} {k : e.Resp → Prog α} (hj : ps[j]? = some (.op e k)) : Solid e :=
  (h _ (List.mem_of_getElem? hj)).1

/-- C75, `Bolt`: any calls running concurrently on `Bolt` end exactly as they would on the abstract store and leave the same records, as long
as no record exceeds the limits of bbolt. -/
theorem C75_bolt (env : Env) (sch : List Nat) {w : On KV} {ps : List (Prog α)} (hw : Tidy w.state) (hs : SolidAll ps)
    (hfit : ∀ e ∈ requestsOn boltProvider env sch w ps, BoltFits e) :
    sched env sch (boltView w) ps = (boltView (schedOn boltProvider env sch w ps).1, (schedOn boltProvider env sch w ps).2) ∧
      commits env sch (boltView w) ps = commitsOn boltProvider env sch w ps := by
  induction sch generalizing w ps with
  | nil => exact ⟨rfl, rfl⟩
  | cons j r ih =>
    simp only [sched, commits, schedOn, commitsOn, requestsOn] at hfit ⊢
    cases hj : ps[j]? with
    | none => simp only [hj] at hfit ⊢; exact ih hw hs hfit
    | some p =>
      cases p with
      | op e k =>
        simp only [hj, List.mem_cons, forall_eq_or_imp] at hfit ⊢
        rw [bolt_step env hw hfit.1]
        obtain ⟨h1, h2⟩ := ih (hw.step env (hs.eff hj)) (hs.next hj _) hfit.2
        rw [h1, h2]
        exact ⟨rfl, rfl⟩
      | _ => simp only [hj] at hfit ⊢; exact ih hw hs hfit

/-- C75, `Bolt` without limits on the records: then it is the abstract store with, at some requests, failures without effect. -/
theorem C75_bolt_any (env : Env) (sch : List Nat) {w : On KV} {ps : List (Prog α)} (hw : Tidy w.state) (hs : SolidAll ps) :
    ∃ env', env'.rand = env.rand ∧ env'.now = env.now ∧ (∀ t, env'.fault t = env.fault t ∨ env'.fault t = .before) ∧
      sched env' sch (boltView w) ps = (boltView (schedOn boltProvider env sch w ps).1, (schedOn boltProvider env sch w ps).2) ∧
      commits env' sch (boltView w) ps = commitsOn boltProvider env sch w ps := by
  induction sch generalizing w ps with
  | nil => exact ⟨env, rfl, rfl, fun _ => .inl rfl, rfl, rfl⟩
  | cons j r ih =>
    simp only [sched, commits, schedOn, commitsOn]
    cases hj : ps[j]? with
    | none => simp only; exact ih hw hs
    | some p =>
      cases p with
      | op e k =>
        simp only
        obtain ⟨f, hf, hstep⟩ := bolt_step_any env hw e
        obtain ⟨env', h1, h2, h3, h4, h5⟩ := ih (hw.step env (hs.eff hj)) (hs.next hj (boltProvider.step env w e).1)
        have ht : (boltProvider.step env w e).2.t = w.t + 1 := by
          simp only [Provider.step]
          cases env.fault w.t <;> rfl
        have hagree : AgreeFrom (boltView (boltProvider.step env w e).2).t (env'.withFault w.t f) env' := by
          intro t hle
          rw [show (boltView (boltProvider.step env w e).2).t = w.t + 1 from ht] at hle
          exact ⟨rfl, rfl, if_neg (by omega)⟩
        have hstep' : (boltView w).exec (env'.withFault w.t f) e = ((boltProvider.step env w e).1, boltView (boltProvider.step env w e).2) := by
          rw [← hstep]
          simp only [World.exec, Env.withFault, h1, h2, show (boltView w).t = w.t from rfl, if_true]
        refine ⟨env'.withFault w.t f, h1, h2, fun t => ?_, ?_, ?_⟩
        · simp only [Env.withFault]
          split
          · next h => rw [h]; exact hf
          · exact h3 t
        · rw [hstep', (sched_congr r hagree).1]
          exact h4
        · rw [hstep']
          simp only
          rw [(sched_congr r hagree).2, h5]
          rfl
      | _ => simp only; exact ih hw hs

/-! ### The library writes no empty data -/

theorem renderStr_ne_nil (x : GoString) : renderStr x ≠ [] := by simp [renderStr]

theorem render_ne_nil : ∀ j : J, j.render ≠ []
  | .null => by simp [J.render]
  | .str s => renderStr_ne_nil s
  | .num n => by
    rw [J.render]
    intro h
    have := decEnc_ne_nil n
    exact this h
  | .obj fs => by simp [J.render]

section
variable {P : Prims} {d : D1} {i : SecureIndex} {s : Standalone} {β : Type}

theorem solid_rand (n : Nat) : AllEff Solid (randBytes n) := allEff_rand trivial
theorem solid_put (f : IoErr → Err) (id : Bytes) (dt : DataType) (j : J) : AllEff Solid (ioPut f id dt j.render) := allEff_ioPut (render_ne_nil j)
theorem solid_update (f : IoErr → Err) (id : Bytes) (dt : DataType) (j : J) : AllEff Solid (ioUpdate f id dt j.render) :=
  allEff_ioUpdate (render_ne_nil j)
theorem solid_encrypt (c : Cryptor) (p a : J) : AllEff Solid (c.encrypt P p a) := allEff_encrypt (fun _ => trivial) c p a
theorem solid_newV4 : AllEff Solid newV4 := allEff_newV4 fun _ => trivial

theorem solid_putUser (uid : GoString) (u : User) (up : Bool) : AllEff Solid (s.putUser P uid u up) :=
  AllEff.bind (AllEff.bind (solid_encrypt _ _ _) fun _ => trivial) fun _ => by
    cases up
    · exact solid_put _ _ _ _
    · exact solid_update _ _ _ _

theorem solid_identity (t : GoString) : AllEff Solid (s.getIdentity P t) := allEff_getIdentity trivial (fun _ => trivial) (fun _ => trivial) t

theorem solid_dir (c : DirCall) : AllEff Solid (dirProg P s c) := by
  have hr : ∀ n, Solid (.rand n) := fun _ => trivial
  cases c with
  | newUser sc =>
    exact AllEff.bind (AllEff.bind solid_newV4 fun _ => AllEff.bind (AllEff.bind (allEff_generatePassword hr) fun _ => trivial) fun _ =>
      AllEff.bind (solid_putUser _ _ _) fun _ => trivial) fun _ => trivial
  | loginUser u p => exact AllEff.bind (allEff_loginUser hr trivial trivial p) fun _ => trivial
  | changePassword u p =>
    exact AllEff.bind (AllEff.bind (AllEff.mapErr (allEff_getUser trivial)) fun _ =>
      AllEff.bind (AllEff.mapErr (AllEff.bind (allEff_authenticate _ _) fun _ => AllEff.bind (allEff_generatePassword hr) fun _ => trivial)) fun _ =>
        AllEff.bind (solid_putUser _ _ _) fun _ => trivial) fun _ => trivial
  | newGroup t sc =>
    exact AllEff.bind (AllEff.bind (solid_identity t) fun _ => AllEff.bind solid_newV4 fun _ =>
      AllEff.bind (AllEff.bind (AllEff.bind (solid_encrypt _ _ _) fun _ => trivial) fun _ => solid_put _ _ _ _) fun _ =>
        AllEff.bind (allEff_getUser trivial) fun _ => AllEff.bind (allEff_ofPanic _) fun _ => AllEff.bind (solid_putUser _ _ _) fun _ => trivial)
      fun _ => trivial
  | addUser t u gs =>
    exact AllEff.bind (AllEff.bind (solid_identity t) fun _ => AllEff.bind (allEff_checkMembership _ _) fun _ =>
      AllEff.bind (allEff_getUser trivial) fun _ => AllEff.bind (allEff_ofPanic _) fun _ => solid_putUser _ _ _) fun _ => trivial
  | removeUser t u gs =>
    exact AllEff.bind (AllEff.bind (solid_identity t) fun _ => AllEff.bind (allEff_checkMembership _ _) fun _ =>
      AllEff.bind (allEff_getUser trivial) fun _ => solid_putUser _ _ _) fun _ => trivial
  | deleteUser t u => exact AllEff.bind (allEff_deleteUser trivial (fun _ => trivial) (fun _ => trivial) trivial t) fun _ => trivial
  | getIdentity t => exact AllEff.bind (solid_identity t) fun _ => trivial

theorem solid_call (c : Call) (hi : AllEff Solid (d.idProvider c.token)) : AllEff Solid (callProg P d c) := by
  have guard : ∀ {token : GoString} {oid : Oid} {sc : Scope}, AllEff Solid (d.idProvider token) → AllEff Solid (guardProg P d token sc oid) :=
    fun hi => allEff_guardProg hi trivial _
  cases c with
  | encrypt t o gs =>
    exact AllEff.bind (AllEff.bind (allEff_verifyAccess hi _) fun _ => AllEff.bind solid_newV4 fun oid =>
      AllEff.bind (AllEff.bind (solid_encrypt _ _ _) fun _ => trivial) fun _ => AllEff.bind (allEff_ofPanic _) fun _ =>
        AllEff.bind (AllEff.bind (solid_encrypt _ _ _) fun _ => trivial) fun _ => AllEff.bind (solid_put _ _ _ _) fun _ =>
          AllEff.bind (solid_put _ _ _ _) fun _ => trivial) fun _ => trivial
  | update t oid o =>
    rw [callProg, update_eq]
    exact AllEff.bind (AllEff.bind (guard hi) fun _ => AllEff.bind (AllEff.bind (solid_encrypt _ _ _) fun _ => trivial) fun _ =>
      AllEff.bind (AllEff.bind (solid_encrypt _ _ _) fun _ => trivial) fun _ => AllEff.bind (solid_update _ _ _ _) fun _ => solid_update _ _ _ _)
      fun _ => trivial
  | addGroups t oid gs =>
    rw [callProg, addGroupsToAccess_eq]
    exact AllEff.bind (AllEff.bind (guard hi) fun _ => AllEff.bind (allEff_ofPanic _) fun _ =>
      AllEff.bind (AllEff.bind (solid_encrypt _ _ _) fun _ => trivial) fun _ => solid_update _ _ _ _) fun _ => trivial
  | removeGroups t oid gs =>
    rw [callProg, removeGroupsFromAccess_eq]
    exact AllEff.bind (AllEff.bind (guard hi) fun _ =>
      AllEff.bind (AllEff.bind (solid_encrypt _ _ _) fun _ => trivial) fun _ => solid_update _ _ _ _) fun _ => trivial
  | decrypt t oid =>
    rw [callProg, decrypt_eq]
    exact AllEff.bind (AllEff.bind (guard hi) fun _ => AllEff.bind (allEff_getSealedObject trivial) fun _ => allEff_ofExcept _) fun _ => trivial
  | delete t oid =>
    refine AllEff.bind (AllEff.bind (allEff_verifyAccess hi _) fun i => AllEff.attempt (allEff_getSealedAccess trivial) fun r => ?_) fun _ => trivial
    rcases r with e | a
    · cases e <;> trivial
    · exact AllEff.bind (allEff_ofExcept _) fun _ => AllEff.bind (allEff_ioDelete trivial) fun _ => allEff_ioDelete trivial
  | getGroups t oid =>
    rw [callProg, getAccessGroups_eq]
    exact AllEff.bind (AllEff.bind (guard hi) fun a => trivial) fun _ => trivial
  | authorize t oid =>
    rw [callProg, authorizeIdentity_eq]
    exact AllEff.bind (AllEff.bind (guard hi) fun a => trivial) fun _ => trivial

theorem solid_deleteLoop (t : Tagger) (c : Cryptor) (x : GoString) (fuel : Nat) (n : Node) : AllEff Solid (deleteLoop P t c x fuel n) := by
  induction fuel generalizing n with
  | zero => trivial
  | succ fuel ih =>
    refine AllEff.attempt (allEff_getNextNode (fun _ => trivial) n t c) fun r => ?_
    rcases r with e | a
    · cases e <;> trivial
    · simp only
      split
      · refine AllEff.bind (allEff_ofPanic _) fun _ => AllEff.bind ?_ fun _ => ih n
        refine AllEff.attempt (allEff_getNextNode (fun _ => trivial) _ t c) fun r => ?_
        rcases r with e | a
        · cases e <;> first | trivial | exact allEff_ioDelete trivial
        · exact AllEff.bind (AllEff.bind (solid_encrypt _ _ _) fun _ => trivial) fun _ => AllEff.bind (solid_update _ _ _ _) fun _ =>
            AllEff.bind (allEff_ofPanic _) fun _ => allEff_ioDelete trivial
      · exact ih a

theorem solid_ix (fuel : Nat) (c : IxCall) (hi : AllEff Solid (i.idProvider c.token)) : AllEff Solid (ixProg P i fuel c) := by
  cases c with
  | add t kw x =>
    exact AllEff.bind (AllEff.bind (allEff_ixVerifyAccess hi) fun _ => AllEff.bind (allEff_getTaggerAndCryptor kw) fun _ =>
      AllEff.bind (allEff_getLastNodeLoop (fun _ => trivial) _ _ _ _) fun _ => AllEff.bind (allEff_ofPanic _) fun _ =>
        AllEff.bind (AllEff.bind (solid_encrypt _ _ _) fun _ => trivial) fun _ => solid_put _ _ _ _) fun _ => trivial
  | search t kw => exact AllEff.bind (allEff_search hi (fun _ => trivial) _ _) fun _ => trivial
  | delete t kw x =>
    exact AllEff.bind (AllEff.bind (allEff_ixVerifyAccess hi) fun _ => AllEff.bind (allEff_getTaggerAndCryptor kw) fun _ =>
      solid_deleteLoop _ _ _ _ _) fun _ => trivial

/-- C75: the hypothesis of `C75_bolt` and `C75_bolt_any` holds for every call of the library. -/
theorem C75_solid (hd : ∀ t, AllEff Solid (d.idProvider t)) (hi : ∀ t, AllEff Solid (i.idProvider t)) (c : ApiCall) :
    AllEff Solid (apiProg P d i s c) := by
  cases c with
  | d1 c => exact AllEff.bind (solid_call c (hd _)) fun _ => trivial
  | createToken p =>
    exact AllEff.bind (AllEff.bind (AllEff.bind (allEff_now trivial) fun _ => trivial) fun _ => AllEff.bind (solid_encrypt _ _ _) fun _ => trivial)
      fun _ => trivial
  | tokenContents t => exact AllEff.bind (AllEff.bind (allEff_tokenUnseal trivial _ _) fun _ => trivial) fun _ => trivial
  | index fuel c => exact AllEff.bind (solid_ix fuel c (hi _)) fun _ => trivial
  | dir c => exact AllEff.bind (solid_dir c) fun _ => trivial

end

/-! ## Concrete cases -/

/-- An empty `Mem` or `Bolt`. -/
def nothing : On KV := ⟨fun _ => none, 0⟩

instance : DecidablePred BoltFits := fun e => by cases e <;> simp only [BoltFits] <;> infer_instance

theorem nothing_tidy : Tidy nothing.state := fun _ => by simp [nothing]

theorem toyIndex_solid (t : GoString) : AllEff Solid (toyIndex.idProvider t) := by
  simp only [toyIndex]
  split <;> trivial

/-- Make an object and read it back. -/
def thereAndBack : Prog Object := do
  let oid ← toyD1.encrypt toyPrims [7] ⟨some [1, 2], some [3]⟩ [[8]]
  toyD1.decrypt toyPrims [8] oid

/-- On an empty `Mem`, and so on an empty abstract store, the object comes back. -/
example : (thereAndBack.runOn memProvider toyEnv nothing).1 = .ok ⟨some [1, 2], some [3]⟩ ∧
    (thereAndBack.run toyEnv (memView nothing)).1 = .ok ⟨some [1, 2], some [3]⟩ := by
  have h : (thereAndBack.run toyEnv (memView nothing)).1 = .ok ⟨some [1, 2], some [3]⟩ := by decide +kernel
  generalize thereAndBack = p at h ⊢
  rw [C75_mem] at h ⊢
  exact ⟨h, h⟩

/-- Two calls that add to the index and one that searches it. -/
def indexCalls : List (Prog IxRes) :=
  [ixProg toyPrims toyIndex 5 (.add [7] [107] [1]), ixProg toyPrims toyIndex 5 (.add [7] [108] [2]), ixProg toyPrims toyIndex 5 (.search [7] [107])]

/-- On an empty `Bolt` they interleave, all their requests fit, they write records, and they end as on the abstract store. -/
example : Tidy nothing.state ∧ SolidAll indexCalls ∧
    (∀ e ∈ requestsOn boltProvider toyEnv [0, 1, 0, 1, 1, 0, 0, 0, 1, 1, 1, 2, 2, 2, 2] nothing indexCalls, BoltFits e) ∧
    (requestsOn boltProvider toyEnv [0, 1, 0, 1, 1, 0, 0, 0, 1, 1, 1, 2, 2, 2, 2] nothing indexCalls).length = 10 := by
  refine ⟨nothing_tidy, ?_, by decide +kernel, by decide +kernel⟩
  intro p hp
  simp only [indexCalls, List.mem_cons, List.not_mem_nil, or_false] at hp
  rcases hp with rfl | rfl | rfl <;> exact solid_ix _ _ (toyIndex_solid _)

end D1
