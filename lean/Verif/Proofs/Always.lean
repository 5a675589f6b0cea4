import Verif.Proofs.D1Run
/-!
# What holds at every crash point
-/
namespace D1

namespace Prog
variable {α β : Type}

/-- `Q` holds of the store however early the program is cut off (and at its end). -/
def Always (env : Env) (Q : Store → Prop) (p : Prog α) (w : World) : Prop := ∀ n, Q (p.runN env n w).2.store

variable {env : Env} {Q : Store → Prop}

@[simp] theorem runN_ret (n : Nat) (a : α) (w : World) : (ret a).runN env n w = (some (.ok a), w) := by cases n <;> rfl
@[simp] theorem runN_err (n : Nat) (e : Err) (w : World) : (err e : Prog α).runN env n w = (some (.err e), w) := by cases n <;> rfl
@[simp] theorem runN_panic (n : Nat) (w : World) : (panic : Prog α).runN env n w = (some .panic, w) := by cases n <;> rfl
@[simp] theorem runN_diverge (n : Nat) (w : World) : (diverge : Prog α).runN env n w = (some .diverge, w) := by cases n <;> rfl
@[simp] theorem runN_zero_op (e : Eff) (k : e.Resp → Prog α) (w : World) : (op e k).runN env 0 w = (none, w) := rfl
theorem runN_succ_op (n : Nat) (e : Eff) (k : e.Resp → Prog α) (w : World) :
    (op e k).runN env (n + 1) w = (k (w.exec env e).1).runN env n (w.exec env e).2 := rfl

theorem always_ret {a : α} {w : World} (h : Q w.store) : Always env Q (ret a) w := fun n => by simpa
theorem always_err {e : Err} {w : World} (h : Q w.store) : Always env Q (err e : Prog α) w := fun n => by simpa
theorem always_panic {w : World} (h : Q w.store) : Always env Q (panic : Prog α) w := fun n => by simpa
theorem always_diverge {w : World} (h : Q w.store) : Always env Q (diverge : Prog α) w := fun n => by simpa

theorem always_op {e : Eff} {k : e.Resp → Prog α} {w : World} :
    Always env Q (op e k) w ↔ Q w.store ∧ Always env Q (k (w.exec env e).1) (w.exec env e).2 := by
  constructor
  · exact fun h => ⟨h 0, fun n => h (n + 1)⟩
  · rintro ⟨h0, h⟩ n
    cases n with
    | zero => exact h0
    | succ n => exact h n

theorem Always.start {p : Prog α} {w : World} (h : Always env Q p w) : Q w.store := by
  have := h 0
  cases p <;> simpa using this

theorem Always.last {p : Prog α} {w : World} (h : Always env Q p w) : Q (p.run env w).2.store := by
  obtain ⟨n, hn⟩ := runN_of_run env p w
  have := h n
  rw [hn n (Nat.le_refl n)] at this
  exact this

theorem Always.mono {Q' : Store → Prop} {p : Prog α} {w : World} (h : Always env Q p w) (hq : ∀ s, Q s → Q' s) :
    Always env Q' p w := fun n => hq _ (h n)

theorem always_attempt {p : Prog α} {k : Except Err α → Prog β} {w : World} (hp : Always env Q p w)
    (hok : ∀ a w1, p.run env w = (.ok a, w1) → Always env Q (k (.ok a)) w1)
    (herr : ∀ e w1, p.run env w = (.err e, w1) → Always env Q (k (.error e)) w1) : Always env Q (p.attempt k) w := by
  induction p generalizing w with
  | ret a => exact hok a w rfl
  | err e => exact herr e w rfl
  | panic => exact always_panic hp.start
  | diverge => exact always_diverge hp.start
  | op e c ih =>
    rw [op_attempt, always_op]
    rw [always_op] at hp
    exact ⟨hp.1, ih _ hp.2 hok herr⟩

theorem always_bind {p : Prog α} {k : α → Prog β} {w : World} (hp : Always env Q p w)
    (hk : ∀ a w1, p.run env w = (.ok a, w1) → Always env Q (k a) w1) : Always env Q (p.bind k) w := by
  rw [bind_eq_attempt]
  refine always_attempt hp (fun a w1 h => hk a w1 h) fun e w1 h => always_err ?_
  have := hp.last
  rw [h] at this
  exact this

/-- A program that never writes. -/
def Quiet (env : Env) (p : Prog α) : Prop := ∀ w, Always env (fun s => s = w.store) p w

theorem Quiet.run {p : Prog α} (h : Quiet env p) (w : World) : (p.run env w).2.store = w.store := (h w).last

theorem Quiet.run_eq {p : Prog α} (h : Quiet env p) {w w1 : World} {o : Outcome α} (hr : p.run env w = (o, w1)) :
    w1.store = w.store := by
  have := h.run w
  rw [hr] at this
  exact this

theorem Quiet.always {p : Prog α} (h : Quiet env p) {w : World} (hq : Q w.store) : Always env Q p w :=
  (h w).mono fun s hs => by rw [hs]; exact hq

theorem Quiet.bind {p : Prog α} {k : α → Prog β} (hp : Quiet env p) (hk : ∀ a, Quiet env (k a)) : Quiet env (p.bind k) := fun w =>
  always_bind (hp w) fun a w1 h => ((hk a) w1).mono fun s hs => by rw [hs, hp.run_eq h]

theorem Quiet.attempt {p : Prog α} {k : Except Err α → Prog β} (hp : Quiet env p) (hk : ∀ a, Quiet env (k a)) :
    Quiet env (p.attempt k) := fun w =>
  always_attempt (hp w) (fun a w1 h => ((hk _) w1).mono fun s hs => by rw [hs, hp.run_eq h])
    fun a w1 h => ((hk _) w1).mono fun s hs => by rw [hs, hp.run_eq h]

theorem quiet_ret (a : α) : Quiet env (ret a) := fun _ => always_ret rfl
theorem quiet_err (e : Err) : Quiet env (err e : Prog α) := fun _ => always_err rfl
theorem quiet_panic : Quiet env (panic : Prog α) := fun _ => always_panic rfl

theorem quiet_ofExcept (x : Except Err α) : Quiet env (ofExcept x) := by
  cases x
  · exact quiet_err _
  · exact quiet_ret _

theorem quiet_ofPanic (x : Option α) : Quiet env (ofPanic x) := by
  cases x
  · exact quiet_panic
  · exact quiet_ret _

/-- Sequencing after a program that never writes. -/
theorem Quiet.then {p : Prog α} {k : α → Prog β} (hp : Quiet env p) {w : World} (hq : Q w.store)
    (hk : ∀ a w1, p.run env w = (.ok a, w1) → w1.store = w.store → Always env Q (k a) w1) : Always env Q (p.bind k) w :=
  always_bind (hp.always hq) fun a w1 h => hk a w1 h (hp.run_eq h)

end Prog

open Prog

section
variable {env : Env} {Q : Store → Prop}

theorem quiet_rand (n : Nat) : Quiet env (randBytes n) := by
  intro w
  rw [randBytes, always_op, exec_rand]
  refine ⟨rfl, ?_⟩
  cases env.rand w.t n
  · exact always_err rfl
  · exact always_ret rfl

theorem quiet_now : Quiet env timeNow := by
  intro w
  have : timeNow = .op .now fun r => .ret r := rfl
  rw [this, always_op, exec_now]
  exact ⟨rfl, always_ret rfl⟩

theorem quiet_ioGet (f : IoErr → Err) (id : Bytes) (dt : DataType) : Quiet env (ioGet f id dt) := by
  intro w
  rw [ioGet, always_op]
  have h : (w.exec env (.get id dt)).2.store = w.store := by
    simp only [World.exec, Store.exec]
    cases env.fault w.t <;> cases w.store id dt <;> rfl
  refine ⟨rfl, ?_⟩
  revert h
  rcases w.exec env (.get id dt) with ⟨r, w1⟩
  intro h
  cases r with
  | ok b => exact always_ret h
  | error e => exact always_err h

theorem always_ioPut {f : IoErr → Err} {id : Bytes} {dt : DataType} {b : Bytes} {w : World} (h0 : Q w.store)
    (h1 : w.store id dt = none → Q (w.store.set id dt (some b))) : Always env Q (ioPut f id dt b) w := by
  rw [ioPut, always_op]
  have h : Q (w.exec env (.put id dt b)).2.store := by
    simp only [World.exec, Store.exec]
    cases hs : w.store id dt <;> cases env.fault w.t <;> first | exact h0 | exact h1 hs
  refine ⟨h0, ?_⟩
  revert h
  rcases w.exec env (.put id dt b) with ⟨r, w1⟩
  intro h
  cases r with
  | ok b => exact always_ret h
  | error e => exact always_err h

theorem always_ioUpdate {f : IoErr → Err} {id : Bytes} {dt : DataType} {b : Bytes} {w : World} (h0 : Q w.store)
    (h1 : ∀ x, w.store id dt = some x → Q (w.store.set id dt (some b))) : Always env Q (ioUpdate f id dt b) w := by
  rw [ioUpdate, always_op]
  have h : Q (w.exec env (.update id dt b)).2.store := by
    simp only [World.exec, Store.exec]
    cases hs : w.store id dt <;> cases env.fault w.t <;> first | exact h0 | exact h1 _ hs
  refine ⟨h0, ?_⟩
  revert h
  rcases w.exec env (.update id dt b) with ⟨r, w1⟩
  intro h
  cases r with
  | ok b => exact always_ret h
  | error e => exact always_err h

theorem always_ioDelete {f : IoErr → Err} {id : Bytes} {dt : DataType} {w : World} (h0 : Q w.store)
    (h1 : Q (w.store.set id dt none)) : Always env Q (ioDelete f id dt) w := by
  rw [ioDelete, always_op]
  have h : Q (w.exec env (.delete id dt)).2.store := by
    simp only [World.exec, Store.exec]
    cases env.fault w.t <;> first | exact h0 | exact h1
  refine ⟨h0, ?_⟩
  revert h
  rcases w.exec env (.delete id dt) with ⟨r, w1⟩
  intro h
  cases r with
  | ok b => exact always_ret h
  | error e => exact always_err h

variable {P : Prims} {d : D1}

theorem quiet_encrypt (c : Cryptor) (p a : J) : Quiet env (c.encrypt P p a) := by
  refine Quiet.bind (quiet_rand _) fun _ => Quiet.bind ?_ fun _ => Quiet.bind (quiet_ofExcept _) fun _ => quiet_ret _
  unfold gcmEncrypt
  split
  · exact quiet_err _
  · exact Quiet.bind (quiet_rand _) fun _ => quiet_ret _

theorem quiet_sealObject (o : Object) (oid : Oid) (c : Cryptor) : Quiet env (o.seal P oid c) :=
  Quiet.bind (quiet_encrypt _ _ _) fun _ => quiet_ret _

theorem quiet_sealAccess (a : Access) (oid : Oid) (c : Cryptor) : Quiet env (a.seal P oid c) :=
  Quiet.bind (quiet_encrypt _ _ _) fun _ => quiet_ret _

theorem quiet_getSealedAccess (oid : Oid) : Quiet env (getSealedAccess P oid) :=
  Quiet.bind (quiet_ioGet _ _ _) fun b => by
    cases (P.unmarshal b).bind (SealedAccess.ofJ P)
    · exact quiet_err _
    · exact quiet_ret _

theorem quiet_getSealedObject (oid : Oid) : Quiet env (getSealedObject P oid) :=
  Quiet.bind (quiet_ioGet _ _ _) fun b => by
    cases (P.unmarshal b).bind (SealedObject.ofJ P)
    · exact quiet_err _
    · exact quiet_ret _

/-- The Identity Provider only reads. -/
def IdpReads (d : D1) (env : Env) : Prop := ∀ token, Quiet env (d.idProvider token)

theorem quiet_verifyAccess (hq : IdpReads d env) (token : GoString) (s : Scope) : Quiet env (d.verifyAccess token s) :=
  Quiet.attempt (hq token) fun r => by
    cases r with
    | error e => exact quiet_err _
    | ok i =>
      simp only
      split
      · exact quiet_err _
      · exact quiet_ret _

theorem quiet_guardProg (hq : IdpReads d env) (token : GoString) (s : Scope) (oid : Oid) :
    Quiet env (guardProg P d token s oid) :=
  Quiet.bind (quiet_verifyAccess hq token s) fun _ => Quiet.bind (quiet_getSealedAccess oid) fun _ => quiet_ofExcept _

end

end D1
