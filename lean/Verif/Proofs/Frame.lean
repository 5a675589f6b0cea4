import Verif.Model.Index
import Verif.Model.Standalone
import Verif.Proofs.Yields
import Verif.Proofs.Always
import Verif.Proofs.D1Run
/-!
# Which effects a program can perform at all

`AllEff Q p`: whatever the answers, every effect of `p` satisfies `Q`.
-/
namespace D1

/-- The entry that an effect can change. -/
def Eff.target : Eff → Option (Bytes × DataType)
  | .put id dt _ | .update id dt _ | .delete id dt => some (id, dt)
  | _ => none

/-- The data type of the entry that an effect reads or changes. -/
def Eff.dataType : Eff → Option DataType
  | .put _ dt _ | .get _ dt | .update _ dt _ | .delete _ dt => some dt
  | _ => none

/-- The identifier of the entry that an effect reads or changes. -/
def Eff.entry : Eff → Option Bytes
  | .put id .. | .get id _ | .update id .. | .delete id _ => some id
  | _ => none

namespace Prog
variable {α β : Type} {Q : Eff → Prop}

/-- Every effect the program can perform satisfies `Q`. -/
def AllEff (Q : Eff → Prop) : Prog α → Prop
  | op e k => Q e ∧ ∀ r, AllEff Q (k r)
  | _ => True

theorem AllEff.mono {Q' : Eff → Prop} (hq : ∀ e, Q e → Q' e) {p : Prog α} (h : AllEff Q p) : AllEff Q' p := by
  induction p with
  | op e k ih => exact ⟨hq e h.1, fun r => ih r (h.2 r)⟩
  | _ => trivial

theorem AllEff.bind {p : Prog α} {k : α → Prog β} (hp : AllEff Q p) (hk : ∀ a, AllEff Q (k a)) : AllEff Q (p.bind k) := by
  induction p with
  | op e c ih => exact ⟨hp.1, fun r => ih r (hp.2 r)⟩
  | ret a => exact hk a
  | _ => trivial

theorem AllEff.attempt {p : Prog α} {k : Except Err α → Prog β} (hp : AllEff Q p) (hk : ∀ a, AllEff Q (k a)) :
    AllEff Q (p.attempt k) := by
  induction p with
  | op e c ih => exact ⟨hp.1, fun r => ih r (hp.2 r)⟩
  | ret a => exact hk _
  | err a => exact hk _
  | _ => trivial

theorem AllEff.mapErr {p : Prog α} {e : Err} (hp : AllEff Q p) : AllEff Q (p.mapErr e) :=
  hp.attempt fun r => by cases r <;> trivial

theorem allEff_ofExcept (x : Except Err α) : AllEff Q (ofExcept x) := by cases x <;> trivial
theorem allEff_ofPanic (x : Option α) : AllEff Q (ofPanic x) := by cases x <;> trivial

/-- In every execution, every event satisfies `Q`. -/
theorem AllEff.yields {p : Prog α} (h : AllEff Q p) {tr : List Event} {o : Outcome α} (hy : Yields p tr o) : ∀ ev ∈ tr, Q ev.1 := by
  induction hy with
  | op e k r tr o _ ih =>
    intro ev hev
    rcases List.mem_cons.mp hev with rfl | hev
    · exact h.1
    · exact ih (h.2 r) ev hev
  | _ => intro ev hev; cases hev

theorem exec_frame {env : Env} {w : World} {e : Eff} {id : Bytes} {dt : DataType} (h : e.target ≠ some (id, dt)) :
    (w.exec env e).2.store id dt = w.store id dt := by
  have hs : (w.store.exec (env.rand w.t) (env.now w.t) e).2 id dt = w.store id dt := by
    cases e with
    | put id' dt' b =>
      simp only [Store.exec]
      cases w.store id' dt' with
      | none => exact Store.set_other _ _ _ _ _ _ (fun hh => h (by rw [hh.1, hh.2]; rfl))
      | some _ => rfl
    | get id' dt' => simp only [Store.exec]; cases w.store id' dt' <;> rfl
    | update id' dt' b =>
      simp only [Store.exec]
      cases w.store id' dt' with
      | some _ => exact Store.set_other _ _ _ _ _ _ (fun hh => h (by rw [hh.1, hh.2]; rfl))
      | none => rfl
    | delete id' dt' => exact Store.set_other _ _ _ _ _ _ (fun hh => h (by rw [hh.1, hh.2]; rfl))
    | rand n => rfl
    | now => rfl
  simp only [World.exec]
  cases env.fault w.t <;> first | exact hs | rfl

/-- An entry that no effect targets keeps its value, also when the program is cut off. -/
theorem AllEff.frame {p : Prog α} {id : Bytes} {dt : DataType} (h : AllEff (fun e => e.target ≠ some (id, dt)) p) (env : Env) (n : Nat)
    (w : World) : (p.runN env n w).2.store id dt = w.store id dt := by
  induction p generalizing n w with
  | op e k ih =>
    cases n with
    | zero => rfl
    | succ n => rw [runN_succ_op, ih _ (h.2 _), exec_frame h.1]
  | _ => simp

theorem AllEff.frame_run {p : Prog α} {id : Bytes} {dt : DataType} (h : AllEff (fun e => e.target ≠ some (id, dt)) p) (env : Env)
    (w : World) : (p.run env w).2.store id dt = w.store id dt := by
  obtain ⟨n, hn⟩ := runN_of_run env p w
  have := h.frame env n w
  rw [hn n (Nat.le_refl n)] at this
  exact this

/-- Every way the program can end satisfies `R`. -/
def AllOut (R : Outcome α → Prop) : Prog α → Prop
  | ret a => R (.ok a)
  | err e => R (.err e)
  | panic => R .panic
  | diverge => R .diverge
  | op _ k => ∀ r, AllOut R (k r)

theorem AllOut.mono {R R' : Outcome α → Prop} (hr : ∀ o, R o → R' o) {p : Prog α} (h : AllOut R p) : AllOut R' p := by
  induction p with
  | op e k ih => exact fun r => ih r (h r)
  | _ => exact hr _ h

theorem AllOut.bind {R : Outcome α → Prop} {R' : Outcome β → Prop} {p : Prog α} {k : α → Prog β} (hp : AllOut R p)
    (hk : ∀ a, R (.ok a) → AllOut R' (k a)) (he : ∀ e, R (.err e) → R' (.err e)) (hpa : R .panic → R' .panic)
    (hd : R .diverge → R' .diverge) : AllOut R' (p.bind k) := by
  induction p with
  | op e c ih => exact fun r => ih r (hp r)
  | ret a => exact hk a hp
  | err e => exact he e hp
  | panic => exact hpa hp
  | diverge => exact hd hp

theorem AllOut.attempt {R : Outcome α → Prop} {R' : Outcome β → Prop} {p : Prog α} {k : Except Err α → Prog β} (hp : AllOut R p)
    (hk : ∀ a, R (.ok a) → AllOut R' (k (.ok a))) (he : ∀ e, R (.err e) → AllOut R' (k (.error e))) (hpa : R .panic → R' .panic)
    (hd : R .diverge → R' .diverge) : AllOut R' (p.attempt k) := by
  induction p with
  | op e c ih => exact fun r => ih r (hp r)
  | ret a => exact hk a hp
  | err e => exact he e hp
  | panic => exact hpa hp
  | diverge => exact hd hp

theorem AllOut.yields {R : Outcome α → Prop} {p : Prog α} (h : AllOut R p) {tr : List Event} {o : Outcome α} (hy : Yields p tr o) :
    R o := by
  induction hy with
  | op e k r tr o _ ih => exact ih (h r)
  | _ => exact h

theorem AllOut.run {R : Outcome α → Prop} {p : Prog α} (h : AllOut R p) (env : Env) (w : World) : R (p.run env w).1 := by
  obtain ⟨tr, hy⟩ := yields_of_run env p w
  exact h.yields hy

/-- The program returns a value with this property or an error. -/
abbrev Returns (R : α → Prop) : Outcome α → Prop
  | .ok a => R a
  | .err _ => True
  | _ => False

theorem returns_bind {R : α → Prop} {R' : β → Prop} {p : Prog α} {k : α → Prog β} (hp : AllOut (Returns R) p)
    (hk : ∀ a, R a → AllOut (Returns R') (k a)) : AllOut (Returns R') (p.bind k) :=
  hp.bind hk (fun _ _ => trivial) (fun h => h) (fun h => h)

theorem returns_attempt {R : α → Prop} {R' : β → Prop} {p : Prog α} {k : Except Err α → Prog β} (hp : AllOut (Returns R) p)
    (hk : ∀ a, R a → AllOut (Returns R') (k (.ok a))) (he : ∀ e, AllOut (Returns R') (k (.error e))) :
    AllOut (Returns R') (p.attempt k) :=
  hp.attempt hk (fun e _ => he e) (fun h => h) (fun h => h)

theorem returns_ofExcept {R : α → Prop} {x : Except Err α} (h : ∀ a, x = .ok a → R a) : AllOut (Returns R) (ofExcept x) := by
  cases x with
  | error e => trivial
  | ok a => exact h a rfl

theorem returns_ofPanic {R : α → Prop} {x : Option α} (h : ∃ a, x = some a ∧ R a) : AllOut (Returns R) (ofPanic x) := by
  obtain ⟨a, rfl, h⟩ := h
  exact h

end Prog
open Prog

section
variable {Q : Eff → Prop} {P : Prims}

theorem allEff_rand {n : Nat} (h : Q (.rand n)) : AllEff Q (randBytes n) := ⟨h, fun r => by cases r <;> trivial⟩
theorem allEff_now (h : Q .now) : AllEff Q timeNow := ⟨h, fun _ => trivial⟩
theorem allEff_ioGet {f : IoErr → Err} {id : Bytes} {dt : DataType} (h : Q (.get id dt)) : AllEff Q (ioGet f id dt) :=
  ⟨h, fun r => by rcases r with r | r <;> trivial⟩
theorem allEff_ioPut {f : IoErr → Err} {id : Bytes} {dt : DataType} {b : Bytes} (h : Q (.put id dt b)) : AllEff Q (ioPut f id dt b) :=
  ⟨h, fun r => by rcases r with r | r <;> trivial⟩
theorem allEff_ioUpdate {f : IoErr → Err} {id : Bytes} {dt : DataType} {b : Bytes} (h : Q (.update id dt b)) :
    AllEff Q (ioUpdate f id dt b) := ⟨h, fun r => by rcases r with r | r <;> trivial⟩
theorem allEff_ioDelete {f : IoErr → Err} {id : Bytes} {dt : DataType} (h : Q (.delete id dt)) : AllEff Q (ioDelete f id dt) :=
  ⟨h, fun r => by rcases r with r | r <;> trivial⟩

theorem allEff_encrypt (h : ∀ n, Q (.rand n)) (c : Cryptor) (p a : J) : AllEff Q (c.encrypt P p a) := by
  refine AllEff.bind (allEff_rand (h _)) fun _ => AllEff.bind ?_ fun _ => AllEff.bind (allEff_ofExcept _) fun _ => trivial
  unfold gcmEncrypt
  split
  · trivial
  · exact AllEff.bind (allEff_rand (h _)) fun _ => trivial

theorem allEff_newV4 (h : ∀ n, Q (.rand n)) : AllEff Q newV4 := AllEff.bind (allEff_rand (h _)) fun _ => trivial

/-! ## Standalone -/

variable {s : Standalone}

theorem allEff_getUser {uid : GoString} (h : Q (.get uid dtUser)) : AllEff Q (s.getUser P uid) :=
  AllEff.bind (allEff_ioGet h) fun b => by
    cases (P.unmarshal b).bind SealedUser.ofJ
    · trivial
    · exact allEff_ofExcept _

theorem allEff_getGroup {gid : GoString} (h : Q (.get gid dtGroup)) : AllEff Q (s.getGroup P gid) :=
  AllEff.bind (allEff_ioGet h) fun b => by
    cases (P.unmarshal b).bind SealedGroup.ofJ
    · trivial
    · exact allEff_ofExcept _

theorem allEff_fetchGroups (h : ∀ x, Q (.get x dtGroup)) (l : List GoString) : AllEff Q (s.fetchGroups P l) := by
  induction l with
  | nil => trivial
  | cons g l ih => exact AllEff.bind (allEff_getGroup (h g)) fun _ => AllEff.bind ih fun _ => trivial

theorem allEff_putUser {uid : GoString} {u : User} {up : Bool} (hr : ∀ n, Q (.rand n)) (h1 : ∀ b, Q (.put uid dtUser b))
    (h2 : ∀ b, Q (.update uid dtUser b)) : AllEff Q (s.putUser P uid u up) := by
  have heq : s.putUser P uid u up = (s.userCryptor.encrypt P u.toJ (.str uid)).bind fun r =>
      if up then ioUpdate (onNotFound .userNotFound) uid dtUser (SealedUser.toJ ⟨uid, some r.2, some r.1⟩).render
      else ioPut (onAlreadyExists .userAlreadyExists) uid dtUser (SealedUser.toJ ⟨uid, some r.2, some r.1⟩).render := by
    rw [Standalone.putUser, User.seal, Prog.bind_eq, Prog.bind_eq, Prog.bind_assoc]; rfl
  rw [heq]
  refine AllEff.bind (allEff_encrypt hr _ _ _) fun r => ?_
  cases up
  · exact allEff_ioPut (h1 _)
  · exact allEff_ioUpdate (h2 _)

theorem allEff_putGroup {gid : GoString} {g : Group} (hr : ∀ n, Q (.rand n)) (h1 : ∀ b, Q (.put gid dtGroup b)) :
    AllEff Q (s.putGroup P gid g) := by
  have heq : s.putGroup P gid g = (s.groupCryptor.encrypt P g.toJ (.str gid)).bind fun r =>
      ioPut (onAlreadyExists .groupAlreadyExists) gid dtGroup (SealedGroup.toJ ⟨gid, some r.2, some r.1⟩).render := by
    rw [Standalone.putGroup, Group.seal, Prog.bind_eq, Prog.bind_eq, Prog.bind_assoc]; rfl
  rw [heq]
  exact AllEff.bind (allEff_encrypt hr _ _ _) fun r => allEff_ioPut (h1 _)

theorem allEff_tokenUnseal (h : Q .now) (t : SealedToken) (c : Cryptor) : AllEff Q (t.unseal P c) := by
  refine AllEff.bind (allEff_now h) fun now => ?_
  split
  · trivial
  · cases c.decrypt P J.toBytes (.ofTime P t.expiryTime) t.wrappedKey.bytes t.ciphertext.bytes <;> trivial

theorem allEff_getIdentity (hn : Q .now) (hu : ∀ x, Q (.get x dtUser)) (hg : ∀ x, Q (.get x dtGroup)) (token : GoString) :
    AllEff Q (s.getIdentity P token) := by
  unfold Standalone.getIdentity
  split
  · trivial
  · refine AllEff.attempt (allEff_tokenUnseal hn _ _) fun r => ?_
    cases r with
    | error e => trivial
    | ok t => exact AllEff.bind (allEff_getUser (hu _)) fun u => AllEff.bind (allEff_fetchGroups hg _) fun _ => trivial

theorem allEff_generatePassword (hr : ∀ n, Q (.rand n)) : AllEff Q (generatePassword P) :=
  AllEff.bind (allEff_rand (hr _)) fun _ => AllEff.bind (allEff_rand (hr _)) fun _ => trivial

theorem allEff_authenticate (u : User) (p : GoString) : AllEff Q (u.authenticate P p) :=
  AllEff.bind (allEff_ofPanic _) fun b => by cases b <;> trivial

theorem allEff_checkMembership (i : Identity) (g : List GoString) : AllEff Q (checkMembership i g) := by
  unfold checkMembership; split <;> trivial

theorem allEff_newUser (hr : ∀ n, Q (.rand n)) (h1 : ∀ x b, Q (.put x dtUser b)) (h2 : ∀ x b, Q (.update x dtUser b))
    (sc : List Scope) : AllEff Q (s.newUser P sc) :=
  AllEff.bind (allEff_newV4 hr) fun _ => AllEff.bind (AllEff.bind (allEff_generatePassword hr) fun _ => trivial) fun _ =>
    AllEff.bind (allEff_putUser hr (h1 _) (h2 _)) fun _ => trivial

theorem allEff_loginUser (hr : ∀ n, Q (.rand n)) (hn : Q .now) {uid : GoString} (hg : Q (.get uid dtUser)) (p : GoString) :
    AllEff Q (s.loginUser P uid p) :=
  AllEff.bind (AllEff.mapErr (allEff_getUser hg)) fun _ => AllEff.bind (AllEff.mapErr (allEff_authenticate _ _)) fun _ =>
    AllEff.bind (AllEff.bind (allEff_now hn) fun _ => trivial) fun _ =>
      AllEff.bind (AllEff.mapErr (AllEff.bind (allEff_encrypt hr _ _ _) fun _ => trivial)) fun _ => trivial

theorem allEff_changeUserPassword (hr : ∀ n, Q (.rand n)) {uid : GoString} (hg : Q (.get uid dtUser)) (h1 : ∀ b, Q (.put uid dtUser b))
    (h2 : ∀ b, Q (.update uid dtUser b)) (p : GoString) : AllEff Q (s.changeUserPassword P uid p) :=
  AllEff.bind (AllEff.mapErr (allEff_getUser hg)) fun _ =>
    AllEff.bind (AllEff.mapErr (AllEff.bind (allEff_authenticate _ _) fun _ => AllEff.bind (allEff_generatePassword hr) fun _ => trivial))
      fun _ => AllEff.bind (allEff_putUser hr h1 h2) fun _ => trivial

theorem allEff_addUserToGroups (hr : ∀ n, Q (.rand n)) (hn : Q .now) (hu : ∀ x, Q (.get x dtUser)) (hg : ∀ x, Q (.get x dtGroup))
    {uid : GoString} (h1 : ∀ b, Q (.put uid dtUser b)) (h2 : ∀ b, Q (.update uid dtUser b)) (t : GoString) (gs : List GoString) :
    AllEff Q (s.addUserToGroups P t uid gs) :=
  AllEff.bind (allEff_getIdentity hn hu hg t) fun _ => AllEff.bind (allEff_checkMembership _ _) fun _ =>
    AllEff.bind (allEff_getUser (hu _)) fun _ => AllEff.bind (allEff_ofPanic _) fun _ => allEff_putUser hr h1 h2

theorem allEff_removeUserFromGroups (hr : ∀ n, Q (.rand n)) (hn : Q .now) (hu : ∀ x, Q (.get x dtUser)) (hg : ∀ x, Q (.get x dtGroup))
    {uid : GoString} (h1 : ∀ b, Q (.put uid dtUser b)) (h2 : ∀ b, Q (.update uid dtUser b)) (t : GoString) (gs : List GoString) :
    AllEff Q (s.removeUserFromGroups P t uid gs) :=
  AllEff.bind (allEff_getIdentity hn hu hg t) fun _ => AllEff.bind (allEff_checkMembership _ _) fun _ =>
    AllEff.bind (allEff_getUser (hu _)) fun _ => allEff_putUser hr h1 h2

theorem allEff_deleteUser (hn : Q .now) (hu : ∀ x, Q (.get x dtUser)) (hg : ∀ x, Q (.get x dtGroup))
    {uid : GoString} (h1 : Q (.delete uid dtUser)) (t : GoString) : AllEff Q (s.deleteUser P t uid) :=
  AllEff.bind (allEff_getIdentity hn hu hg t) fun _ => allEff_ioDelete h1

theorem allEff_newGroup (hr : ∀ n, Q (.rand n)) (hn : Q .now) (hu : ∀ x, Q (.get x dtUser)) (hg : ∀ x, Q (.get x dtGroup))
    (h1 : ∀ x b, Q (.put x dtUser b)) (h2 : ∀ x b, Q (.update x dtUser b)) (h3 : ∀ x b, Q (.put x dtGroup b)) (t : GoString)
    (sc : List Scope) : AllEff Q (s.newGroup P t sc) :=
  AllEff.bind (allEff_getIdentity hn hu hg t) fun _ => AllEff.bind (allEff_newV4 hr) fun _ =>
    AllEff.bind (allEff_putGroup hr (h3 _)) fun _ => AllEff.bind (allEff_getUser (hu _)) fun _ =>
      AllEff.bind (allEff_ofPanic _) fun _ => AllEff.bind (allEff_putUser hr (h1 _) (h2 _)) fun _ => trivial

/-! ## D1 -/

variable {d : D1}

theorem allEff_verifyAccess {token : GoString} (hi : AllEff Q (d.idProvider token)) (sc : Scope) : AllEff Q (d.verifyAccess token sc) :=
  AllEff.attempt hi fun r => by
    cases r with
    | error e => trivial
    | ok i => simp only; split <;> trivial

theorem allEff_getSealedAccess {oid : Oid} (h : Q (.get oid.1 dtAccess)) : AllEff Q (getSealedAccess P oid) :=
  AllEff.bind (allEff_ioGet h) fun b => by cases (P.unmarshal b).bind (SealedAccess.ofJ P) <;> trivial

theorem allEff_getSealedObject {oid : Oid} (h : Q (.get oid.1 dtObject)) : AllEff Q (getSealedObject P oid) :=
  AllEff.bind (allEff_ioGet h) fun b => by cases (P.unmarshal b).bind (SealedObject.ofJ P) <;> trivial

theorem allEff_guardProg {token : GoString} (hi : AllEff Q (d.idProvider token)) {oid : Oid} (h : Q (.get oid.1 dtAccess)) (sc : Scope) :
    AllEff Q (guardProg P d token sc oid) :=
  AllEff.bind (allEff_verifyAccess hi sc) fun _ => AllEff.bind (allEff_getSealedAccess h) fun _ => allEff_ofExcept _

theorem sealObject_bind {β : Type} (o : Object) (oid : Oid) (c : Cryptor) (K : Bytes × SealedObject → Prog β) : (o.seal P oid c).bind K =
    (c.encrypt P (.ofBytes o.plaintext) (objectAad oid o.associatedData)).bind fun r => K (r.1, ⟨some r.2, o.associatedData, oid⟩) := by
  rw [Object.seal, Prog.bind_eq, Prog.bind_assoc]; rfl

theorem sealAccess_bind {β : Type} (a : Access) (oid : Oid) (c : Cryptor) (K : SealedAccess → Prog β) : (a.seal P oid c).bind K =
    (c.encrypt P a.toJ (.ofBytes (some oid.1))).bind fun r => K ⟨oid, some r.2, some r.1⟩ := by
  rw [Access.seal, Prog.bind_eq, Prog.bind_assoc]; rfl

/-- Beside what the Identity Provider does, a D1 call draws randomness and reads and changes object and access records, and a call on
an object only those of that object. -/
theorem allEff_call (c : Spec.Call) (hi : AllEff Q (d.idProvider c.token)) (hr : ∀ n, Q (.rand n))
    (h : ∀ e dt, e.dataType = some dt → (dt = dtObject ∨ dt = dtAccess) → (∀ oid, c.onOid = some oid → e.entry = some oid.1) → Q e) :
    AllEff Q (callProg P d c) := by
  cases c with
  | encrypt t o gs =>
    refine AllEff.bind (AllEff.bind (allEff_verifyAccess hi _) fun _ => AllEff.bind (allEff_newV4 hr) fun oid => ?_) fun _ => trivial
    simp only [Prog.bind_eq, sealObject_bind, sealAccess_bind]
    refine AllEff.bind (allEff_encrypt hr _ _ _) fun r => AllEff.bind (allEff_ofPanic _) fun a =>
      AllEff.bind (allEff_encrypt hr _ _ _) fun r' => AllEff.bind (allEff_ioPut ?_) fun _ => AllEff.bind (allEff_ioPut ?_) fun _ => trivial
    · exact h _ dtObject rfl (.inl rfl) (by simp [Spec.Call.onOid])
    · exact h _ dtAccess rfl (.inr rfl) (by simp [Spec.Call.onOid])
  | update t oid o =>
    rw [callProg, update_eq]
    simp only [sealObject_bind, sealAccess_bind]
    refine AllEff.bind (AllEff.bind (allEff_guardProg hi ?_ _) fun a => AllEff.bind (allEff_encrypt hr _ _ _) fun r =>
      AllEff.bind (allEff_encrypt hr _ _ _) fun r' => AllEff.bind (allEff_ioUpdate ?_) fun _ => allEff_ioUpdate ?_) fun _ => trivial
    · exact h _ dtAccess rfl (.inr rfl) (by rintro oid' ⟨⟩; rfl)
    · exact h _ dtObject rfl (.inl rfl) (by rintro oid' ⟨⟩; rfl)
    · exact h _ dtAccess rfl (.inr rfl) (by rintro oid' ⟨⟩; rfl)
  | decrypt t oid =>
    rw [callProg, decrypt_eq]
    refine AllEff.bind (AllEff.bind (allEff_guardProg hi ?_ _) fun a => AllEff.bind (allEff_getSealedObject ?_) fun _ => allEff_ofExcept _)
      fun _ => trivial
    · exact h _ dtAccess rfl (.inr rfl) (by rintro oid' ⟨⟩; rfl)
    · exact h _ dtObject rfl (.inl rfl) (by rintro oid' ⟨⟩; rfl)
  | delete t oid =>
    refine AllEff.bind (AllEff.bind (allEff_verifyAccess hi _) fun i => AllEff.attempt (allEff_getSealedAccess ?_) fun r => ?_) fun _ => trivial
    · exact h _ dtAccess rfl (.inr rfl) (by rintro oid' ⟨⟩; rfl)
    · rcases r with e | a
      · cases e <;> trivial
      · refine AllEff.bind (allEff_ofExcept _) fun _ => AllEff.bind (allEff_ioDelete ?_) fun _ => allEff_ioDelete ?_
        · exact h _ dtObject rfl (.inl rfl) (by rintro oid' ⟨⟩; rfl)
        · exact h _ dtAccess rfl (.inr rfl) (by rintro oid' ⟨⟩; rfl)
  | getGroups t oid =>
    rw [callProg, getAccessGroups_eq]
    refine AllEff.bind (AllEff.bind (allEff_guardProg hi ?_ _) fun a => trivial) fun _ => trivial
    exact h _ dtAccess rfl (.inr rfl) (by rintro oid' ⟨⟩; rfl)
  | addGroups t oid gs =>
    rw [callProg, addGroupsToAccess_eq]
    simp only [sealAccess_bind]
    refine AllEff.bind (AllEff.bind (allEff_guardProg hi ?_ _) fun a => AllEff.bind (allEff_ofPanic _) fun a =>
      AllEff.bind (allEff_encrypt hr _ _ _) fun r => allEff_ioUpdate ?_) fun _ => trivial
    · exact h _ dtAccess rfl (.inr rfl) (by rintro oid' ⟨⟩; rfl)
    · exact h _ dtAccess rfl (.inr rfl) (by rintro oid' ⟨⟩; rfl)
  | removeGroups t oid gs =>
    rw [callProg, removeGroupsFromAccess_eq]
    simp only [sealAccess_bind]
    refine AllEff.bind (AllEff.bind (allEff_guardProg hi ?_ _) fun a =>
      AllEff.bind (allEff_encrypt hr _ _ _) fun r => allEff_ioUpdate ?_) fun _ => trivial
    · exact h _ dtAccess rfl (.inr rfl) (by rintro oid' ⟨⟩; rfl)
    · exact h _ dtAccess rfl (.inr rfl) (by rintro oid' ⟨⟩; rfl)
  | authorize t oid =>
    rw [callProg, authorizeIdentity_eq]
    refine AllEff.bind (AllEff.bind (allEff_guardProg hi ?_ _) fun a => trivial) fun _ => trivial
    exact h _ dtAccess rfl (.inr rfl) (by rintro oid' ⟨⟩; rfl)

/-! ## The index -/

variable {ix : SecureIndex}

theorem allEff_getSealedNode {tag : Bytes} (h : Q (.get tag dtNode)) : AllEff Q (getSealedNode P tag) :=
  AllEff.bind (allEff_ioGet h) fun b => by cases (P.unmarshal b).bind SealedNode.ofJ <;> trivial

theorem allEff_getNextNode (h : ∀ x, Q (.get x dtNode)) (n : Node) (t : Tagger) (c : Cryptor) : AllEff Q (getNextNode P n t c) :=
  AllEff.bind (allEff_ofPanic _) fun _ => AllEff.bind (allEff_getSealedNode (h _)) fun _ => allEff_ofExcept _

theorem allEff_getLastNodeLoop (h : ∀ x, Q (.get x dtNode)) (t : Tagger) (c : Cryptor) (fuel : Nat) (n : Node) :
    AllEff Q (getLastNodeLoop P t c fuel n) := by
  induction fuel generalizing n with
  | zero => trivial
  | succ fuel ih =>
    refine AllEff.attempt (allEff_getNextNode h n t c) fun r => ?_
    rcases r with e | a
    · cases e <;> trivial
    · exact ih a

theorem allEff_searchLoop (h : ∀ x, Q (.get x dtNode)) (t : Tagger) (c : Cryptor) (fuel : Nat) (n : Node) (l : List GoString) :
    AllEff Q (searchLoop P t c fuel n l) := by
  induction fuel generalizing n l with
  | zero => trivial
  | succ fuel ih =>
    refine AllEff.attempt (allEff_getNextNode h n t c) fun r => ?_
    rcases r with e | a
    · cases e <;> trivial
    · exact ih a _

theorem allEff_deleteNode (hr : ∀ n, Q (.rand n)) (h : ∀ e, e.dataType = some dtNode → Q e) (l : Bytes) (n : Node) (t : Tagger)
    (c : Cryptor) : AllEff Q (deleteNode P l n t c) := by
  refine AllEff.attempt (allEff_getNextNode (fun _ => h _ rfl) n t c) fun r => ?_
  rcases r with e | a
  · cases e <;> first | trivial | exact allEff_ioDelete (h _ rfl)
  · exact AllEff.bind (AllEff.bind (allEff_encrypt hr _ _ _) fun _ => trivial) fun _ => AllEff.bind (allEff_ioUpdate (h _ rfl)) fun _ =>
      AllEff.bind (allEff_ofPanic _) fun _ => allEff_ioDelete (h _ rfl)

theorem allEff_deleteLoop (hr : ∀ n, Q (.rand n)) (h : ∀ e, e.dataType = some dtNode → Q e) (t : Tagger) (c : Cryptor) (x : GoString)
    (fuel : Nat) (n : Node) : AllEff Q (deleteLoop P t c x fuel n) := by
  induction fuel generalizing n with
  | zero => trivial
  | succ fuel ih =>
    refine AllEff.attempt (allEff_getNextNode (fun _ => h _ rfl) n t c) fun r => ?_
    rcases r with e | a
    · cases e <;> trivial
    · simp only
      split
      · exact AllEff.bind (allEff_ofPanic _) fun _ => AllEff.bind (allEff_deleteNode hr h _ _ _ _) fun _ => ih n
      · exact ih a

theorem allEff_ixVerifyAccess {token : GoString} (hi : AllEff Q (ix.idProvider token)) : AllEff Q (ix.verifyAccess token) :=
  AllEff.attempt hi fun r => by
    cases r with
    | error e => trivial
    | ok i => simp only; split <;> trivial

theorem allEff_getTaggerAndCryptor (kw : GoString) : AllEff Q (ix.getTaggerAndCryptor P kw) :=
  AllEff.bind (allEff_ofPanic _) fun _ => AllEff.bind (allEff_ofPanic _) fun _ => AllEff.bind (allEff_ofExcept _) fun _ =>
    AllEff.bind (allEff_ofExcept _) fun _ => trivial

theorem allEff_add {token : GoString} (hi : AllEff Q (ix.idProvider token)) (hr : ∀ n, Q (.rand n)) (h : ∀ e, e.dataType = some dtNode → Q e)
    (fuel : Nat) (kw x : GoString) : AllEff Q (ix.add P fuel token kw x) :=
  AllEff.bind (allEff_ixVerifyAccess hi) fun _ => AllEff.bind (allEff_getTaggerAndCryptor kw) fun _ =>
    AllEff.bind (allEff_getLastNodeLoop (fun _ => h _ rfl) _ _ _ _) fun _ => AllEff.bind (allEff_ofPanic _) fun _ =>
      AllEff.bind (AllEff.bind (allEff_encrypt hr _ _ _) fun _ => trivial) fun _ => allEff_ioPut (h _ rfl)

theorem allEff_search {token : GoString} (hi : AllEff Q (ix.idProvider token)) (h : ∀ x, Q (.get x dtNode)) (fuel : Nat) (kw : GoString) :
    AllEff Q (ix.search P fuel token kw) :=
  AllEff.bind (allEff_ixVerifyAccess hi) fun _ => AllEff.bind (allEff_getTaggerAndCryptor kw) fun _ => allEff_searchLoop h _ _ _ _ _

theorem allEff_delete {token : GoString} (hi : AllEff Q (ix.idProvider token)) (hr : ∀ n, Q (.rand n)) (h : ∀ e, e.dataType = some dtNode → Q e)
    (fuel : Nat) (kw x : GoString) : AllEff Q (ix.delete P fuel token kw x) :=
  AllEff.bind (allEff_ixVerifyAccess hi) fun _ => AllEff.bind (allEff_getTaggerAndCryptor kw) fun _ => allEff_deleteLoop hr h _ _ _ _ _

end
end D1
