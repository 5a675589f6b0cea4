import Verif.Props.Guard
import Verif.Proofs.Always
/-!
# Crashes and IO failures: C07–C11

`runN env n` cuts a call off after `n` effects; `env.fault` injects failures.  A crash at any point is "for all `n`".
-/
namespace D1
open Spec Prog

/-- The object ID that a call names or creates. -/
def target (d : D1) (env : Env) (w : World) : Call → Oid
  | .encrypt t .. => freshOid d env w t
  | .update _ oid _ | .decrypt _ oid | .delete _ oid | .getGroups _ oid | .addGroups _ oid _ | .removeGroups _ oid _ |
    .authorize _ oid => oid

section
variable {P : Prims} {d : D1} {env : Env}

/-! ## C07 -/

/-- The stores differ at most in the two records of the object. -/
def Outside (oid : Oid) (s s' : Store) : Prop := ∀ id dt, ¬ (id = oid.1 ∧ (dt = dtObject ∨ dt = dtAccess)) → s' id dt = s id dt

theorem Outside.refl (oid : Oid) (s : Store) : Outside oid s s := fun _ _ _ => rfl

theorem Outside.set {oid : Oid} {s s' : Store} (h : Outside oid s s') {dt : DataType} (hdt : dt = dtObject ∨ dt = dtAccess)
    (v : Option Bytes) : Outside oid s (s'.set oid.1 dt v) := by
  intro id dt' hn
  rw [Store.set_other _ _ _ _ _ _ (by rintro ⟨rfl, rfl⟩; exact hn ⟨rfl, hdt⟩)]
  exact h id dt' hn

theorem encrypt_oid {t : GoString} {s : Scope} {w w1 w2 : World} {i : Identity} {oid : Oid}
    (h1 : (d.verifyAccess t s).run env w = (.ok i, w1)) (h2 : newV4.run env w1 = (.ok oid, w2)) :
    oid = freshOid d env w t ∧ w2.store = w1.store := by
  have h3 := (run_verifyAccess_ok h1).1
  simp only [newV4, Prog.bind_eq] at h2
  obtain ⟨b, w3, h4, h5⟩ := (Prog.run_bind_ok_iff env).mp h2
  obtain ⟨hr, rfl⟩ := run_randBytes_ok h4
  simp only [Prog.pure_eq, Prog.run_ret, Prod.mk.injEq, Outcome.ok.injEq] at h5
  obtain ⟨rfl, rfl⟩ := h5
  exact ⟨by simp only [freshOid, afterIdp, h3, drawn, hr, Option.getD_some], rfl⟩

theorem sealObject_oid {o : Object} {oid : Oid} {c : Cryptor} {w w1 : World} {r : Bytes × SealedObject}
    (h : (o.seal P oid c).run env w = (.ok r, w1)) : r.2.oid = oid := by
  simp only [Object.seal, Prog.bind_eq] at h
  obtain ⟨x, w2, _, h2⟩ := (Prog.run_bind_ok_iff env).mp h
  simp only [Prog.pure_eq, Prog.run_ret, Prod.mk.injEq, Outcome.ok.injEq] at h2
  rw [← h2.1]

theorem sealAccess_oid {a : Access} {oid : Oid} {c : Cryptor} {w w1 : World} {r : SealedAccess}
    (h : (a.seal P oid c).run env w = (.ok r, w1)) : r.oid = oid := by
  simp only [Access.seal, Prog.bind_eq] at h
  obtain ⟨x, w2, _, h2⟩ := (Prog.run_bind_ok_iff env).mp h
  simp only [Prog.pure_eq, Prog.run_ret, Prod.mk.injEq, Outcome.ok.injEq] at h2
  rw [← h2.1]

/-- An invariant of the store that every write to the object's records keeps holds throughout a call. -/
theorem call_always (hq : IdpReads d env) (c : Call) (w : World) (Q : Store → Prop) (h0 : Q w.store)
    (hu : (∀ t o gs, c ≠ .encrypt t o gs) → ∀ s dt v, Q s → (dt = dtObject ∨ dt = dtAccess) → Q (s.set (target d env w c).1 dt v))
    (hp : ∀ s dt v, Q s → (dt = dtObject ∨ dt = dtAccess) → s (target d env w c).1 dt = none → Q (s.set (target d env w c).1 dt v)) :
    Always env Q (callProg P d c) w := by
  cases c with
  | encrypt t o gs =>
    simp only [callProg, D1.encrypt, Prog.bind_eq, Prog.bind_assoc]
    refine (quiet_verifyAccess hq _ _).then h0 fun i w1 h1 e1 => ?_
    rw [← e1] at h0
    refine (Quiet.bind (quiet_rand _) fun _ => quiet_ret _ : Quiet env newV4).then h0 fun oid w2 h2 e2 => ?_
    rw [← e2] at h0
    obtain ⟨ho, _⟩ := encrypt_oid h1 h2
    refine (quiet_sealObject _ _ _).then h0 fun r w3 h3 e3 => ?_
    rw [← e3] at h0
    refine (quiet_ofPanic _).then h0 fun a w4 h4 e4 => ?_
    rw [← e4] at h0
    refine (quiet_sealAccess _ _ _).then h0 fun sa w5 h5 e5 => ?_
    rw [← e5] at h0
    have ht : target d env w (.encrypt t o gs) = oid := ho.symm
    rw [ht] at hp
    refine always_bind (always_ioPut h0 ?_) fun _ w6 h6 => ?_
    · rw [sealObject_oid h3]; exact fun hn => hp _ _ _ h0 (.inl rfl) hn
    obtain ⟨hn, rfl⟩ := run_ioPut_ok h6
    rw [sealObject_oid h3] at hn
    have h7 : Q (w5.store.set r.2.oid.1 dtObject (some r.2.toJ.render)) := by
      rw [sealObject_oid h3]; exact hp _ _ _ h0 (.inl rfl) hn
    refine always_bind (always_ioPut h7 ?_) fun _ w8 h8 => ?_
    · rw [sealAccess_oid h5]; exact fun hn => hp _ _ _ h7 (.inr rfl) hn
    obtain ⟨hn, rfl⟩ := run_ioPut_ok h8
    rw [sealAccess_oid h5] at hn
    refine always_ret ?_
    rw [sealAccess_oid h5]
    exact hp _ _ _ h7 (.inr rfl) hn
  | update t oid o =>
    replace hu := hu (fun _ _ _ h => by cases h)
    simp only [target] at hu
    simp only [callProg, update_eq, Prog.bind_assoc]
    refine (quiet_guardProg hq _ _ _).then h0 fun a w1 h1 e1 => ?_
    rw [← e1] at h0
    refine (quiet_sealObject _ _ _).then h0 fun r w3 h3 e3 => ?_
    rw [← e3] at h0
    refine (quiet_sealAccess _ _ _).then h0 fun sa w5 h5 e5 => ?_
    rw [← e5] at h0
    refine always_bind (always_ioUpdate h0 ?_) fun _ w6 h6 => ?_
    · rw [sealObject_oid h3]; exact fun _ _ => hu _ _ _ h0 (.inl rfl)
    obtain ⟨_, rfl⟩ := run_ioUpdate_ok h6
    have h7 : Q (w5.store.set r.2.oid.1 dtObject (some r.2.toJ.render)) := by
      rw [sealObject_oid h3]; exact hu _ _ _ h0 (.inl rfl)
    refine always_bind (always_ioUpdate h7 ?_) fun _ w8 h8 => ?_
    · rw [sealAccess_oid h5]; exact fun _ _ => hu _ _ _ h7 (.inr rfl)
    obtain ⟨_, rfl⟩ := run_ioUpdate_ok h8
    refine always_ret ?_
    rw [sealAccess_oid h5]
    exact hu _ _ _ h7 (.inr rfl)
  | decrypt t oid =>
    simp only [callProg, decrypt_eq, Prog.bind_assoc]
    refine Quiet.always ?_ h0
    exact Quiet.bind (quiet_guardProg hq _ _ _) fun _ => Quiet.bind (quiet_getSealedObject _) fun _ =>
      Quiet.bind (quiet_ofExcept _) fun _ => quiet_ret _
  | getGroups t oid =>
    simp only [callProg, getAccessGroups_eq, Prog.bind_assoc]
    exact Quiet.always (Quiet.bind (quiet_guardProg hq _ _ _) fun _ => quiet_ret _) h0
  | authorize t oid =>
    simp only [callProg, authorizeIdentity_eq, Prog.bind_assoc]
    exact Quiet.always (Quiet.bind (quiet_guardProg hq _ _ _) fun _ => quiet_ret _) h0
  | delete t oid =>
    replace hu := hu (fun _ _ _ h => by cases h)
    simp only [target] at hu
    simp only [callProg, D1.delete, Prog.bind_eq, Prog.bind_assoc, Prog.attempt_bind]
    refine (quiet_verifyAccess hq _ _).then h0 fun i w1 h1 e1 => ?_
    rw [← e1] at h0
    refine always_attempt ((quiet_getSealedAccess _).always h0) (fun sa w2 h2 => ?_) fun e w2 h2 => ?_
    · rw [← (quiet_getSealedAccess _).run_eq h2] at h0
      simp only [Prog.bind_assoc]
      refine (quiet_ofExcept _).then h0 fun a w3 h3 e3 => ?_
      rw [← e3] at h0
      refine always_bind (always_ioDelete h0 (hu _ _ _ h0 (.inl rfl))) fun _ w4 h4 => ?_
      obtain rfl := run_ioDelete_ok h4
      have h7 := hu _ dtObject none h0 (.inl rfl)
      refine always_bind (always_ioDelete h7 (hu _ _ _ h7 (.inr rfl))) fun _ w5 h5 => ?_
      obtain rfl := run_ioDelete_ok h5
      exact always_ret (hu _ _ _ h7 (.inr rfl))
    · rw [← (quiet_getSealedAccess _).run_eq h2] at h0
      cases e <;> first | exact always_err h0 | exact always_ret h0
  | addGroups t oid gs =>
    replace hu := hu (fun _ _ _ h => by cases h)
    simp only [target] at hu
    simp only [callProg, addGroupsToAccess_eq, Prog.bind_assoc]
    refine (quiet_guardProg hq _ _ _).then h0 fun a w1 h1 e1 => ?_
    rw [← e1] at h0
    refine (quiet_ofPanic _).then h0 fun a w4 h4 e4 => ?_
    rw [← e4] at h0
    refine (quiet_sealAccess _ _ _).then h0 fun sa w5 h5 e5 => ?_
    rw [← e5] at h0
    refine always_bind (always_ioUpdate h0 ?_) fun _ w6 h6 => ?_
    · rw [sealAccess_oid h5]; exact fun _ _ => hu _ _ _ h0 (.inr rfl)
    obtain ⟨_, rfl⟩ := run_ioUpdate_ok h6
    refine always_ret ?_
    rw [sealAccess_oid h5]
    exact hu _ _ _ h0 (.inr rfl)
  | removeGroups t oid gs =>
    replace hu := hu (fun _ _ _ h => by cases h)
    simp only [target] at hu
    simp only [callProg, removeGroupsFromAccess_eq, Prog.bind_assoc]
    refine (quiet_guardProg hq _ _ _).then h0 fun a w1 h1 e1 => ?_
    rw [← e1] at h0
    refine (quiet_sealAccess _ _ _).then h0 fun sa w5 h5 e5 => ?_
    rw [← e5] at h0
    refine always_bind (always_ioUpdate h0 ?_) fun _ w6 h6 => ?_
    · rw [sealAccess_oid h5]; exact fun _ _ => hu _ _ _ h0 (.inr rfl)
    obtain ⟨_, rfl⟩ := run_ioUpdate_ok h6
    refine always_ret ?_
    rw [sealAccess_oid h5]
    exact hu _ _ _ h0 (.inr rfl)

/-- C07: at every crash point and with every fault pattern, only the two records of the object that the call names or
creates can differ from before. -/
theorem C07_footprint (hq : IdpReads d env) (c : Call) (w : World) (n : Nat) (id : Bytes) (dt : DataType)
    (h : ¬ (id = (target d env w c).1 ∧ (dt = dtObject ∨ dt = dtAccess))) :
    ((callProg P d c).runN env n w).2.store id dt = w.store id dt :=
  call_always hq c w (Outside (target d env w c) w.store) (Outside.refl _ _) (fun _ _ _ _ h hdt => h.set hdt _)
    (fun _ _ _ h hdt _ => h.set hdt _) n id dt h

/-- C07 for calls that run to their end, whatever the outcome. -/
theorem C07_run (hq : IdpReads d env) (c : Call) (w : World) (id : Bytes) (dt : DataType)
    (h : ¬ (id = (target d env w c).1 ∧ (dt = dtObject ∨ dt = dtAccess))) :
    ((callProg P d c).run env w).2.store id dt = w.store id dt :=
  (call_always hq c w (Outside (target d env w c) w.store) (Outside.refl _ _) (fun _ _ _ _ h hdt => h.set hdt _)
    (fun _ _ _ h hdt _ => h.set hdt _)).last id dt h

/-- C07 for `Encrypt`: it never changes anything that exists, not even under the ID it draws. -/
theorem C07_encrypt_fresh (hq : IdpReads d env) (t : GoString) (o : Object) (gs : List GoString) (w : World) (n : Nat)
    (id : Bytes) (dt : DataType) (b : Bytes) (h : w.store id dt = some b) :
    ((callProg P d (.encrypt t o gs)).runN env n w).2.store id dt = some b := by
  refine call_always hq (.encrypt t o gs) w (fun s => s id dt = some b) h (fun hne => absurd rfl (hne t o gs))
    (fun s dt' v hs _ hn => ?_) n
  rw [Store.set_other _ _ _ _ _ _ (by rintro ⟨rfl, rfl⟩; rw [hs] at hn; cases hn)]
  exact hs

/-- Calls that only read leave the whole store alone. -/
theorem C07_readers (hq : IdpReads d env) (c : Call) (w : World) (n : Nat)
    (hc : (∃ t oid, c = .decrypt t oid) ∨ (∃ t oid, c = .getGroups t oid) ∨ ∃ t oid, c = .authorize t oid) :
    ((callProg P d c).runN env n w).2.store = w.store := by
  have hg : ∀ s oid t, Quiet env (guardProg P d t s oid) := fun s oid t => quiet_guardProg hq t s oid
  rcases hc with ⟨t, oid, rfl⟩ | ⟨t, oid, rfl⟩ | ⟨t, oid, rfl⟩
  · simp only [callProg, decrypt_eq, Prog.bind_assoc]
    exact (Quiet.bind (hg _ _ _) fun _ => Quiet.bind (quiet_getSealedObject _) fun _ =>
      Quiet.bind (quiet_ofExcept _) fun _ => quiet_ret _) w n
  · simp only [callProg, getAccessGroups_eq, Prog.bind_assoc]
    exact (Quiet.bind (hg _ _ _) fun _ => quiet_ret _) w n
  · simp only [callProg, authorizeIdentity_eq, Prog.bind_assoc]
    exact (Quiet.bind (hg _ _ _) fun _ => quiet_ret _) w n

/-- The group changes write only the access record. -/
theorem C07_groups_keep_object (hq : IdpReads d env) (c : Call) (w : World) (n : Nat)
    (hc : (∃ t oid gs, c = .addGroups t oid gs) ∨ ∃ t oid gs, c = .removeGroups t oid gs) (id : Bytes) :
    ((callProg P d c).runN env n w).2.store id dtObject = w.store id dtObject := by
  have key : ∀ (p : Prog Access) (oid : Oid), Quiet env p → Always env (fun s => s id dtObject = w.store id dtObject)
      (p.bind fun a => (a.seal P oid d.accessCryptor).bind fun sa => (putSealedAccess sa true).bind fun _ => .ret Res.unit) w := by
    intro p oid hp
    refine hp.then rfl fun a w1 h1 e1 => ?_
    have h0 : (fun s : Store => s id dtObject = w.store id dtObject) w1.store := by simp only [e1]
    refine (quiet_sealAccess _ _ _).then h0 fun sa w2 h2 e2 => ?_
    rw [← e2] at h0
    have hs : ∀ v, (w2.store.set sa.oid.1 dtAccess v) id dtObject = w.store id dtObject := fun v => by
      rw [Store.set_other _ _ _ _ _ _ (by simp [dtAccess, dtObject])]; exact h0
    refine always_bind (always_ioUpdate h0 fun _ _ => hs _) fun _ w3 h3 => ?_
    obtain ⟨_, rfl⟩ := run_ioUpdate_ok h3
    exact always_ret (hs _)
  rcases hc with ⟨t, oid, gs, rfl⟩ | ⟨t, oid, gs, rfl⟩
  · simp only [callProg, addGroupsToAccess_eq, Prog.bind_assoc]
    have := key ((guardProg P d t scopeModifyAccessGroups oid).bind fun a => Prog.ofPanic (a.addGroups gs)) oid
      (Quiet.bind (quiet_guardProg hq _ _ _) fun _ => quiet_ofPanic _) n
    simpa only [Prog.bind_assoc] using this
  · simp only [callProg, removeGroupsFromAccess_eq, Prog.bind_assoc]
    have := key ((guardProg P d t scopeModifyAccessGroups oid).bind fun a => .ret (a.removeGroups gs)) oid
      (Quiet.bind (quiet_guardProg hq _ _ _) fun _ => quiet_ret _) n
    simpa only [Prog.bind_assoc, Prog.ret_bind] using this

/-- The hypothesis is met by the concrete instance. -/
theorem toyD1_reads (env : Env) : IdpReads toyD1 env := by
  intro token
  simp only [toyD1]
  split
  · exact quiet_err _
  · exact quiet_ret _

/-! ## C08 -/

/-- What is left of an object while it is being deleted: both records as before, only the access record, or nothing. -/
def Deleting (oid : Oid) (s s' : Store) : Prop :=
  (s' oid.1 dtAccess = s oid.1 dtAccess ∧ (s' oid.1 dtObject = s oid.1 dtObject ∨ s' oid.1 dtObject = none)) ∨
    (s' oid.1 dtAccess = none ∧ s' oid.1 dtObject = none)

theorem Deleting.refl (oid : Oid) (s : Store) : Deleting oid s s := .inl ⟨rfl, .inl rfl⟩

theorem Deleting.trans {oid : Oid} {s s' s'' : Store} (h : Deleting oid s s') (h' : Deleting oid s' s'') : Deleting oid s s'' := by
  unfold Deleting at *
  rcases h with ⟨h1, h2⟩ | ⟨h1, h2⟩ <;> rcases h' with ⟨h3, h4⟩ | ⟨h3, h4⟩
  · refine .inl ⟨h3.trans h1, ?_⟩
    rcases h4 with h4 | h4
    · rw [h4]; exact h2
    · exact .inr h4
  · exact .inr ⟨h3, h4⟩
  · refine .inr ⟨h3.trans h1, ?_⟩
    rcases h4 with h4 | h4
    · rw [h4]; exact h2
    · exact h4
  · exact .inr ⟨h3, h4⟩

/-- One attempt, cut off anywhere and with any faults. -/
theorem delete_always (hq : IdpReads d env) (t : GoString) (oid : Oid) (w : World) :
    Always env (Deleting oid w.store) (d.delete P t oid) w := by
  have h0 : Deleting oid w.store w.store := Deleting.refl _ _
  generalize hs0 : w.store = s0 at h0
  have h0 : Deleting oid s0 w.store ∧ w.store = s0 := ⟨by rw [hs0]; exact h0, hs0⟩
  clear hs0
  simp only [D1.delete, Prog.bind_eq]
  refine (quiet_verifyAccess hq _ _).then h0.1 fun i w1 h1 e1 => ?_
  rw [← e1] at h0
  refine always_attempt ((quiet_getSealedAccess _).always h0.1) (fun sa w2 h2 => ?_) fun e w2 h2 => ?_
  · rw [← (quiet_getSealedAccess _).run_eq h2] at h0
    refine (quiet_ofExcept _).then h0.1 fun a w3 h3 e3 => ?_
    rw [← e3] at h0
    obtain ⟨h0, rfl⟩ := h0
    have h4 : Deleting oid w3.store (w3.store.set oid.1 dtObject none) :=
      .inl ⟨Store.set_other _ _ _ _ _ _ (by simp [dtAccess, dtObject]), .inr (Store.set_same _ _ _ _)⟩
    refine always_bind (always_ioDelete h0 h4) fun _ w4 h5 => ?_
    obtain rfl := run_ioDelete_ok h5
    refine always_ioDelete h4 (.inr ⟨Store.set_same _ _ _ _, ?_⟩)
    rw [Store.set_other _ _ _ _ _ _ (by simp [dtAccess, dtObject])]
    exact Store.set_same _ _ _ _
  · rw [← (quiet_getSealedAccess _).run_eq h2] at h0
    cases e <;> first | exact always_err h0.1 | exact always_ret h0.1

/-- Any number of `Delete` attempts, each in an environment of its own, by any caller, and cut off anywhere. -/
def attempts (P : Prims) (d : D1) (oid : Oid) : World → List (Env × GoString × Nat) → World
  | w, [] => w
  | w, (env, t, n) :: r => attempts P d oid ((d.delete P t oid).runN env n w).2 r

theorem attempts_deleting (oid : Oid) (as : List (Env × GoString × Nat)) (hq : ∀ a ∈ as, IdpReads d a.1) (w : World) :
    Deleting oid w.store (attempts P d oid w as).store := by
  induction as generalizing w with
  | nil => exact Deleting.refl _ _
  | cons a r ih =>
    obtain ⟨env, t, n⟩ := a
    exact (delete_always (hq _ List.mem_cons_self) t oid w n).trans (ih (fun a ha => hq a (List.mem_cons_of_mem _ ha)) _)

theorem run_verifyAccess_of {t : GoString} {s : Scope} {w wi : World} {i : Identity}
    (hi : (d.idProvider t).run env w = (.ok i, wi)) (hs : scopeIn s i.scopes = true) :
    (d.verifyAccess t s).run env w = (.ok i, wi) := by
  rw [D1.verifyAccess, Prog.run_attempt_ok env hi]
  rw [scopeIn_eq] at hs
  simp [hs]

/-- `Delete` without faults by a caller with the scope, when there is no access record. -/
theorem run_delete_missing (hf : NoFault env) {t : GoString} {oid : Oid} {w wi : World} {i : Identity}
    (hi : (d.idProvider t).run env w = (.ok i, wi)) (hs : scopeIn scopeDelete i.scopes = true)
    (hn : wi.store oid.1 dtAccess = none) : (d.delete P t oid).run env w = (.ok (), wi.next wi.store) := by
  simp only [D1.delete, Prog.bind_eq]
  rw [Prog.run_bind_ok env (run_verifyAccess_of hi hs)]
  have hget : (getSealedAccess P oid).run env wi = (.err .accessNotFound, wi.next wi.store) := by
    rw [getSealedAccess, Prog.bind_eq, Prog.run_bind_err env (run_ioGet_none hf _ wi _ _ hn)]
    rfl
  rw [Prog.run_attempt_err env hget]
  rfl

/-- Reading an access record that is accepted. -/
theorem run_getSealedAccess_accepts (hf : NoFault env) {oid : Oid} {w : World} {b : Bytes} {a : Access}
    (hb : w.store oid.1 dtAccess = some b) (ha : Accepts P d oid b a) :
    ∃ sa, (getSealedAccess P oid).run env w = (.ok sa, w.next w.store) ∧ sa.unseal P d.accessCryptor = .ok a := by
  obtain ⟨sa, h1, h2⟩ := ha
  refine ⟨{ sa with oid := oid }, ?_, h2⟩
  rw [getSealedAccess, Prog.bind_eq, Prog.run_bind_ok env (run_ioGet_some hf _ w _ _ _ hb), h1]
  rfl

/-- `Delete` without faults by a caller on the list. -/
theorem run_delete_listed (hf : NoFault env) {t : GoString} {oid : Oid} {w wi : World} {i : Identity} {b : Bytes} {a : Access}
    (hi : (d.idProvider t).run env w = (.ok i, wi)) (hs : scopeIn scopeDelete i.scopes = true)
    (hb : wi.store oid.1 dtAccess = some b) (ha : Accepts P d oid b a) (hl : Lists i scopeDelete a) :
    (d.delete P t oid).run env w = (.ok (), ⟨(wi.store.set oid.1 dtObject none).set oid.1 dtAccess none, wi.t + 3⟩) := by
  simp only [D1.delete, Prog.bind_eq]
  rw [Prog.run_bind_ok env (run_verifyAccess_of hi hs)]
  obtain ⟨sa, h1, h2⟩ := run_getSealedAccess_accepts hf hb ha
  rw [Prog.run_attempt_ok env h1]
  simp only
  rw [authorizeAccess_ok.mpr ⟨h2, hl⟩]
  simp only [Prog.ofExcept_ok, Prog.ret_bind]
  have hd1 : (deleteSealedObject oid).run env (wi.next wi.store) = _ := run_ioDelete hf .io _ oid.1 dtObject
  rw [Prog.run_bind_ok env hd1]
  exact run_ioDelete hf .io _ oid.1 dtAccess

/-- C08: start from any store in which the object is present with an access record that lists the caller, or absent
altogether (`hstart`).  After any number of `Delete` attempts by anybody, failing or cut off anywhere, a `Delete` that meets
no failure by a caller on that list succeeds and leaves neither record. -/
theorem C08_retry (hf : NoFault env) (hqe : IdpReads d env) {oid : Oid} {w : World} (as : List (Env × GoString × Nat))
    (hq : ∀ a ∈ as, IdpReads d a.1) {t : GoString} {i : Identity} {wi : World}
    (hi : (d.idProvider t).run env (attempts P d oid w as) = (.ok i, wi)) (hs : scopeIn scopeDelete i.scopes = true)
    (hstart : (w.store oid.1 dtAccess = none ∧ w.store oid.1 dtObject = none) ∨
      ∃ b a, w.store oid.1 dtAccess = some b ∧ Accepts P d oid b a ∧ Lists i scopeDelete a) :
    ∃ w', (d.delete P t oid).run env (attempts P d oid w as) = (.ok (), w') ∧
      w'.store oid.1 dtAccess = none ∧ w'.store oid.1 dtObject = none := by
  have hd := attempts_deleting (P := P) oid as hq w
  have hwi := (hqe t).run_eq hi
  rw [← hwi] at hd
  have missing : wi.store oid.1 dtAccess = none → wi.store oid.1 dtObject = none →
      ∃ w', (d.delete P t oid).run env (attempts P d oid w as) = (.ok (), w') ∧
        w'.store oid.1 dtAccess = none ∧ w'.store oid.1 dtObject = none :=
    fun h1 h2 => ⟨_, run_delete_missing hf hi hs h1, h1, h2⟩
  rcases hd with ⟨h1, h2⟩ | ⟨h1, h2⟩
  · rcases hstart with ⟨h3, h4⟩ | ⟨b, a, hb, ha, hl⟩
    · refine missing (h1.trans h3) ?_
      rcases h2 with h2 | h2
      · exact h2.trans h4
      · exact h2
    · refine ⟨_, run_delete_listed hf hi hs (h1.trans hb) ha hl, Store.set_same _ _ _ _, ?_⟩
      simp only
      rw [Store.set_other _ _ _ _ _ _ (by simp [dtAccess, dtObject]), Store.set_same]
  · exact missing h1 h2

/-- C08: deleting an absent object succeeds and changes nothing. -/
theorem C08_absent (hf : NoFault env) (hq : IdpReads d env) {oid : Oid} {w wi : World} {t : GoString} {i : Identity}
    (hi : (d.idProvider t).run env w = (.ok i, wi)) (hs : scopeIn scopeDelete i.scopes = true)
    (hn : w.store oid.1 dtAccess = none) :
    ∃ w', (d.delete P t oid).run env w = (.ok (), w') ∧ w'.store = w.store := by
  have hwi := (hq t).run_eq hi
  exact ⟨_, run_delete_missing hf hi hs (by rw [hwi]; exact hn), hwi⟩

/-- Sealed records of honest writers are accepted. -/
theorem accepts_of_accAt (L : P.Laws) {s : Store} {oid : Oid} {a : Access} (h : AccAt P d s oid a) :
    ∃ b, s oid.1 dtAccess = some b ∧ Accepts P d oid b a := by
  obtain ⟨l, dek, k, n, h1, rfl⟩ := h
  refine ⟨_, h1, sealedAcc P d oid ⟨some l, dek⟩ k n, ?_, ?_⟩
  · simp only [L.unmarshal_render, Option.bind_some, SealedAccess.ofJ_toJ L]
  · simp only [sealedAcc, NBytes.bytes, Option.getD_some]
    rw [Cryptor.decrypt_box L, Access.ofJ_toJ]
    rfl

/-! ## C09 -/

/-- Every call on the object but `Delete` reports that there is no access record. -/
theorem run_guard_missing (hf : NoFault env) {t : GoString} {s : Scope} {oid : Oid} {w wi : World} {i : Identity}
    (hi : (d.idProvider t).run env w = (.ok i, wi)) (hs : scopeIn s i.scopes = true)
    (hn : wi.store oid.1 dtAccess = none) : (guardProg P d t s oid).run env w = (.err .accessNotFound, wi.next wi.store) := by
  rw [guardProg, Prog.run_bind_ok env (run_verifyAccess_of hi hs), getSealedAccess, Prog.bind_eq, Prog.bind_assoc,
    Prog.run_bind_err env (run_ioGet_none hf _ _ _ _ hn)]
  rfl

theorem run_missing (hf : NoFault env) {c : Call} {oid : Oid} (hc : c.onOid = some oid) (hd : ∀ t, c ≠ .delete t oid)
    {w wi : World} {i : Identity} (hi : (d.idProvider c.token).run env w = (.ok i, wi)) (hs : scopeIn (docScope c) i.scopes = true)
    (hn : wi.store oid.1 dtAccess = none) : (callProg P d c).run env w = (.err .accessNotFound, wi.next wi.store) := by
  cases c <;> simp only [Spec.Call.onOid, Option.some.injEq, reduceCtorEq] at hc <;> subst hc
  case delete t o => exact absurd rfl (hd t)
  all_goals
    simp only [callProg, update_eq, decrypt_eq, getAccessGroups_eq, addGroupsToAccess_eq, removeGroupsFromAccess_eq,
      authorizeIdentity_eq, Prog.bind_assoc]
    exact Prog.run_bind_err env (run_guard_missing hf hi hs hn)

/-- The state of the new ID during `Encrypt`. -/
theorem encrypt_always (L : P.Laws) (hq : IdpReads d env) {t : GoString} {o : Object} {gs : List GoString} {w : World}
    (hn : w.store (freshOid d env w t).1 dtAccess = none) :
    Always env (fun s => (s (freshOid d env w t).1 dtAccess = none) ∨ ∃ i wi, (d.idProvider t).run env w = (.ok i, wi) ∧
      EntryAt P d s (freshOid d env w t) ⟨o, fun x => (gs ++ [i.id]).any fun g => sanitize g == x⟩) (d.encrypt P t o gs) w := by
  generalize hQ : (fun s : Store => (s (freshOid d env w t).1 dtAccess = none) ∨ ∃ i wi, (d.idProvider t).run env w = (.ok i, wi) ∧
      EntryAt P d s (freshOid d env w t) ⟨o, fun x => (gs ++ [i.id]).any fun g => sanitize g == x⟩) = Q
  have hQn : ∀ s : Store, s (freshOid d env w t).1 dtAccess = none → Q s := fun s h => by rw [← hQ]; exact .inl h
  simp only [D1.encrypt, Prog.bind_eq]
  refine (quiet_verifyAccess hq _ _).then (hQn _ hn) fun i w1 h1 e1 => ?_
  have hi := (run_verifyAccess_ok h1).1
  have hn1 : w1.store (freshOid d env w t).1 dtAccess = none := by rw [e1]; exact hn
  refine (Quiet.bind (quiet_rand _) fun _ => quiet_ret _ : Quiet env newV4).then (hQn _ hn1) fun oid w2 h2 e2 => ?_
  obtain ⟨ho, _⟩ := encrypt_oid h1 h2
  rw [← e2] at hn1
  rw [← ho] at hn1 hQ hQn
  clear ho hn
  refine (quiet_sealObject _ _ _).then (hQn _ hn1) fun r w3 h3 e3 => ?_
  obtain ⟨k, n, rfl, rfl⟩ := Object.run_seal_ok L h3
  simp only [Access.addGroups, newAccess, addToSet_some, Option.map_some, Prog.ofPanic_some, Prog.ret_bind]
  refine (quiet_sealAccess _ _ _).then (hQn _ hn1) fun sa w5 h5 e5 => ?_
  obtain ⟨ak, an, rfl, rfl⟩ := Access.run_seal_ok L h5
  have hn6 : ∀ b, (w2.store.set oid.1 dtObject b) oid.1 dtAccess = none := fun b => by
    rw [Store.set_other _ _ _ _ _ _ (by simp [dtAccess, dtObject])]; exact hn1
  refine always_bind (always_ioPut (hQn _ hn1) fun _ => hQn _ (hn6 _)) fun _ w6 h6 => ?_
  obtain ⟨_, rfl⟩ := run_ioPut_ok h6
  have hfin : Q (((w2.store.set oid.1 dtObject (some (sealedObj P oid o k n).toJ.render))).set oid.1 dtAccess
      (some (sealedAcc P d oid ⟨some ((gs ++ [i.id]).foldl setInsert []), some (kwpBox P d.objectCryptor.kwp k.1)⟩ ak an).toJ.render)) := by
    rw [← hQ]
    refine .inr ⟨i, w1, hi, ⟨_, _⟩, ⟨_, _, ak, an, Store.set_same _ _ _ _, rfl⟩, ⟨k, n, ?_, rfl⟩, ?_⟩
    · rw [Store.set_other _ _ _ _ _ _ (by simp [dtAccess, dtObject]), Store.set_same]
    · intro x
      rw [has_sanList, Bool.eq_iff_iff]
      simp only [List.any_eq_true, mem_foldl_setInsert, List.not_mem_nil, false_or]
  refine always_bind (always_ioPut (hQn _ (hn6 _)) fun _ => hfin) fun _ w7 h7 => ?_
  obtain ⟨_, rfl⟩ := run_ioPut_ok h7
  exact always_ret hfin

/-- C09: cut `Encrypt` off anywhere, with any faults.  Everything that existed is unchanged; and either its last write has not
taken effect, and then every later fault-free call on the new ID other than `Delete` reports `ErrAccessNotFound`; or it has,
and the object is completely stored. -/
theorem C09_interrupted (L : P.Laws) (hq : IdpReads d env) {t : GoString} {o : Object} {gs : List GoString} {w : World}
    (hn : w.store (freshOid d env w t).1 dtAccess = none) (n : Nat) {s : Store}
    (hsdef : s = ((d.encrypt P t o gs).runN env n w).2.store) :
    (∀ id dt b, w.store id dt = some b → s id dt = some b) ∧
    ((s (freshOid d env w t).1 dtAccess = none ∧
        ∀ (env' : Env) (c : Call) (w' wi : World) (i : Identity), NoFault env' → w'.store = s → IdpReads d env' →
          c.onOid = some (freshOid d env w t) → (∀ t', c ≠ .delete t' (freshOid d env w t)) →
          (d.idProvider c.token).run env' w' = (.ok i, wi) → scopeIn (docScope c) i.scopes = true →
          ((callProg P d c).run env' w').1 = .err .accessNotFound) ∨
      ∃ i wi, (d.idProvider t).run env w = (.ok i, wi) ∧
        EntryAt P d s (freshOid d env w t) ⟨o, fun x => (gs ++ [i.id]).any fun g => sanitize g == x⟩) := by
  subst hsdef
  constructor
  · intro id dt b hb
    have := C07_encrypt_fresh (P := P) hq t o gs w n id dt b hb
    have hcut : ((callProg P d (.encrypt t o gs)).runN env n w).2 = ((d.encrypt P t o gs).runN env n w).2 := by
      simp only [callProg]
      generalize d.encrypt P t o gs = p
      clear this hb hn
      induction p generalizing n w with
      | op e k ih =>
        cases n with
        | zero => rfl
        | succ n => exact ih _ n
      | _ => simp
    rw [hcut] at this
    exact this
  · refine (encrypt_always L hq hn (o := o) (gs := gs) n).imp (fun h => ⟨h, ?_⟩) id
    intro env' c w' wi i hf hw hq' hc hd hi hs
    rw [run_missing hf hc hd hi hs (by rw [(hq' _).run_eq hi, hw]; exact h)]

/-! ## C10

Full statement: after an interrupted `Encrypt`, a `Delete` by the creator that reports success leaves no object data.  False:
a crash between the two writes leaves an object record without access record, and `Delete` then reports success. -/

/-- C10, refutation: for every provider that accepts the token with the two scopes, if `Encrypt` crashes after its sixth
effect (the five draws and the first write), then the creator's `Delete` reports success and the object record is still there. -/
theorem C10_false (L : P.Laws) (hf : NoFault env) (hr : RandOk env) {t : GoString} {i : Identity}
    (hi : d.idProvider t = .ret i) (he : scopeIn scopeEncrypt i.scopes = true) (hd : scopeIn scopeDelete i.scopes = true)
    (o : Object) (gs : List GoString) (w : World) (hw : ∀ id dt, w.store id dt = none) :
    ((d.encrypt P t o gs).runN env 6 w).1 = none ∧
      ∃ w', (d.delete P t (freshOid d env w t)).run env ((d.encrypt P t o gs).runN env 6 w).2 = (.ok (), w') ∧
        ∃ b, w'.store (freshOid d env w t).1 dtObject = some b := by
  have hver : d.verifyAccess t scopeEncrypt = .ret i := by
    rw [D1.verifyAccess, hi]
    rw [scopeIn_eq] at he
    simp [he]
  have hrand : ∀ (w : World) (m k : Nat) {β : Type} (K : BytesN m → Prog β),
      ((randBytes m).bind K).runN env (k + 1) w = (K (drawn env w.t m)).runN env k (w.next w.store) := by
    intro w m k β K
    rw [randBytes, Prog.op_bind, Prog.runN_succ_op, exec_rand]
    have := hr w.t m
    cases h : env.rand w.t m with
    | none => rw [h] at this; cases this
    | some b => simp [drawn, h]
  have hfresh : freshOid d env w t = mkV4 (drawn env w.t 16) := by simp [freshOid, afterIdp, hi]
  have hrun : ∃ so : SealedObject, so.oid = freshOid d env w t ∧
      (d.encrypt P t o gs).runN env 6 w = (none, ⟨w.store.set so.oid.1 dtObject (some so.toJ.render), w.t + 6⟩) := by
    refine ⟨sealedObj P (freshOid d env w t) o (drawn env (w.t + 1) 32) (drawn env (w.t + 1 + 1) 12), rfl, ?_⟩
    simp only [D1.encrypt, Prog.bind_eq, hver, Prog.ret_bind, newV4, Prog.bind_assoc, Prog.pure_eq]
    rw [hrand]
    simp only [Prog.ret_bind, Object.seal, Access.seal, Prog.bind_eq, Cryptor.encrypt_eq L, Prog.bind_assoc, Prog.pure_eq]
    rw [hrand]
    simp only [hrand, Prog.ret_bind, Access.addGroups, newAccess, addToSet_some, Option.map_some, Prog.ofPanic_some]
    simp only [putSealedObject, putSealedAccess, ioPut, Prog.op_bind, Prog.runN_succ_op, exec_none hf, Store.exec, hw,
      Bool.false_eq_true, if_false, Prog.ret_bind, Prog.runN_zero_op]
    simp only [hfresh, sealedObj]
  obtain ⟨so, hso, hrun⟩ := hrun
  rw [hrun]
  refine ⟨rfl, ?_⟩
  have hdel := run_delete_missing (P := P) (d := d) (env := env) hf (t := t) (oid := freshOid d env w t)
    (w := ⟨w.store.set so.oid.1 dtObject (some so.toJ.render), w.t + 6⟩) (wi := ⟨w.store.set so.oid.1 dtObject (some so.toJ.render), w.t + 6⟩)
    (i := i) (by rw [hi]; rfl) hd
    (by simp only; rw [Store.set_other _ _ _ _ _ _ (by simp [dtAccess, dtObject])]; exact hw _ _)
  exact ⟨_, hdel, so.toJ.render, by rw [← hso]; exact Store.set_same _ _ _ _⟩

/-- The setting of the refutation exists. -/
example : toyD1.idProvider [7] = .ret ⟨[7], scopeAll, [([50], ⟨[50], scopeAll⟩)]⟩ ∧ scopeIn scopeEncrypt scopeAll = true ∧
    scopeIn scopeDelete scopeAll = true := ⟨rfl, by decide, by decide⟩

/-- C10, the part that holds: if `Encrypt` was not interrupted between its two writes (its first write has not taken effect, or
its last has), a `Delete` that reports success leaves no object data.  What is missing: the crash between the two writes. -/
theorem C10_delete_partial {env' : Env} (hq : IdpReads d env') {t t' : GoString} {o : Object} {gs : List GoString} {w w' : World}
    (n : Nat) {s : Store} (hs : s = ((d.encrypt P t o gs).runN env n w).2.store) {oid : Oid}
    (hpoint : s oid.1 dtObject = none ∨ s oid.1 dtAccess ≠ none) {wd : World} (hwd : wd.store = s)
    (h : (d.delete P t' oid).run env' wd = (.ok (), w')) : w'.store oid.1 dtObject = none := by
  subst hs
  have hafter : (afterIdp d env' wd t').store = wd.store := (hq t').run wd
  rcases (C19_delete_stored h).2 with h1 | h1
  · exact h1
  · rw [hafter] at h1
    rcases hpoint with h2 | h2
    · have hd := (delete_always (P := P) hq t' oid wd).last
      rw [h] at hd
      rcases hd with ⟨_, h3 | h3⟩ | ⟨_, h3⟩
      · rw [h3, hwd]; exact h2
      · exact h3
      · exact h3
    · rw [hwd] at h1; exact absurd h1 h2

/-! ## C11

Full statement: after an interrupted `Update`, a `Decrypt` by an authorized caller returns the old or the new object.  False:
a crash between the two writes leaves the new object record with the old access record, whose key does not open it. -/

theorem accepts_unique (L : P.Laws) {oid : Oid} {b : Bytes} {a a' : Access} (h : Accepts P d oid b a) (h' : Accepts P d oid b a') :
    a = a' := by
  obtain ⟨sa, h1, h2⟩ := h
  obtain ⟨sa', h3, h4⟩ := h'
  rw [h1, Option.some.injEq] at h3
  subst h3
  rw [h2, Except.ok.injEq] at h4
  exact h4

/-- The object was sealed again, but the access record is still the old one. -/
def HalfUpdated (P : Prims) (oid : Oid) (o : Object) (s s' : Store) : Prop :=
  s' oid.1 dtAccess = s oid.1 dtAccess ∧ ∃ k n, s' oid.1 dtObject = some (sealedObj P oid o k n).toJ.render

theorem has_sanList_idem (l : List GoString) (x : GoString) :
    GoSet.has (some (sanList (sanList l))) x = GoSet.has (some (sanList l)) x := by
  rw [has_sanList, Bool.eq_iff_iff]
  simp only [GoSet.has, List.any_eq_true, beq_iff_eq, decide_eq_true_eq]
  constructor
  · rintro ⟨g, hg, rfl⟩; rw [mem_sanList_san _ _ hg]; exact hg
  · intro hx; exact ⟨x, hx, mem_sanList_san _ _ hx⟩

/-- The states an interrupted `Update` can leave. -/
theorem update_always (L : P.Laws) (hq : IdpReads d env) {t : GoString} {oid : Oid} {o : Object} {w : World} {a : Access}
    (ha : AccAt P d w.store oid a) :
    Always env (fun s => (s oid.1 dtAccess = w.store oid.1 dtAccess ∧ s oid.1 dtObject = w.store oid.1 dtObject) ∨
      HalfUpdated P oid o w.store s ∨ EntryAt P d s oid ⟨o, a.groups.has⟩) (d.update P t oid o) w := by
  generalize hs0 : w.store = s0 at ha
  generalize hQ : (fun s : Store => (s oid.1 dtAccess = s0 oid.1 dtAccess ∧ s oid.1 dtObject = s0 oid.1 dtObject) ∨
      HalfUpdated P oid o s0 s ∨ EntryAt P d s oid ⟨o, a.groups.has⟩) = Q
  have h0 : Q s0 := by rw [← hQ]; exact .inl ⟨rfl, rfl⟩
  rw [update_eq]
  refine (quiet_guardProg hq _ _ _).then (by rw [hs0]; exact h0) fun a' w1 h1 e1 => ?_
  rw [hs0] at e1
  obtain ⟨i, wi, b, hi, hb, hacc, hl, hw1⟩ := run_guardProg_ok h1
  have hb' : s0 oid.1 dtAccess = some b := by
    have h5 : w1.store = wi.store := by rw [hw1]
    rw [← e1, h5]; exact hb
  obtain ⟨b2, hb2, hacc2⟩ := accepts_of_accAt L ha
  rw [hb', Option.some.injEq] at hb2
  subst hb2
  obtain rfl := accepts_unique L hacc2 hacc
  refine (quiet_sealObject _ _ _).then (by rw [e1]; exact h0) fun r w3 h3 e3 => ?_
  obtain ⟨k, n, rfl, rfl⟩ := Object.run_seal_ok L h3
  refine (quiet_sealAccess _ _ _).then (by rw [e3, e1]; exact h0) fun sa w5 h5 e5 => ?_
  obtain ⟨ak, an, rfl, rfl⟩ := Access.run_seal_ok L h5
  simp only [e1]
  have hhalf : Q (s0.set oid.1 dtObject (some (sealedObj P oid o k n).toJ.render)) := by
    rw [← hQ]
    exact .inr (.inl ⟨Store.set_other _ _ _ _ _ _ (by simp [dtAccess, dtObject]), k, n, Store.set_same _ _ _ _⟩)
  refine always_bind (always_ioUpdate h0 fun _ _ => hhalf) fun _ w6 h6 => ?_
  obtain ⟨_, rfl⟩ := run_ioUpdate_ok h6
  refine always_ioUpdate hhalf fun _ _ => ?_
  rw [← hQ]
  obtain ⟨l, dek, k', n', h7, rfl⟩ := ha
  refine .inr (.inr ⟨⟨some (sanList (sanList l)), some (kwpBox P d.objectCryptor.kwp k.1)⟩, ⟨_, _, ak, an, Store.set_same _ _ _ _, rfl⟩,
    ⟨k, n, ?_, rfl⟩, fun x => ?_⟩)
  · rw [Store.set_other _ _ _ _ _ _ (by simp [dtAccess, dtObject])]
    exact Store.set_same _ _ _ _
  · exact has_sanList_idem l x

/-- The guard lets a caller on the list through. -/
theorem run_guard_listed (hf : NoFault env) {t : GoString} {s : Scope} {oid : Oid} {w wi : World} {i : Identity} {b : Bytes}
    {a : Access} (hi : (d.idProvider t).run env w = (.ok i, wi)) (hs : scopeIn s i.scopes = true)
    (hb : wi.store oid.1 dtAccess = some b) (ha : Accepts P d oid b a) (hl : Lists i s a) :
    (guardProg P d t s oid).run env w = (.ok a, wi.next wi.store) := by
  rw [guardProg, Prog.run_bind_ok env (run_verifyAccess_of hi hs)]
  obtain ⟨sa, h1, h2⟩ := run_getSealedAccess_accepts hf hb ha
  rw [Prog.run_bind_ok env h1, authorizeAccess_ok.mpr ⟨h2, hl⟩]
  rfl

/-- `Decrypt` by a caller on the list when the object record is opened by the key on the access record. -/
theorem run_decrypt_entry (L : P.Laws) (hf : NoFault env) {t : GoString} {oid : Oid} {w wi : World} {i : Identity} {a : Access}
    {o : Object} (hi : (d.idProvider t).run env w = (.ok i, wi)) (hs : scopeIn scopeDecrypt i.scopes = true)
    (ha : AccAt P d wi.store oid a) (ho : ObjAt P d wi.store oid o a.wrappedDEK) (hl : Lists i scopeDecrypt a) :
    ∃ w', (d.decrypt P t oid).run env w = (.ok o, w') := by
  obtain ⟨b, hb, hacc⟩ := accepts_of_accAt L ha
  rw [decrypt_eq, Prog.run_bind_ok env (run_guard_listed hf hi hs hb hacc hl)]
  obtain ⟨so, h1, h2⟩ := run_getSealedObject L hf (env := env) (w := wi.next wi.store) ho
  rw [Prog.run_bind_ok env h1, h2]
  exact ⟨_, rfl⟩

/-- One AES-GCM ciphertext opens under two keys. -/
def KeyCollision (P : Prims) (k k' n a p : Bytes) : Prop := ∃ p', P.gcmSeal k n a p = P.gcmSeal k' n a p'

/-- `Decrypt` when the object record was sealed under another key than the one on the access record. -/
theorem run_decrypt_half (L : P.Laws) (hf : NoFault env) {t : GoString} {oid : Oid} {w wi : World} {i : Identity} {a : Access}
    {o : Object} {k0 k : BytesN 32} {n : BytesN 12} (hi : (d.idProvider t).run env w = (.ok i, wi))
    (hs : scopeIn scopeDecrypt i.scopes = true) (ha : AccAt P d wi.store oid a)
    (hk : a.wrappedDEK = some (kwpBox P d.objectCryptor.kwp k0.1))
    (ho : wi.store oid.1 dtObject = some (sealedObj P oid o k n).toJ.render) (hl : Lists i scopeDecrypt a)
    (hc : ¬ KeyCollision P k.1 k0.1 n.1 (objectAad oid o.associatedData).render (J.ofBytes o.plaintext).render) :
    ∃ e w', (d.decrypt P t oid).run env w = (.err e, w') := by
  obtain ⟨b, hb, hacc⟩ := accepts_of_accAt L ha
  rw [decrypt_eq, Prog.run_bind_ok env (run_guard_listed hf hi hs hb hacc hl)]
  obtain ⟨so, h1, _⟩ := run_getSealedObject L hf (env := env) (w := wi.next wi.store) (d := d)
    (⟨k, n, ho, rfl⟩ : ObjAt P d wi.store oid o (some (kwpBox P d.objectCryptor.kwp k.1)))
  have h1' : (getSealedObject P oid).run env (wi.next wi.store) = (.ok (sealedObj P oid o k n), (wi.next wi.store).next wi.store) := by
    rw [getSealedObject, Prog.bind_eq, Prog.run_bind_ok env (run_ioGet_some hf _ (wi.next wi.store) _ _ _ ho)]
    simp only [L.unmarshal_render, Option.bind_some, SealedObject.ofJ_toJ L, Prog.pure_eq, Prog.run_ret, sealedObj]
  rw [Prog.run_bind_ok env h1']
  cases hu : (sealedObj P oid o k n).unseal P a.wrappedDEK d.objectCryptor with
  | error e => exact ⟨e, _, rfl⟩
  | ok o' =>
    exfalso
    rw [SealedObject.unseal, hk] at hu
    cases hd : d.objectCryptor.decrypt P J.toBytes (objectAad (sealedObj P oid o k n).oid (sealedObj P oid o k n).associatedData)
      (NBytes.bytes (some (kwpBox P d.objectCryptor.kwp k0.1))) (sealedObj P oid o k n).ciphertext.bytes with
    | error e => rw [hd] at hu; cases hu
    | ok v =>
      obtain ⟨key, nonce, p, j, h2, h3, _, _⟩ := (Cryptor.decrypt_ok_iff L _ _ _ _ _ _).mp hd
      simp only [NBytes.bytes, Option.getD_some] at h2
      have hkey : k0.1 = key.1 := kwpBox_inj L _ _ _ k0.2 key.2 h2
      simp only [sealedObj, NBytes.bytes, Option.getD_some, gcmBox] at h3
      have hlen : (P.gcmSeal k.1 n.1 (objectAad oid o.associatedData).render (J.ofBytes o.plaintext).render).length =
          (P.gcmSeal key.1 nonce.1 (objectAad oid o.associatedData).render p).length := by
        have := congrArg List.length h3
        simp only [List.length_append, n.2, nonce.2] at this
        omega
      obtain ⟨h4, h5⟩ := List.append_inj h3 hlen
      exact hc ⟨p, by rw [h4, ← h5, hkey]⟩

/-- C11, the part that holds: cut `Update` off anywhere, with any faults, and let a caller on the list decrypt later without
failures.  The result is the old object, the new object, or an error, unless the very ciphertext that is stored opens under the old key
too.  What is missing: the error case does happen (`C11_false`). -/
theorem C11_states_partial (L : P.Laws) (hq : IdpReads d env) {t : GoString} {oid : Oid} {o o' : Object} {w : World} {a : Access}
    (ha : AccAt P d w.store oid a) (ho : ObjAt P d w.store oid o a.wrappedDEK) (n : Nat) {env' : Env} (hf : NoFault env')
    (hq' : IdpReads d env') {t' : GoString} {w1 wi : World} {i : Identity}
    (hw1 : w1.store = ((d.update P t oid o').runN env n w).2.store) (hi : (d.idProvider t').run env' w1 = (.ok i, wi))
    (hs : scopeIn scopeDecrypt i.scopes = true) (hl : Lists i scopeDecrypt a) :
    ∃ w', (d.decrypt P t' oid).run env' w1 = (.ok o, w') ∨ (d.decrypt P t' oid).run env' w1 = (.ok o', w') ∨
      (HalfUpdated P oid o' w.store w1.store ∧ ∃ k0 : BytesN 32, a.wrappedDEK = some (kwpBox P d.objectCryptor.kwp k0.1) ∧
        ((∃ e, (d.decrypt P t' oid).run env' w1 = (.err e, w')) ∨
          ∃ (k : BytesN 32) (n : BytesN 12), w1.store oid.1 dtObject = some (sealedObj P oid o' k n).toJ.render ∧
            KeyCollision P k.1 k0.1 n.1 (objectAad oid o'.associatedData).render (J.ofBytes o'.plaintext).render)) := by
  have hst := update_always (P := P) (d := d) (env := env) L hq (t := t) (o := o') ha n
  simp only [← hw1] at hst
  have hwi := (hq' t').run_eq hi
  rcases hst with ⟨h1, h2⟩ | h | ⟨a', h1, h2, h3⟩
  · obtain ⟨w', h⟩ := run_decrypt_entry L hf hi hs (ha.congr (by rw [hwi, h1])) (ho.congr (by rw [hwi, h2])) hl
    exact ⟨w', .inl h⟩
  · obtain ⟨h1, k, n, h2⟩ := id h
    obtain ⟨k0, n0, h3, h4⟩ := ho
    by_cases hc : KeyCollision P k.1 k0.1 n.1 (objectAad oid o'.associatedData).render (J.ofBytes o'.plaintext).render
    · exact ⟨w1, .inr (.inr ⟨h, k0, h4, .inr ⟨k, n, h2, hc⟩⟩)⟩
    · obtain ⟨e, w', h5⟩ := run_decrypt_half L hf hi hs (ha.congr (by rw [hwi, h1])) h4 (by rw [hwi]; exact h2) hl hc
      exact ⟨w', .inr (.inr ⟨h, k0, h4, .inl ⟨e, h5⟩⟩)⟩
  · obtain ⟨x, hx, hxa, hxs⟩ := hl
    obtain ⟨w', h⟩ := run_decrypt_entry L hf hi hs (h1.congr (by rw [hwi])) (h2.congr (by rw [hwi]))
      ⟨x, hx, by rw [h3]; exact hxa, hxs⟩
    exact ⟨w', .inr (.inl h)⟩

/-- A half-updated object is repaired by running `Update` again. -/
theorem C11_retry_repairs (L : P.Laws) (hf : NoFault env) (hr : RandOk env) {t : GoString} {oid : Oid} {o' : Object} {w wi : World}
    {a : Access} {x : Bytes} {i : Identity} (hi : (d.idProvider t).run env w = (.ok i, wi)) (hs : scopeIn scopeUpdate i.scopes = true)
    (ha : AccAt P d wi.store oid a) (hx : wi.store oid.1 dtObject = some x) (hl : Lists i scopeUpdate a) :
    ∃ w', (d.update P t oid o').run env w = (.ok (), w') ∧ EntryAt P d w'.store oid ⟨o', a.groups.has⟩ := by
  obtain ⟨b, hb, hacc⟩ := accepts_of_accAt L ha
  rw [update_eq, Prog.run_bind_ok env (run_guard_listed hf hi hs hb hacc hl),
    Prog.run_bind_ok env (Object.run_seal L hr _ _ _ _), Prog.run_bind_ok env (Access.run_seal L hr _ _ _ _)]
  generalize hw1 : wi.next wi.store = w1
  rw [show wi.store = w1.store from by rw [← hw1]] at ha hx
  have h1 : (putSealedObject (sealedObj P oid o' (drawn env w1.t 32) (drawn env (w1.t + 1) 12)) true).run env
      ⟨w1.store, w1.t + 2 + 2⟩ = _ := run_ioUpdate_some hf (onNotFound .objectNotFound) _ oid.1 dtObject _ _ hx
  rw [Prog.run_bind_ok env h1]
  obtain ⟨l, dek, ak, an, hac, rfl⟩ := ha
  have h2 : (putSealedAccess (sealedAcc P d oid ⟨some (sanList l),
      some (kwpBox P d.objectCryptor.kwp (drawn env w1.t 32).1)⟩ (drawn env (w1.t + 2) 32)
      (drawn env (w1.t + 2 + 1) 12)) true).run env (World.next ⟨w1.store, w1.t + 2 + 2⟩ (w1.store.set oid.1 dtObject
        (some (sealedObj P oid o' (drawn env w1.t 32) (drawn env (w1.t + 1) 12)).toJ.render))) = _ :=
    run_ioUpdate_some hf (onNotFound .accessNotFound) _ oid.1 dtAccess _ _
      ((Store.set_other _ _ _ _ _ _ (by simp [dtAccess, dtObject])).trans hac)
  refine ⟨_, h2, ⟨_, _⟩, ⟨_, _, _, _, Store.set_same _ _ _ _, rfl⟩, ⟨drawn env w1.t 32, drawn env (w1.t + 1) 12, ?_, rfl⟩,
    fun x => has_sanList_idem l x⟩
  simp only
  rw [Store.set_other _ _ _ _ _ _ (by simp [dtAccess, dtObject])]
  exact Store.set_same _ _ _ _

/-- `Update` cut off between its two writes. -/
theorem runN_update_half (L : P.Laws) (hf : NoFault env) (hr : RandOk env) {t : GoString} {oid : Oid} {o' : Object} {w : World}
    {a : Access} {x : Bytes} {i : Identity} (hi : d.idProvider t = .ret i) (hs : scopeIn scopeUpdate i.scopes = true)
    (ha : AccAt P d w.store oid a) (hx : w.store oid.1 dtObject = some x) (hl : Lists i scopeUpdate a) :
    (d.update P t oid o').runN env 6 w = (none, ⟨w.store.set oid.1 dtObject
      (some (sealedObj P oid o' (drawn env (w.t + 1) 32) (drawn env (w.t + 2) 12)).toJ.render), w.t + 6⟩) := by
  have hver : d.verifyAccess t scopeUpdate = .ret i := by
    rw [D1.verifyAccess, hi]
    rw [scopeIn_eq] at hs
    simp [hs]
  have hrand : ∀ (w : World) (m k : Nat) {β : Type} (K : BytesN m → Prog β),
      ((randBytes m).bind K).runN env (k + 1) w = (K (drawn env w.t m)).runN env k (w.next w.store) := by
    intro w m k β K
    rw [randBytes, Prog.op_bind, Prog.runN_succ_op, exec_rand]
    have := hr w.t m
    cases h : env.rand w.t m with
    | none => rw [h] at this; cases this
    | some b => simp [drawn, h]
  obtain ⟨b, hb, sa, hsa, hdec⟩ := accepts_of_accAt L ha
  have hauth : d.authorizeAccess P i scopeUpdate { sa with oid := oid } = .ok a := authorizeAccess_ok.mpr ⟨hdec, hl⟩
  simp only [D1.update, Prog.bind_eq, hver, Prog.ret_bind, getSealedAccess, ioGet, Prog.op_bind]
  rw [Prog.runN_succ_op]
  simp only [exec_none hf, Store.exec, hb, Prog.ret_bind, hsa, Prog.pure_eq, hauth, Prog.ofExcept_ok, Object.seal, Access.seal,
    Prog.bind_eq, Cryptor.encrypt_eq L, Prog.bind_assoc, hrand]
  simp only [putSealedObject, putSealedAccess, ioUpdate, if_true, Prog.op_bind]
  rw [Prog.runN_succ_op]
  simp only [exec_none hf, Store.exec, hx, Prog.ret_bind, Prog.runN_zero_op, sealedObj]

/-- C11, refutation: `Update` is cut off after its sixth effect (reading the access record, the four draws and the first
write); from then on `Decrypt` by the very same caller returns an error, unless one ciphertext opens under two keys. -/
theorem C11_false (L : P.Laws) (hf : NoFault env) (hr : RandOk env) {t : GoString} {oid : Oid} {o o' : Object} {w : World}
    {a : Access} {i : Identity} (hi : d.idProvider t = .ret i) (hs : scopeIn scopeUpdate i.scopes = true)
    (hs' : scopeIn scopeDecrypt i.scopes = true) (ha : AccAt P d w.store oid a) {k0 : BytesN 32} {n0 : BytesN 12}
    (ho : w.store oid.1 dtObject = some (sealedObj P oid o k0 n0).toJ.render)
    (hk : a.wrappedDEK = some (kwpBox P d.objectCryptor.kwp k0.1)) (hl : Lists i scopeUpdate a) (hl' : Lists i scopeDecrypt a)
    (hc : ¬ KeyCollision P (drawn env (w.t + 1) 32).1 k0.1 (drawn env (w.t + 2) 12).1 (objectAad oid o'.associatedData).render
      (J.ofBytes o'.plaintext).render) :
    ((d.update P t oid o').runN env 6 w).1 = none ∧
      ∃ e w', (d.decrypt P t oid).run env ((d.update P t oid o').runN env 6 w).2 = (.err e, w') := by
  rw [runN_update_half L hf hr hi hs ha ho hl]
  refine ⟨rfl, run_decrypt_half L hf (wi := ⟨w.store.set oid.1 dtObject
      (some (sealedObj P oid o' (drawn env (w.t + 1) 32) (drawn env (w.t + 2) 12)).toJ.render), w.t + 6⟩) (by rw [hi]; rfl) hs'
    (ha.congr (Store.set_other _ _ _ _ _ _ (by simp [dtAccess, dtObject]))) hk (Store.set_same _ _ _ _) hl' hc⟩

end

/-- An object on which everything after `C11_false` can be tried out: the store that an `Encrypt` drawing these keys leaves. -/
def toyEntryStore (oid : Oid) (o : Object) : Store := fun id dt =>
  if id = oid.1 ∧ dt = dtObject then some (sealedObj toyPrims oid o ⟨List.replicate 32 9, rfl⟩ ⟨List.replicate 12 9, rfl⟩).toJ.render
  else if id = oid.1 ∧ dt = dtAccess then some (sealedAcc toyPrims toyD1 oid
    ⟨some [[7]], some (kwpBox toyPrims toyD1.objectCryptor.kwp (List.replicate 32 9))⟩ ⟨List.replicate 32 8, rfl⟩
    ⟨List.replicate 12 8, rfl⟩).toJ.render
  else none

theorem toyEntry (oid : Oid) (o : Object) : AccAt toyPrims toyD1 (toyEntryStore oid o) oid
      ⟨some (sanList [[7]]), some (kwpBox toyPrims toyD1.objectCryptor.kwp (List.replicate 32 9))⟩ ∧
    toyEntryStore oid o oid.1 dtObject =
      some (sealedObj toyPrims oid o ⟨List.replicate 32 9, rfl⟩ ⟨List.replicate 12 9, rfl⟩).toJ.render := by
  constructor
  · refine ⟨[[7]], _, ⟨List.replicate 32 8, rfl⟩, ⟨List.replicate 12 8, rfl⟩, ?_, rfl⟩
    unfold toyEntryStore
    rw [if_neg (by simp [dtAccess, dtObject]), if_pos ⟨rfl, rfl⟩]
  · simp [toyEntryStore]

theorem toyLists (s : Scope) (hs : scopeIn s scopeAll = true) (dek : NBytes) :
    Lists ⟨[7], scopeAll, [([50], ⟨[50], scopeAll⟩)]⟩ s ⟨some (sanList [[7]]), dek⟩ := by
  refine ⟨[7], by decide, (by decide : GoSet.has (some (sanList [[7]])) [7] = true), ?_⟩
  have : Identity.getIDScope ⟨[7], scopeAll, [([50], ⟨[50], scopeAll⟩)]⟩ [7] = scopeAll := by decide
  rw [this]; exact hs

/-- Two toy ciphertexts agree only if their tags do. -/
theorem toy_noCollision {k k' n a p : Bytes} (h : toyTag k n a p ≠ toyTag k' n a p) : ¬ KeyCollision toyPrims k k' n a p := by
  rintro ⟨p', hp⟩
  simp only [toyPrims] at hp
  obtain ⟨rfl, h2⟩ := List.append_inj' hp (by simp [toyTag_length])
  exact h h2

/-- C11: the refutation in the concrete instance, with nothing assumed. -/
theorem C11_false_witness : ∃ (d : D1) (env : Env) (w : World) (t : GoString) (oid : Oid) (o o' : Object),
    NoFault env ∧ RandOk env ∧ IdpReads d env ∧
    (∃ w', (d.decrypt toyPrims t oid).run env w = (.ok o, w')) ∧
    ((d.update toyPrims t oid o').runN env 6 w).1 = none ∧
    ∃ e w', (d.decrypt toyPrims t oid).run env ((d.update toyPrims t oid o').runN env 6 w).2 = (.err e, w') := by
  obtain ⟨ha, ho⟩ := toyEntry nilOid ⟨some [1], some [2]⟩
  refine ⟨toyD1, toyEnv, ⟨toyEntryStore nilOid ⟨some [1], some [2]⟩, 0⟩, [7], nilOid, ⟨some [1], some [2]⟩, ⟨some [3], some [4]⟩,
    toyEnv_noFault, toyEnv_randOk, toyD1_reads _, ?_, ?_⟩
  · exact run_decrypt_entry toyLaws toyEnv_noFault (i := ⟨[7], scopeAll, [([50], ⟨[50], scopeAll⟩)]⟩) rfl (by decide) ha
      ⟨_, _, ho, rfl⟩ (toyLists _ (by decide) _)
  · exact C11_false toyLaws toyEnv_noFault toyEnv_randOk (i := ⟨[7], scopeAll, [([50], ⟨[50], scopeAll⟩)]⟩) rfl (by decide) (by decide)
      ha ho rfl (toyLists _ (by decide) _) (toyLists _ (by decide) _) (toy_noCollision (by decide +kernel))

/-- C08 on a concrete object: `Delete` is cut off after two effects (the object record is gone) and then run again. -/
example : ∃ w', (toyD1.delete toyPrims [7] nilOid).run toyEnv
      (attempts toyPrims toyD1 nilOid ⟨toyEntryStore nilOid ⟨some [1], some [2]⟩, 0⟩ [(toyEnv, [7], 2)]) = (.ok (), w') ∧
      w'.store nilOid.1 dtAccess = none ∧ w'.store nilOid.1 dtObject = none := by
  obtain ⟨b, hb, ha⟩ := accepts_of_accAt toyLaws (toyEntry nilOid ⟨some [1], some [2]⟩).1
  exact C08_retry toyEnv_noFault (toyD1_reads _) [(toyEnv, [7], 2)] (fun _ _ => toyD1_reads _)
    (i := ⟨[7], scopeAll, [([50], ⟨[50], scopeAll⟩)]⟩) rfl (by decide) (.inr ⟨b, _, hb, ha, toyLists _ (by decide) _⟩)

/-- C09 on a concrete store: both situations are possible; here `Encrypt` is cut off after its first write. -/
example : (⟨toyEntryStore nilOid ⟨some [1], some [2]⟩, 5⟩ : World).store
    (freshOid toyD1 toyEnv ⟨toyEntryStore nilOid ⟨some [1], some [2]⟩, 5⟩ [7]).1 dtAccess = none := by
  have : (freshOid toyD1 toyEnv ⟨toyEntryStore nilOid ⟨some [1], some [2]⟩, 5⟩ [7]).1 ≠ nilOid.1 := by decide +kernel
  simp only [toyEntryStore, this, false_and, if_false]

end D1
