import Verif.Proofs.Crypto
import Verif.Proofs.Data
/-!
# Running effects in a world without faults
-/
namespace D1

/-- No IO call fails for reasons of its own. -/
def NoFault (env : Env) : Prop := ∀ t, env.fault t = .none

/-- The random source never fails. -/
def RandOk (env : Env) : Prop := ∀ t n, (env.rand t n).isSome = true

/-- The bytes drawn at step `t`. -/
def drawn (env : Env) (t n : Nat) : BytesN n := (env.rand t n).getD ⟨List.replicate n 0, by simp⟩

/-- A world one step later with the given store. -/
abbrev World.next (w : World) (s : Store) : World := ⟨s, w.t + 1⟩

section
variable {env : Env}

theorem exec_none (hf : NoFault env) (w : World) (e : Eff) :
    w.exec env e = ((w.store.exec (env.rand w.t) (env.now w.t) e).1, w.next (w.store.exec (env.rand w.t) (env.now w.t) e).2) := by
  simp only [World.exec, hf w.t]

theorem exec_rand (w : World) (n : Nat) : w.exec env (.rand n) = (env.rand w.t n, w.next w.store) := by
  simp only [World.exec]
  cases env.fault w.t <;> rfl

theorem exec_now (w : World) : w.exec env .now = (env.now w.t, w.next w.store) := by
  simp only [World.exec]
  cases env.fault w.t <;> rfl

theorem run_randBytes (hr : RandOk env) (w : World) (n : Nat) :
    (randBytes n).run env w = (.ok (drawn env w.t n), w.next w.store) := by
  rw [randBytes, Prog.run_op, exec_rand]
  have := hr w.t n
  cases h : env.rand w.t n with
  | none => rw [h] at this; cases this
  | some b => simp [drawn, h]

theorem run_timeNow (w : World) : timeNow.run env w = (.ok (env.now w.t), w.next w.store) := by
  have h : timeNow.run env w = (.ok (w.exec env .now).1, (w.exec env .now).2) := rfl
  rw [h, exec_now]

theorem run_ioGet_some (hf : NoFault env) (f : IoErr → Err) (w : World) (id : Bytes) (dt : DataType) (d : Bytes)
    (h : w.store id dt = some d) : (ioGet f id dt).run env w = (.ok d, w.next w.store) := by
  rw [ioGet, Prog.run_op, exec_none hf]
  simp only [Store.exec, h]
  rfl

theorem run_ioGet_none (hf : NoFault env) (f : IoErr → Err) (w : World) (id : Bytes) (dt : DataType)
    (h : w.store id dt = none) : (ioGet f id dt).run env w = (.err (f .notFound), w.next w.store) := by
  rw [ioGet, Prog.run_op, exec_none hf]
  simp only [Store.exec, h]
  rfl

theorem run_ioPut_none (hf : NoFault env) (f : IoErr → Err) (w : World) (id : Bytes) (dt : DataType) (d : Bytes)
    (h : w.store id dt = none) : (ioPut f id dt d).run env w = (.ok (), w.next (w.store.set id dt (some d))) := by
  rw [ioPut, Prog.run_op, exec_none hf]
  simp only [Store.exec, h]
  rfl

theorem run_ioPut_some (hf : NoFault env) (f : IoErr → Err) (w : World) (id : Bytes) (dt : DataType) (d x : Bytes)
    (h : w.store id dt = some x) : (ioPut f id dt d).run env w = (.err (f .alreadyExists), w.next w.store) := by
  rw [ioPut, Prog.run_op, exec_none hf]
  simp only [Store.exec, h]
  rfl

theorem run_ioUpdate_some (hf : NoFault env) (f : IoErr → Err) (w : World) (id : Bytes) (dt : DataType) (d x : Bytes)
    (h : w.store id dt = some x) : (ioUpdate f id dt d).run env w = (.ok (), w.next (w.store.set id dt (some d))) := by
  rw [ioUpdate, Prog.run_op, exec_none hf]
  simp only [Store.exec, h]
  rfl

theorem run_ioUpdate_none (hf : NoFault env) (f : IoErr → Err) (w : World) (id : Bytes) (dt : DataType) (d : Bytes)
    (h : w.store id dt = none) : (ioUpdate f id dt d).run env w = (.err (f .notFound), w.next w.store) := by
  rw [ioUpdate, Prog.run_op, exec_none hf]
  simp only [Store.exec, h]
  rfl

theorem run_ioDelete (hf : NoFault env) (f : IoErr → Err) (w : World) (id : Bytes) (dt : DataType) :
    (ioDelete f id dt).run env w = (.ok (), w.next (w.store.set id dt none)) := by
  rw [ioDelete, Prog.run_op, exec_none hf]
  rfl

theorem Store.set_same (s : Store) (id : Bytes) (dt : DataType) (v : Option Bytes) : s.set id dt v id dt = v := by
  simp [Store.set]

theorem Store.set_other (s : Store) (id : Bytes) (dt : DataType) (v : Option Bytes) (id' : Bytes) (dt' : DataType)
    (h : ¬ (id' = id ∧ dt' = dt)) : s.set id dt v id' dt' = s id' dt' := by
  simp only [Store.set, if_neg h]

/-! ### Success, in any environment -/

theorem run_ioPut_ok {f : IoErr → Err} {w w' : World} {id : Bytes} {dt : DataType} {d : Bytes}
    (h : (ioPut f id dt d).run env w = (.ok (), w')) : w.store id dt = none ∧ w' = w.next (w.store.set id dt (some d)) := by
  rw [ioPut, Prog.run_op] at h
  simp only [World.exec] at h
  cases hf : env.fault w.t <;> simp only [hf, Eff.fail, Store.exec] at h
  · cases hs : w.store id dt <;> simp only [hs, Prog.run_ret, Prog.run_err, Prod.mk.injEq, reduceCtorEq, false_and, true_and] at h
    exact ⟨rfl, h.symm⟩
  all_goals simp at h

theorem run_ioUpdate_ok {f : IoErr → Err} {w w' : World} {id : Bytes} {dt : DataType} {d : Bytes}
    (h : (ioUpdate f id dt d).run env w = (.ok (), w')) :
    (∃ x, w.store id dt = some x) ∧ w' = w.next (w.store.set id dt (some d)) := by
  rw [ioUpdate, Prog.run_op] at h
  simp only [World.exec] at h
  cases hf : env.fault w.t <;> simp only [hf, Eff.fail, Store.exec] at h
  · cases hs : w.store id dt <;> simp only [hs, Prog.run_ret, Prog.run_err, Prod.mk.injEq, reduceCtorEq, false_and, true_and] at h
    exact ⟨⟨_, rfl⟩, h.symm⟩
  all_goals simp at h

theorem run_ioDelete_ok {f : IoErr → Err} {w w' : World} {id : Bytes} {dt : DataType}
    (h : (ioDelete f id dt).run env w = (.ok (), w')) : w' = w.next (w.store.set id dt none) := by
  rw [ioDelete, Prog.run_op] at h
  simp only [World.exec] at h
  cases hf : env.fault w.t <;> simp only [hf, Eff.fail, Store.exec] at h
  · simpa using h.symm
  all_goals simp at h

theorem run_ioGet_ok {f : IoErr → Err} {w w' : World} {id : Bytes} {dt : DataType} {d : Bytes}
    (h : (ioGet f id dt).run env w = (.ok d, w')) : w.store id dt = some d ∧ w' = w.next w.store := by
  rw [ioGet, Prog.run_op] at h
  simp only [World.exec] at h
  cases hf : env.fault w.t <;> simp only [hf, Eff.fail, Store.exec] at h
  · cases hs : w.store id dt <;> simp only [hs, Prog.run_ret, Prog.run_err, Prod.mk.injEq, reduceCtorEq, false_and, true_and,
      Outcome.ok.injEq] at h
    exact ⟨by rw [h.1], h.2.symm⟩
  all_goals simp at h

theorem run_randBytes_ok {w w' : World} {n : Nat} {b : BytesN n} (h : (randBytes n).run env w = (.ok b, w')) :
    env.rand w.t n = some b ∧ w' = w.next w.store := by
  rw [randBytes, Prog.run_op, exec_rand] at h
  simp only at h
  cases hr : env.rand w.t n <;> simp only [hr, Prog.run_ret, Prog.run_err, Prod.mk.injEq, reduceCtorEq, false_and,
    Outcome.ok.injEq] at h
  exact ⟨by rw [h.1], h.2.symm⟩

variable {P : Prims} (L : P.Laws)
include L

theorem Cryptor.run_encrypt_ok {c : Cryptor} {p a : J} {w w' : World} {r : Bytes × Bytes}
    (h : (c.encrypt P p a).run env w = (.ok r, w')) : ∃ (k : BytesN 32) (n : BytesN 12),
      r = (kwpBox P c.kwp k.1, gcmBox P k.1 n.1 a.render p.render) ∧ w' = ⟨w.store, w.t + 2⟩ := by
  rw [Cryptor.encrypt_eq L] at h
  obtain ⟨k, w1, h1, h⟩ := (Prog.run_bind_ok_iff env).mp h
  obtain ⟨n, w2, h2, h⟩ := (Prog.run_bind_ok_iff env).mp h
  simp only [Prog.run_ret, Prod.mk.injEq, Outcome.ok.injEq] at h
  obtain ⟨_, rfl⟩ := run_randBytes_ok h1
  obtain ⟨_, rfl⟩ := run_randBytes_ok h2
  exact ⟨k, n, h.1.symm, h.2.symm⟩

theorem Cryptor.run_encrypt (hr : RandOk env) (c : Cryptor) (p a : J) (w : World) :
    (c.encrypt P p a).run env w =
      (.ok (kwpBox P c.kwp (drawn env w.t 32).1, gcmBox P (drawn env w.t 32).1 (drawn env (w.t + 1) 12).1 a.render p.render),
        ⟨w.store, w.t + 2⟩) := by
  rw [Cryptor.encrypt_eq L, Prog.run_bind_ok env (run_randBytes hr w 32), Prog.run_bind_ok env (run_randBytes hr _ 12)]
  rfl

end

end D1
