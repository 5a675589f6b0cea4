import Verif.Model.Io
import Verif.Model.Sched
/-!
# The library on top of its own IO Providers

The calls of D1, the index and Standalone are programs over abstract IO requests (Prog.lean).  Here they run on the state of the
providers of Io.lean instead of on the abstract `Store`.
-/
namespace D1

/-- The state of a provider and the number of requests so far. -/
structure On (σ : Type) where
  state : σ
  t : Nat

variable {σ α : Type}

/-- One request, answered by a provider, the random source or the clock (`io.Provider`, io/io.go:55-72). -/
def Provider.exec (p : Provider σ) (s : σ) (rnd : (n : Nat) → Option (BytesN n)) (clk : GoTime) : (e : Eff) → e.Resp × σ
  | .put id dt d => p.put id dt d s
  | .get id dt => p.get id dt s
  | .update id dt d => p.update id dt d s
  | .delete id dt => p.delete id dt s
  | .rand n => (rnd n, s)
  | .now => (clk, s)

/-- The same with the faults of the environment, as in `World.exec`. -/
def Provider.step (p : Provider σ) (env : Env) (w : On σ) (e : Eff) : e.Resp × On σ :=
  let r := p.exec w.state (env.rand w.t) (env.now w.t) e
  match env.fault w.t with
  | .none => (r.1, ⟨r.2, w.t + 1⟩)
  | .before => (e.fail r.1, ⟨w.state, w.t + 1⟩)
  | .after => (e.fail r.1, ⟨r.2, w.t + 1⟩)

/-- `Prog.run` on a provider. -/
def Prog.runOn (p : Provider σ) (env : Env) : Prog α → On σ → Outcome α × On σ
  | .ret a, w => (.ok a, w)
  | .err e, w => (.err e, w)
  | .panic, w => (.panic, w)
  | .diverge, w => (.diverge, w)
  | .op e k, w => (k (p.step env w e).1).runOn p env (p.step env w e).2

/-- `sched` on a provider whose methods are atomic.  Bolt's are: each is one transaction. -/
def schedOn (p : Provider σ) (env : Env) : List Nat → On σ → List (Prog α) → On σ × List (Prog α)
  | [], w, ps => (w, ps)
  | j :: r, w, ps => match ps[j]? with
    | some (.op e k) => schedOn p env r (p.step env w e).2 (ps.set j (k (p.step env w e).1))
    | _ => schedOn p env r w ps

/-- `commits` on a provider whose methods are atomic. -/
def commitsOn (p : Provider σ) (env : Env) : List Nat → On σ → List (Prog α) → List (Nat × Outcome α)
  | [], _, _ => []
  | j :: r, w, ps => match ps[j]? with
    | some (.op e k) =>
      let rest := commitsOn p env r (p.step env w e).2 (ps.set j (k (p.step env w e).1))
      match (k (p.step env w e).1).outcome with
      | some o => (j, o) :: rest
      | none => rest
    | _ => commitsOn p env r w ps

/-- The requests made under a schedule. -/
def requestsOn (p : Provider σ) (env : Env) : List Nat → On σ → List (Prog α) → List Eff
  | [], _, _ => []
  | j :: r, w, ps => match ps[j]? with
    | some (.op e k) => e :: requestsOn p env r (p.step env w e).2 (ps.set j (k (p.step env w e).1))
    | _ => requestsOn p env r w ps

/-! ## `Mem` under concurrency

`Mem.Put` and `Mem.Update` are two steps on the `sync.Map` (io/mem.go:39-46, 58-65), so a call can be inside one of them while others run. -/

/-- A call in progress: between two requests, or inside a method of `Mem`. -/
inductive MemThread (α : Type) where
  | ready (p : Prog α)
  | inside (e : Eff) (q : MapProg e.Resp) (k : e.Resp → Prog α)

/-- The rest of a method after one step on the map. -/
def MemThread.settle (e : Eff) (q : MapProg e.Resp) (k : e.Resp → Prog α) (s : KV) (t : Nat) : MemThread α × On KV :=
  match q with
  | .ret r => (.ready (k r), ⟨s, t + 1⟩)
  | q => (.inside e q k, ⟨s, t⟩)

/-- The method of `Mem` that answers a request; none for the random source and the clock. -/
def memMethod : (e : Eff) → Option (MapProg e.Resp)
  | .put id dt d => some (memPut id dt d)
  | .get id dt => some (memGet id dt)
  | .update id dt d => some (memUpdate id dt d)
  | .delete id dt => some (memDelete id dt)
  | _ => none

/-- One step of a call on `Mem`: one operation on the `sync.Map`, or one draw or clock reading.  Requests are counted when they are
answered. -/
def MemThread.step (env : Env) (w : On KV) : MemThread α → MemThread α × On KV
  | .ready (.op e k) => match memMethod e with
    | some q => MemThread.settle e (q.step w.state).1 k (q.step w.state).2 w.t
    | none => (.ready (k (memProvider.exec w.state (env.rand w.t) (env.now w.t) e).1), ⟨w.state, w.t + 1⟩)
  | .ready p => (.ready p, w)
  | .inside e q k => MemThread.settle e (q.step w.state).1 k (q.step w.state).2 w.t

/-- How a call that has ended ended. -/
def MemThread.outcome : MemThread α → Option (Outcome α)
  | .ready p => p.outcome
  | .inside .. => none

/-- Calls running concurrently on `Mem`. -/
def memSched (env : Env) : List Nat → On KV → List (MemThread α) → On KV × List (MemThread α)
  | [], w, ths => (w, ths)
  | j :: r, w, ths => match ths[j]? with
    | some th => memSched env r (th.step env w).2 (ths.set j (th.step env w).1)
    | none => memSched env r w ths

/-- The calls that end, in the order in which they end. -/
def memCommits (env : Env) : List Nat → On KV → List (MemThread α) → List (Nat × Outcome α)
  | [], _, _ => []
  | j :: r, w, ths => match ths[j]? with
    | some th =>
      let rest := memCommits env r (th.step env w).2 (ths.set j (th.step env w).1)
      match th.outcome, (th.step env w).1.outcome with
      | none, some o => (j, o) :: rest
      | _, _ => rest
    | none => memCommits env r w ths

end D1
