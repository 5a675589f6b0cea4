import Verif.Model.Base
/-!
# Programs with effects and their semantics

A Go method that uses the IO Provider, the random source or the clock is a `Prog`.
-/
namespace D1

/-- `io.DataType` (io/io.go:34) is a `uint16`. -/
abbrev DataType := UInt16

/-- The effects a method can perform: the four methods of `io.Provider` (io/io.go:56-72), `RandomInterface.GetBytes`
(crypto/interfaces.go:57-60) and `time.Now`. -/
inductive Eff where
  | put (id : Bytes) (dt : DataType) (data : Bytes)
  | get (id : Bytes) (dt : DataType)
  | update (id : Bytes) (dt : DataType) (data : Bytes)
  | delete (id : Bytes) (dt : DataType)
  | rand (n : Nat)
  | now
  deriving DecidableEq

/-- What an effect answers. -/
def Eff.Resp : Eff → Type
  | .put .. => Except IoErr Unit
  | .get .. => Except IoErr Bytes
  | .update .. => Except IoErr Unit
  | .delete .. => Except IoErr Unit
  | .rand n => Option (BytesN n)
  | .now => GoTime

/-- A program: it returns a value, returns an error, panics, runs forever, or performs an effect and goes on. -/
inductive Prog (α : Type) where
  | ret (a : α)
  | err (e : Err)
  | panic
  | diverge
  | op (e : Eff) (k : e.Resp → Prog α)

namespace Prog

/-- Sequencing: Go's `if err != nil { return err }`. -/
def bind {α β : Type} : Prog α → (α → Prog β) → Prog β
  | ret a, k => k a
  | err e, _ => err e
  | panic, _ => panic
  | diverge, _ => diverge
  | op e c, k => op e (fun r => (c r).bind k)

instance : Monad Prog where
  pure := Prog.ret
  bind := Prog.bind

/-- Go code that inspects the error of a call before deciding what to return. -/
def attempt {α β : Type} : Prog α → (Except Err α → Prog β) → Prog β
  | ret a, k => k (.ok a)
  | err e, k => k (.error e)
  | panic, _ => panic
  | diverge, _ => diverge
  | op e c, k => op e (fun r => (c r).attempt k)

/-- A pure computation that can fail. -/
def ofExcept {α : Type} : Except Err α → Prog α
  | .ok a => ret a
  | .error e => err e

/-- A pure computation whose `none` is a Go run-time panic. -/
def ofPanic {α : Type} : Option α → Prog α
  | some a => ret a
  | none => panic

end Prog

/-- `GetBytes(n)` (crypto/random.go:27-33): `n` random bytes or an error. -/
def randBytes (n : Nat) : Prog (BytesN n) :=
  .op (.rand n) fun r => match r with
    | some b => .ret b
    | none => .err .rand

/-! ## Semantics -/

/-- Result of a program. -/
inductive Outcome (α : Type) where
  | ok (a : α)
  | err (e : Err)
  | panic
  | diverge
  deriving DecidableEq

/-- The abstract store: what the `io.Provider` interface comments promise (io/io.go:55-72). -/
abbrev Store := Bytes → DataType → Option Bytes

/-- A fault injected into one IO call: none, an error with no effect, or an error although the effect took place. -/
inductive Fault where
  | none
  | before
  | after
  deriving DecidableEq

/-- Everything outside the program and the store, as a function of the number of effects performed so far. -/
structure Env where
  rand : Nat → (n : Nat) → Option (BytesN n)
  now : Nat → GoTime
  fault : Nat → Fault

structure World where
  store : Store
  t : Nat

/-- Replace one entry of a store. -/
def Store.set (s : Store) (id : Bytes) (dt : DataType) (v : Option Bytes) : Store :=
  fun id' dt' => if id' = id ∧ dt' = dt then v else s id' dt'

/-- One effect without faults: `Put` refuses existing entries, `Update` and `Get` refuse missing ones, `Delete` never
fails (interface comments, io/io.go:57-71); `rnd` and `clk` answer the random source and the clock. -/
def Store.exec (s : Store) (rnd : (n : Nat) → Option (BytesN n)) (clk : GoTime) : (e : Eff) → e.Resp × Store
  | .put id dt d => match s id dt with
    | none => (.ok (), s.set id dt (some d))
    | some _ => (.error .alreadyExists, s)
  | .get id dt => match s id dt with
    | none => (.error .notFound, s)
    | some d => (.ok d, s)
  | .update id dt d => match s id dt with
    | none => (.error .notFound, s)
    | some _ => (.ok (), s.set id dt (some d))
  | .delete id dt => (.ok (), s.set id dt none)
  | .rand n => (rnd n, s)
  | .now => (clk, s)

/-- The answer of a faulty call: IO calls answer some error that is neither "not found" nor "already exists"; the
random source and the clock are not subject to IO faults (`Env.rand` can fail on its own). -/
def Eff.fail : (e : Eff) → e.Resp → e.Resp
  | .put .., _ => .error .failure
  | .get .., _ => .error .failure
  | .update .., _ => .error .failure
  | .delete .., _ => .error .failure
  | .rand _, r => r
  | .now, r => r

/-- One effect in a world. -/
def World.exec (env : Env) (w : World) (e : Eff) : e.Resp × World :=
  let r := w.store.exec (env.rand w.t) (env.now w.t) e
  match env.fault w.t with
  | .none => (r.1, ⟨r.2, w.t + 1⟩)
  | .before => (e.fail r.1, ⟨w.store, w.t + 1⟩)
  | .after => (e.fail r.1, ⟨r.2, w.t + 1⟩)

namespace Prog

/-- Sequential execution to the end. -/
def run {α : Type} (env : Env) : Prog α → World → Outcome α × World
  | ret a, w => (.ok a, w)
  | err e, w => (.err e, w)
  | panic, w => (.panic, w)
  | diverge, w => (.diverge, w)
  | op e k, w => (k (w.exec env e).1).run env (w.exec env e).2

/-- Execution that is cut off (the process crashes) after `n` effects; `none` when it did not finish. -/
def runN {α : Type} (env : Env) : Nat → Prog α → World → Option (Outcome α) × World
  | _, ret a, w => (some (.ok a), w)
  | _, err e, w => (some (.err e), w)
  | _, panic, w => (some .panic, w)
  | _, diverge, w => (some .diverge, w)
  | 0, op _ _, w => (none, w)
  | n + 1, op e k, w => (k (w.exec env e).1).runN env n (w.exec env e).2

/-- One answered effect. -/
abbrev Event := (e : Eff) × e.Resp

/-- `p.Yields tr out`: against a provider, clock and random source that answer in any way at all, `p` can perform
the effects `tr` with the answers recorded there and then end with `out`. -/
inductive Yields {α : Type} : Prog α → List Event → Outcome α → Prop
  | ret (a : α) : Yields (ret a) [] (.ok a)
  | err (e : Err) : Yields (.err e) [] (.err e)
  | panic : Yields .panic [] .panic
  | diverge : Yields .diverge [] .diverge
  | op (e : Eff) (k : e.Resp → Prog α) (r : e.Resp) (tr : List Event) (out : Outcome α) :
      Yields (k r) tr out → Yields (.op e k) (⟨e, r⟩ :: tr) out

end Prog

end D1
