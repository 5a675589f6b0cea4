import Verif.Model.D1
/-!
# io/mem.go, io/bolt.go, io/proxy.go

The IO Providers shipped with the library, as state machines over their own key-value state.  `Store` (Prog.lean) is
what the interface promises; Proofs/Io.lean relates the two.
-/
namespace D1

/-- An IO Provider: state and the four methods. -/
structure Provider (σ : Type) where
  put : Bytes → DataType → Bytes → σ → Except IoErr Unit × σ
  get : Bytes → DataType → σ → Except IoErr Bytes × σ
  update : Bytes → DataType → Bytes → σ → Except IoErr Unit × σ
  delete : Bytes → DataType → σ → Except IoErr Unit × σ

/-- The reference: the abstract store. -/
def refProvider : Provider Store where
  put id dt d s := match s id dt with
    | none => (.ok (), s.set id dt (some d))
    | some _ => (.error .alreadyExists, s)
  get id dt s := match s id dt with
    | none => (.error .notFound, s)
    | some d => (.ok d, s)
  update id dt d s := match s id dt with
    | none => (.error .notFound, s)
    | some _ => (.ok (), s.set id dt (some d))
  delete id dt s := (.ok (), s.set id dt none)

/-- A `sync.Map` or a bolt bucket: keys to values. -/
abbrev KV := Bytes → Option Bytes

def KV.set (m : KV) (k : Bytes) (v : Option Bytes) : KV := fun k' => if k' = k then v else m k'

/-! ## io/mem.go -/

/-- `newKey` (io/mem.go:34-37): `%x:%d`. -/
def memKey (id : Bytes) (dt : DataType) : Bytes := hexEnc id ++ [58] ++ decEnc dt.toNat

/-- `Mem` (io/mem.go:39-71), each method running alone. -/
def memProvider : Provider KV where
  put id dt d m := match m (memKey id dt) with
    | some _ => (.error .alreadyExists, m)
    | none => (.ok (), m.set (memKey id dt) (some d))
  get id dt m := match m (memKey id dt) with
    | none => (.error .notFound, m)
    | some d => (.ok d, m)
  update id dt d m := match m (memKey id dt) with
    | none => (.error .notFound, m)
    | some _ => (.ok (), m.set (memKey id dt) (some d))
  delete id dt m := (.ok (), m.set (memKey id dt) none)

/-! ### `Mem` step by step

`Put` and `Update` are a `Load` followed by a `Store` on the `sync.Map`, and other goroutines may run in between. -/

/-- Programs over `sync.Map`. -/
inductive MapProg (α : Type) where
  | ret (a : α)
  | load (k : Bytes) (c : Option Bytes → MapProg α)
  | store (k v : Bytes) (c : MapProg α)
  | delete (k : Bytes) (c : MapProg α)

/-- `Mem.Put` (io/mem.go:39-46). -/
def memPut (id : Bytes) (dt : DataType) (d : Bytes) : MapProg (Except IoErr Unit) :=
  .load (memKey id dt) fun
    | some _ => .ret (.error .alreadyExists)
    | none => .store (memKey id dt) d (.ret (.ok ()))
/-- `Mem.Get` (io/mem.go:48-56). -/
def memGet (id : Bytes) (dt : DataType) : MapProg (Except IoErr Bytes) :=
  .load (memKey id dt) fun
    | none => .ret (.error .notFound)
    | some d => .ret (.ok d)
/-- `Mem.Update` (io/mem.go:58-65). -/
def memUpdate (id : Bytes) (dt : DataType) (d : Bytes) : MapProg (Except IoErr Unit) :=
  .load (memKey id dt) fun
    | none => .ret (.error .notFound)
    | some _ => .store (memKey id dt) d (.ret (.ok ()))
/-- `Mem.Delete` (io/mem.go:67-71). -/
def memDelete (id : Bytes) (dt : DataType) : MapProg (Except IoErr Unit) :=
  .delete (memKey id dt) (.ret (.ok ()))

/-- One step of a map program. -/
def MapProg.step {α : Type} : MapProg α → KV → MapProg α × KV
  | .ret a, m => (.ret a, m)
  | .load k c, m => (c (m k), m)
  | .store k v c, m => (c, m.set k (some v))
  | .delete k c, m => (c, m.set k none)

/-! ## io/bolt.go -/

/-- `DataType.Bytes` (io/io.go:44-48): `binary.MaxVarintLen16 = 3` bytes, of which the first two are the
little-endian number. -/
def dtBytes (dt : DataType) : Bytes := [UInt8.ofNat dt.toNat, UInt8.ofNat (dt.toNat / 256), 0]

/-- The key `append(id, dataType.Bytes()...)` (io/bolt.go:56, 67, 84, 95). -/
def boltKey (id : Bytes) (dt : DataType) : Bytes := id ++ dtBytes dt

/-- Limits of bbolt: `MaxKeySize` and `MaxValueSize`. -/
def boltMaxKey : Nat := 32768
def boltMaxValue : Nat := 2 ^ 31 - 2

/-- `Bucket.Put` of bbolt: errors for keys and values that are too large; keys are never empty here. -/
def bucketPut (k v : Bytes) (m : KV) : Except IoErr Unit × KV :=
  if k.length > boltMaxKey then (.error .failure, m)
  else if v.length > boltMaxValue then (.error .failure, m)
  else (.ok (), m.set k (some v))

/-- `Bolt` (io/bolt.go:55-100).  Each method is one bolt transaction; transactions of the file system failing are
faults of the environment.  `Bucket.Get` returns nil exactly for absent keys, and `append(nil, empty...)` is nil, so `Get`
cannot tell empty data from absent data. -/
def boltProvider : Provider KV where
  put id dt d m := match m (boltKey id dt) with
    | some _ => (.error .alreadyExists, m)
    | none => bucketPut (boltKey id dt) d m
  get id dt m := match (m (boltKey id dt)).getD [] with
    | [] => (.error .notFound, m)
    | d => (.ok d, m)
  update id dt d m := match m (boltKey id dt) with
    | none => (.error .notFound, m)
    | some _ => bucketPut (boltKey id dt) d m
  delete id dt m := (.ok (), m.set (boltKey id dt) none)

/-! ## io/proxy.go -/

/-- `NewProxy` (io/proxy.go:39-47): every function is the method of the implementation. -/
def newProxy {σ : Type} (p : Provider σ) : Provider σ := ⟨p.put, p.get, p.update, p.delete⟩

end D1
