import Verif.Model.Heap
/-!
# The loggers of log/log.go as they lie in memory

Model/Log.lean treats the fields of a logger as a value.  In zerolog (v1.28) they are a slice of encoded bytes, and
`CopyCtxLogger` copies the slice, not the bytes.  Here a logger is that slice, and several calls may work on the loggers
of one context at the same time.

What is assumed about zerolog, whose source is not at hand: `UpdateContext` appends the encoding of a field to the slice
of the logger (to a new array when the slice has no capacity); a line holds the bytes of the slice at the time of the
line; nothing else touches them.  How a field is encoded is left open, except that it depends on the bytes before it only.
Loggers that are disabled do nothing and are left out.
-/
namespace D1

/-- What a method does with the loggers of its context. -/
inductive LogStep (F : Type) where
  /-- `CopyCtxLogger` (log/log.go:26-29) on entry to a method: a logger of its own, on the array of the one before. -/
  | enter
  /-- Return from a method: the logger of its caller is used again. -/
  | leave
  /-- `WithMethod`, `WithUserID`, `WithObjectID` (log/log.go:37-55).  When the array is full the runtime picks a new one,
  with some spare room. -/
  | field (f : F) (spare : Bytes)
  /-- `log.Ctx(ctx).Debug()…Msg(…)`: a line with fields of its own. -/
  | line (own : Bytes)

/-- A call in progress: the logger in use and those of the methods it returns to, and what is left to do. -/
structure LogThread (F : Type) where
  top : Slice
  below : List Slice
  todo : List (LogStep F)

section
variable {F : Type} (enc : Bytes → F → Bytes)

/-- One step of a call, and the line that it prints. -/
def LogThread.step (h : Heap UInt8) (t : LogThread F) : Heap UInt8 × LogThread F × Option Bytes :=
  match t.todo with
  | [] => (h, t, none)
  | .enter :: todo => (h, ⟨t.top, t.top :: t.below, todo⟩, none)
  | .leave :: todo =>
    match t.below with
    | [] => (h, ⟨t.top, [], todo⟩, none)
    | s :: below => (h, ⟨s, below, todo⟩, none)
  | .field f spare :: todo =>
    let (top, h) := goAppend spare h t.top (enc (t.top.val h) f)
    (h, ⟨top, t.below, todo⟩, none)
  | .line own :: todo => (h, ⟨t.top, t.below, todo⟩, some (t.top.val h ++ own))

/-- Calls that take their steps in some order: the memory, the calls, and the lines printed so far, each with the number
of its call. -/
def logRun : List Nat → Heap UInt8 → List (LogThread F) → Heap UInt8 × List (LogThread F) × List (Nat × Bytes)
  | [], h, ts => (h, ts, [])
  | j :: order, h, ts =>
    match ts[j]? with
    | none => logRun order h ts
    | some t =>
      let r := t.step enc h
      let rest := logRun order r.1 (ts.set j r.2.1)
      (rest.1, rest.2.1, r.2.2.toList.map (fun b => (j, b)) ++ rest.2.2)

/-- The lines of a call, if loggers were values: what is meant. -/
def plainLines : Bytes → List Bytes → List (LogStep F) → List Bytes
  | _, _, [] => []
  | b, below, .enter :: todo => plainLines b (b :: below) todo
  | b, [], .leave :: todo => plainLines b [] todo
  | _, b :: below, .leave :: todo => plainLines b below todo
  | b, below, .field f _ :: todo => plainLines (b ++ enc b f) below todo
  | b, below, .line own :: todo => (b ++ own) :: plainLines b below todo

end

/-- zerolog's JSON: `{` before the first field and `,` between two, the name and the text in quotes.  Texts that need
escaping are left out. -/
def jsonField (b : Bytes) (f : String × String) : Bytes :=
  (if b = [] then "{" else ",").toUTF8.toList ++ ("\"" ++ f.1 ++ "\":\"" ++ f.2 ++ "\"").toUTF8.toList

/-- The message that ends a line. -/
def jsonMessage (msg : String) : Bytes := (",\"message\":\"" ++ msg ++ "\"}").toUTF8.toList

/-- What `Decrypt` (d1.go:222-249) does with its loggers when it succeeds, for a user in no group: its own logger, the
lines and fields of `verifyAccess` (utility.go:33-49), the logger of `GetIdentity` (id/standalone.go:91-129) in between,
then one line for each step.  `spare` is the room of every new array. -/
def decryptLogs (oid uid : String) (spare : Bytes) : List (LogStep (String × String)) :=
  [.enter, .field ("method", "decrypt") spare, .field ("oid", oid) spare,
    .line (jsonMessage "authenticating caller"),
    .enter, .field ("method", "get identity") spare, .line (jsonMessage "unsealing token"),
    .line (jsonMessage "getting stored user"), .line (jsonMessage "unsealing user"),
    .line (jsonMessage "fetching 0 groups"), .leave,
    .field ("uid", uid) spare, .line (jsonMessage "authorizing caller"),
    .line (jsonMessage "getting stored access"), .line (jsonMessage "authorizing access"),
    .line (jsonMessage "getting stored object"), .line (jsonMessage "unsealing object"), .leave]

end D1
