/-!
# Basic types of the model

Go's `[]byte` and `string` are both lists of bytes here.  A Go string may hold arbitrary bytes, not only valid
UTF-8, so `GoString` is `Bytes`.  Where the difference between a nil and an empty slice is observable through
the API the type is `NBytes` (`none` is nil).
-/
namespace D1

/-- Contents of a Go `[]byte` or `string`. -/
abbrev Bytes := List UInt8

/-- A Go `string`: any byte sequence. -/
abbrev GoString := Bytes

/-- A Go `[]byte` that may be nil. -/
abbrev NBytes := Option Bytes

/-- The bytes of a possibly nil slice (`len(nil) == 0`). -/
def NBytes.bytes (b : NBytes) : Bytes := b.getD []

/-- Go arrays `[n]byte`: byte strings of a fixed length. -/
abbrev BytesN (n : Nat) := { b : Bytes // b.length = n }

/-- `uuid.UUID` is `[16]byte` (github.com/gofrs/uuid, used throughout d1.go and data/). -/
abbrev Oid := BytesN 16

/-- A `time.Time`: the instant in nanoseconds since the Unix epoch and an opaque number for its `*Location`.
Simplification: the monotonic clock reading is assumed to agree with the wall clock. -/
structure GoTime where
  ns : Int
  loc : Int
  deriving DecidableEq

/-- `t.Add(d)`. -/
def GoTime.add (t : GoTime) (d : Int) : GoTime := { t with ns := t.ns + d }

/-- `t.Before(u)`. -/
def GoTime.before (t u : GoTime) : Bool := decide (t.ns < u.ns)

/-- `t.Unix()`: whole seconds, rounded down. -/
def GoTime.unix (t : GoTime) : Int := t.ns / 1000000000

/-- Errors of package io: `io.ErrNotFound`, `io.ErrAlreadyExists` (io/io.go:27-31), and any other error a provider
may return (`failure`). -/
inductive IoErr where
  | notFound
  | alreadyExists
  | failure
  deriving DecidableEq, Repr

/-- The errors that the modelled functions return.  Error values that are distinct package variables in the
repository are distinct constructors.  Errors that the code only passes through are grouped by their source. -/
inductive Err where
  -- package d1, d1.go:35-51
  | notAuthenticated
  | notAuthorized
  | objectNotFound
  | accessNotFound
  | objectAlreadyExists
  | accessAlreadyExists
  -- package id, id/standalone.go:31-44 and id/standalone_user.go:25
  | idNotAuthenticated
  | idNotAuthorized
  | userNotFound
  | groupNotFound
  | userAlreadyExists
  | groupAlreadyExists
  -- package index, index/index.go:36-49
  | ixNotAuthenticated
  | ixNotAuthorized
  | nodeNotFound
  | nodeAlreadyExists
  | invalidMasterKeyLength
  -- package crypto
  | invalidKeyLength      -- crypto/cryptor.go:27
  | kwp                   -- any error of crypto/kwp.go
  | aead                  -- any error of crypto/aes.go
  | rand                  -- crypto/random.go: the random source failed
  -- package data
  | tokenExpired          -- data/token.go:78
  -- pass-through
  | json                  -- json.Unmarshal failed
  | base64                -- base64 decoding failed
  | keyProvider           -- the Key Provider failed
  | io (e : IoErr)        -- an IO Provider error returned unchanged
  deriving DecidableEq, Repr

/-- Go map used as a set, `map[string]struct{}`; `none` is the nil map.  The list holds the keys in the order in
which a `range` loop (or the JSON encoder, which does not sort keys) visits them: Go leaves that order
unspecified, so it is an arbitrary list here. -/
abbrev GoSet := Option (List GoString)

/-- Insert into a non-nil Go set. -/
def setInsert (s : List GoString) (x : GoString) : List GoString := if x ∈ s then s else s ++ [x]

/-- `delete(m, k)` on a non-nil Go set. -/
def setErase (s : List GoString) (x : GoString) : List GoString := s.filter (· ≠ x)

/-- Membership `_, ok := m[k]`; a nil map contains nothing. -/
def GoSet.has (s : GoSet) (x : GoString) : Bool := match s with
  | none => false
  | some l => decide (x ∈ l)

end D1
