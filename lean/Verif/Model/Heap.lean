import Verif.Model.Io
/-!
# Slices and the arrays behind them

The rest of the model treats byte slices as values.  Here they are what they are in Go: windows into arrays that may be
shared.  The functions of crypto/ that write into buffers, the keys of io/bolt.go, the records of io/mem.go and the group
list of `D1.Encrypt` are modelled again at this level; Props/Heap.lean shows when the two views agree.

Arrays that nothing refers to any more are never reclaimed; that cannot be observed.
-/
namespace D1

/-- The arrays of a program, by address. -/
abbrev Heap (α : Type) := List (List α)

/-- A slice: `len` elements from `off` of the array at `arr`, which may be extended to `cap` elements.  A nil slice has
no elements and no capacity, at any address. -/
structure Slice where
  arr : Nat
  off : Nat
  len : Nat
  cap : Nat
  deriving DecidableEq

section ops
variable {α : Type}

/-- The array at an address. -/
def Heap.array (h : Heap α) (a : Nat) : List α := h[a]?.getD []

/-- `xs` with `ys` written over it from position `pos`; what does not fit is dropped. -/
def overwrite (xs : List α) (pos : Nat) (ys : List α) : List α :=
  xs.take pos ++ ys.take (xs.length - pos) ++ xs.drop (pos + ys.length)

/-- Write to an array. -/
def Heap.store (h : Heap α) (a pos : Nat) (ys : List α) : Heap α := h.set a (overwrite (h.array a) pos ys)

/-- The elements of a slice. -/
def Slice.val (s : Slice) (h : Heap α) : List α := ((h.array s.arr).drop s.off).take s.len

/-- A slice lies within its array. -/
def Slice.Ok (s : Slice) (h : Heap α) : Prop := s.off + s.cap ≤ (h.array s.arr).length ∧ s.len ≤ s.cap

/-- `s[i:j]`. -/
def Slice.sub (s : Slice) (i j : Nat) : Slice := ⟨s.arr, s.off + i, j - i, s.cap - i⟩

/-- A slice of a new array, with whatever spare capacity. -/
def goNew (h : Heap α) (xs spare : List α) : Slice × Heap α :=
  (⟨h.length, 0, xs.length, xs.length + spare.length⟩, h ++ [xs ++ spare])

/-- `append(s, xs...)`: in place when the capacity suffices, and otherwise in a new array, whose spare capacity is up to
the runtime. -/
def goAppend (spare : List α) (h : Heap α) (s : Slice) (xs : List α) : Slice × Heap α :=
  if s.len + xs.length ≤ s.cap then ({ s with len := s.len + xs.length }, h.store s.arr (s.off + s.len) xs)
  else goNew h (s.val h ++ xs) spare

/-- `copy(dst, xs)`. -/
def goCopy (h : Heap α) (dst : Slice) (xs : List α) : Heap α := h.store dst.arr dst.off (xs.take dst.len)

end ops

/-! ## crypto/aes.go -/

/-- `AES256GCM.Encrypt` (crypto/aes.go:34-60).  `random` is the answer of `GetBytes`. -/
def gcmEncryptH (P : Prims) (random : Except Err Bytes) (spare : Bytes) (h : Heap UInt8) (plaintext aad key : Slice) :
    Except Err Slice × Heap UInt8 :=
  if key.len ≠ keyLength then (.error .aead, h)
  else
    let (ciphertext, h) := goAppend spare h plaintext (List.replicate overhead 0)
    match random with
    | .error e => (.error e, h)
    | .ok nonce =>
      let h := goCopy h (ciphertext.sub (plaintext.len + tagLength) ciphertext.len) nonce
      let data := ciphertext.sub 0 plaintext.len
      let h := h.store data.arr data.off (P.gcmSeal (key.val h) nonce (aad.val h) (data.val h))
      (.ok ciphertext, h)

/-- `AES256GCM.Decrypt` (crypto/aes.go:62-88).  `Open` writes the plaintext over the ciphertext; when the tag is wrong it
overwrites it with zeros (crypto/cipher/gcm.go). -/
def gcmDecryptH (P : Prims) (h : Heap UInt8) (ciphertext aad key : Slice) : Except Err Slice × Heap UInt8 :=
  if key.len ≠ keyLength then (.error .aead, h)
  else if ciphertext.len < overhead then (.error .aead, h)
  else
    let data := ciphertext.sub 0 (ciphertext.len - nonceLength)
    let nonce := ciphertext.sub (ciphertext.len - nonceLength) ciphertext.len
    match P.gcmOpen (key.val h) (nonce.val h) (aad.val h) (data.val h) with
    | none => (.error .aead, h.store data.arr data.off (List.replicate (data.len - tagLength) 0))
    | some p => (.ok (ciphertext.sub 0 (ciphertext.len - overhead)), h.store data.arr data.off p)

/-! ## crypto/kwp.go -/

/-- Body of the inner loop of `computeW` (crypto/kwp.go:106-117). -/
def wStepH (P : Prims) (key : Bytes) (blockCount : Nat) (buf data : Slice) (h : Heap UInt8) (ij : Nat × Nat) :
    Heap UInt8 :=
  let off := 8 * (ij.2 + 1)
  let h := goCopy h (buf.sub 8 buf.len) ((data.sub off data.len).val h)
  let h := goCopy h buf (P.aesEnc key (buf.val h))
  let h := goCopy h buf (xorRound (buf.val h) (roundConst blockCount ij.1 ij.2))
  goCopy h (data.sub off data.len) ((buf.sub 8 buf.len).val h)

/-- Body of the inner loop of `invertW` (crypto/kwp.go:143-154). -/
def wInvStepH (P : Prims) (key : Bytes) (blockCount : Nat) (buf data : Slice) (h : Heap UInt8) (ij : Nat × Nat) :
    Heap UInt8 :=
  let off := 8 * (ij.2 + 1)
  let h := goCopy h (buf.sub 8 buf.len) ((data.sub off data.len).val h)
  let h := goCopy h buf (xorRound (buf.val h) (roundConst blockCount ij.1 ij.2))
  let h := goCopy h buf (P.aesDec key (buf.val h))
  goCopy h (data.sub off data.len) ((buf.sub 8 buf.len).val h)

/-- `computeW` (crypto/kwp.go:89-122). -/
def computeWH (P : Prims) (key : Bytes) (h : Heap UInt8) (iv key0 : Slice) : Except Err Slice × Heap UInt8 :=
  if key0.len ≤ 8 ∨ key0.len > 2 ^ 31 - 1 - 16 ∨ iv.len ≠ 8 then (.error .kwp, h)
  else
    let (data, h) := goNew h (List.replicate (wrappingSize key0.len) 0) []
    let h := goCopy h data (iv.val h)
    let h := goCopy h (data.sub 8 data.len) (key0.val h)
    let blockCount := data.len / 8 - 1
    let (buf, h) := goNew h (List.replicate 16 0) []
    let h := goCopy h buf ((data.sub 0 8).val h)
    let h := (wSchedule blockCount).foldl (wStepH P key blockCount buf data) h
    (.ok data, goCopy h (data.sub 0 8) (buf.val h))

/-- `invertW` (crypto/kwp.go:126-160). -/
def invertWH (P : Prims) (key : Bytes) (h : Heap UInt8) (wrapped : Slice) : Except Err Slice × Heap UInt8 :=
  if wrapped.len < 24 ∨ wrapped.len % 8 ≠ 0 then (.error .kwp, h)
  else
    let (data, h) := goNew h (List.replicate wrapped.len 0) []
    let h := goCopy h data (wrapped.val h)
    let blockCount := data.len / 8 - 1
    let (buf, h) := goNew h (List.replicate 16 0) []
    let h := goCopy h buf ((data.sub 0 8).val h)
    let h := (wInvSchedule blockCount).foldl (wInvStepH P key blockCount buf data) h
    (.ok data, goCopy h data ((buf.sub 0 8).val h))

/-- `Wrap` (crypto/kwp.go:163-176). -/
def kwpWrapH (P : Prims) (key : Bytes) (h : Heap UInt8) (data : Slice) : Except Err Slice × Heap UInt8 :=
  if data.len < minWrapSize then (.error .kwp, h)
  else if data.len > maxWrapSize then (.error .kwp, h)
  else
    let (iv, h) := goNew h (be32 ivPrefix ++ be32 data.len) []
    computeWH P key h iv data

/-- `Unwrap` (crypto/kwp.go:181-219). -/
def kwpUnwrapH (P : Prims) (key : Bytes) (h : Heap UInt8) (data : Slice) : Except Err Slice × Heap UInt8 :=
  if data.len < wrappingSize minWrapSize then (.error .kwp, h)
  else if data.len > wrappingSize maxWrapSize then (.error .kwp, h)
  else if data.len % 8 ≠ 0 then (.error .kwp, h)
  else match invertWH P key h data with
    | (.error e, h) => (.error e, h)
    | (.ok unwrapped, h) =>
      if be32Val (unwrapped.val h) ≠ ivPrefix then (.error .kwp, h)
      else
        let encodedSize := be32Val ((unwrapped.val h).drop 4)
        if wrappingSize encodedSize ≠ unwrapped.len then (.error .kwp, h)
        else if ((unwrapped.val h).drop (8 + encodedSize)).any (· ≠ 0) then (.error .kwp, h)
        else (.ok (unwrapped.sub 8 (8 + encodedSize)), h)

/-! ## crypto/cryptor.go -/

/-- What the runtime leaves as spare capacity in the buffers made by `json.Marshal` and `append`. -/
structure Spares where
  plaintext : Bytes
  data : Bytes
  grown : Bytes

/-- `Cryptor.Encrypt` (crypto/cryptor.go:54-81); returns (wrappedKey, ciphertext).  `key` and `nonce` are the answers of
the random source. -/
def Cryptor.encryptH (P : Prims) (c : Cryptor) (sp : Spares) (key nonce : Except Err Bytes) (h : Heap UInt8)
    (plaintext data : J) : Except Err (Slice × Slice) × Heap UInt8 :=
  let (plaintextBytes, h) := goNew h plaintext.render sp.plaintext
  let (dataBytes, h) := goNew h data.render sp.data
  match key with
  | .error e => (.error e, h)
  | .ok key =>
    let (key, h) := goNew h key []
    match gcmEncryptH P nonce sp.grown h plaintextBytes dataBytes key with
    | (.error e, h) => (.error e, h)
    | (.ok ciphertext, h) => match kwpWrapH P c.kwp h key with
      | (.error e, h) => (.error e, h)
      | (.ok wrappedKey, h) => (.ok (wrappedKey, ciphertext), h)

/-- `Cryptor.Decrypt` (crypto/cryptor.go:83-103). -/
def Cryptor.decryptH {α : Type} (P : Prims) (c : Cryptor) (sp : Spares) (dec : J → Option α) (h : Heap UInt8) (data : J)
    (wrappedKey ciphertext : Slice) : Except Err α × Heap UInt8 :=
  match kwpUnwrapH P c.kwp h wrappedKey with
  | (.error e, h) => (.error e, h)
  | (.ok key, h) =>
    let (dataBytes, h) := goNew h data.render sp.data
    let (ciphertextCopy, h) := goNew h (List.replicate ciphertext.len 0) []
    let h := goCopy h ciphertextCopy (ciphertext.val h)
    match gcmDecryptH P h ciphertextCopy dataBytes key with
    | (.error e, h) => (.error e, h)
    | (.ok plaintextBytes, h) => match (P.unmarshal (plaintextBytes.val h)).bind dec with
      | none => (.error .json, h)
      | some v => (.ok v, h)

/-! ## io/bolt.go -/

/-- `key := append(id, dataType.Bytes()...)` (io/bolt.go:56, 67, 84, 95). -/
def boltKeyH (spare : Bytes) (h : Heap UInt8) (id : Slice) (dt : DataType) : Slice × Heap UInt8 :=
  goAppend spare h id (dtBytes dt)

/-- The methods of `Bolt` (io/bolt.go:55-100) on slices: the key is made first, and the transaction reads it later.
bbolt copies keys and values into its file. -/
inductive BoltCall where
  | put (data : Slice)
  | get
  | update (data : Slice)
  | delete

/-- The transaction of a call (io/bolt.go:57-63, 69-80, 85-91, 96-99), given the key it was left with. -/
def BoltCall.tx (c : BoltCall) (h : Heap UInt8) (key : Slice) (m : KV) : Except IoErr Bytes × KV :=
  let k := key.val h
  match c with
  | .put data => match m k with
    | some _ => (.error .alreadyExists, m)
    | none => let r := bucketPut k (data.val h) m; (r.1.map fun _ => [], r.2)
  | .get => match (m k).getD [] with
    | [] => (.error .notFound, m)
    | d => (.ok d, m)
  | .update data => match m k with
    | none => (.error .notFound, m)
    | some _ => let r := bucketPut k (data.val h) m; (r.1.map fun _ => [], r.2)
  | .delete => (.ok [], m.set k none)

/-- A whole call running alone. -/
def boltCallH (c : BoltCall) (spare : Bytes) (h : Heap UInt8) (id : Slice) (dt : DataType) (m : KV) :
    Except IoErr Bytes × KV × Heap UInt8 :=
  let (key, h) := boltKeyH spare h id dt
  let r := c.tx h key m
  (r.1, r.2, h)

/-! ## io/mem.go -/

/-- The map of `Mem` (io/mem.go:25-27) holds the slices it was given. -/
abbrev MemMap := Bytes → Option Slice

/-- `Mem.Put` (io/mem.go:39-46). -/
def memPutH (h : Heap UInt8) (id : Slice) (dt : DataType) (data : Slice) (m : MemMap) : Except IoErr Unit × MemMap :=
  match m (memKey (id.val h) dt) with
  | some _ => (.error .alreadyExists, m)
  | none => (.ok (), fun k => if k = memKey (id.val h) dt then some data else m k)

/-- `Mem.Get` (io/mem.go:48-56). -/
def memGetH (h : Heap UInt8) (id : Slice) (dt : DataType) (m : MemMap) : Except IoErr Slice :=
  match m (memKey (id.val h) dt) with
  | none => .error .notFound
  | some data => .ok data

/-- `Mem.Update` (io/mem.go:58-65). -/
def memUpdateH (h : Heap UInt8) (id : Slice) (dt : DataType) (data : Slice) (m : MemMap) :
    Except IoErr Unit × MemMap :=
  match m (memKey (id.val h) dt) with
  | none => (.error .notFound, m)
  | some _ => (.ok (), fun k => if k = memKey (id.val h) dt then some data else m k)

/-- `Mem.Delete` (io/mem.go:67-71). -/
def memDeleteH (h : Heap UInt8) (id : Slice) (dt : DataType) (m : MemMap) : Except IoErr Unit × MemMap :=
  (.ok (), fun k => if k = memKey (id.val h) dt then none else m k)

/-! ## d1.go -/

/-- `append(groups, identity.ID)` in `Encrypt` (d1.go:142). -/
def encryptAppendH (spare : List GoString) (h : Heap GoString) (groups : Slice) (identity : GoString) :
    Slice × Heap GoString :=
  goAppend spare h groups [identity]

/-- `access.AddGroups(…)` in `Encrypt` (d1.go:142, data/access.go:69-73), which reads the elements of the slice that
`append` made at a later moment. -/
def encryptAddGroupsH (h : Heap GoString) (s : Slice) (a : Access) : Option Access :=
  a.addGroups (s.val h)

end D1
