import Verif.Std.Aes
/-!
# Keccak-f[1600], SHA-3, HMAC and PBKDF2

`crypto/kmac.go` writes to `golang.org/x/crypto/sha3`'s cSHAKE, `crypto/password.go` calls `pbkdf2.Key` with
`sha3.New256`.  These are the algorithms of FIPS 202, FIPS 198-1 and RFC 8018.  A state is 25 lanes of 64 bits, lane
`(x, y)` at position `x + 5 y`.
-/
namespace D1.Std
open D1

/-- Rotation of a lane to the left. -/
def rotl (a n : Nat) : Nat := ((a <<< n) ||| (a >>> (64 - n))) % 2 ^ 64

/-- θ (3.2.1). -/
def theta (s : List Nat) : List Nat :=
  let c := (List.range 5).map fun x =>
    s.getD x 0 ^^^ s.getD (x + 5) 0 ^^^ s.getD (x + 10) 0 ^^^ s.getD (x + 15) 0 ^^^ s.getD (x + 20) 0
  let d := (List.range 5).map fun x => c.getD ((x + 4) % 5) 0 ^^^ rotl (c.getD ((x + 1) % 5) 0) 1
  (List.range 25).map fun i => s.getD i 0 ^^^ d.getD (i % 5) 0

/-- The offsets of ρ (table 2), modulo 64. -/
def rhoOffsets : List Nat :=
  [0, 1, 62, 28, 27, 36, 44, 6, 55, 20, 3, 10, 43, 25, 39, 41, 45, 15, 21, 8, 18, 2, 61, 56, 14]

/-- ρ (3.2.2). -/
def rho (s : List Nat) : List Nat := s.zipWith rotl rhoOffsets

/-- π (3.2.3): lane `(x, y)` of the result is lane `(x + 3 y, x)` of the argument. -/
def pi (s : List Nat) : List Nat := (List.range 25).map fun i => s.getD ((i % 5 + 3 * (i / 5)) % 5 + 5 * (i % 5)) 0

/-- χ (3.2.4). -/
def chi (s : List Nat) : List Nat :=
  (List.range 25).map fun i =>
    let y := 5 * (i / 5)
    s.getD i 0 ^^^ ((2 ^ 64 - 1 - s.getD ((i + 1) % 5 + y) 0) &&& s.getD ((i + 2) % 5 + y) 0)

/-- The round constants of ι (3.2.5). -/
def roundConstants : List Nat :=
  [0x0000000000000001, 0x0000000000008082, 0x800000000000808A, 0x8000000080008000, 0x000000000000808B,
   0x0000000080000001, 0x8000000080008081, 0x8000000000008009, 0x000000000000008A, 0x0000000000000088,
   0x0000000080008009, 0x000000008000000A, 0x000000008000808B, 0x800000000000008B, 0x8000000000008089,
   0x8000000000008003, 0x8000000000008002, 0x8000000000000080, 0x000000000000800A, 0x800000008000000A,
   0x8000000080008081, 0x8000000000008080, 0x0000000080000001, 0x8000000080008008]

/-- ι (3.2.5). -/
def iota (rc : Nat) : List Nat → List Nat
  | [] => []
  | a :: r => (a ^^^ rc) :: r

/-- Keccak-f[1600] (3.3 and 3.4). -/
def keccakF (s : List Nat) : List Nat :=
  roundConstants.foldl (fun s rc => iota rc (chi (pi (rho (theta s))))) s

/-- Eight bytes as a lane, least significant byte first. -/
def lane (b : Bytes) : Nat := b.foldr (fun x v => v * 256 + x.toNat) 0

/-- A block as lanes, filled up with zeros. -/
def lanes (b : Bytes) : List Nat := (List.range 25).map fun i => lane ((b.drop (8 * i)).take 8)

/-- A state as bytes. -/
def stateBytes (s : List Nat) : Bytes :=
  s.flatMap fun a => (List.range 8).map fun j => UInt8.ofNat (a >>> (8 * j))

/-- Absorbing phase of the sponge (algorithm 8); the first argument counts the blocks. -/
def absorb (rate : Nat) : Nat → List Nat → Bytes → List Nat
  | 0, s, _ => s
  | n + 1, s, x => absorb rate n (keccakF (s.zipWith (· ^^^ ·) (lanes (x.take rate)))) (x.drop rate)

/-- Squeezing phase: `n` more blocks of output. -/
def squeeze (rate : Nat) : Nat → List Nat → Bytes
  | 0, _ => []
  | n + 1, s => (stateBytes s).take rate ++ squeeze rate n (keccakF s)

/-- The suffix bits `ds` and the padding pad10*1 (5.1 and B.2). -/
def spongePad (ds : UInt8) (rate len : Nat) : Bytes :=
  let q := rate - len % rate
  if q = 1 then [ds ||| 0x80] else ds :: List.replicate (q - 2) 0 ++ [0x80]

/-- Exactly `n` bytes: cut off, or filled up with zeros. -/
def fit (n : Nat) (b : Bytes) : Bytes := (b ++ List.replicate n 0).take n

/-- The sponge with `rate` bytes per block: `n` bytes of output.  For rates from 1 to 200 there are always enough
bytes; the padding of the result only makes the function total. -/
def sponge (ds : UInt8) (rate : Nat) (x : Bytes) (n : Nat) : Bytes :=
  let m := x ++ spongePad ds rate x.length
  fit n (squeeze rate (n / rate + 1) (absorb rate (m.length / rate) (List.replicate 25 0) m))

/-- SHA3-256 (6.1). -/
def sha3_256 (m : Bytes) : Bytes := sponge 0x06 136 m 32

/-- cSHAKE with a function name or customization (SP 800-185, 3.3), after the prefix has been absorbed: suffix bits
00 instead of SHAKE's 1111. -/
def cshakeSponge (rate : Nat) (x : Bytes) (n : Nat) : Bytes := sponge 0x04 rate x n

/-- HMAC-SHA3-256 (FIPS 198-1); the block size of SHA3-256 is 136 bytes. -/
def hmacSha3 (k m : Bytes) : Bytes :=
  let k := if k.length > 136 then sha3_256 k else k
  let k := fit 136 k
  sha3_256 (k.map (· ^^^ 0x5c) ++ sha3_256 (k.map (· ^^^ 0x36) ++ m))

/-- The iterations of F in PBKDF2 (RFC 8018, 5.2): `u` is the last `U_i`, `t` the exclusive or so far. -/
def pbkdf2Iter (p : Bytes) : Nat → Bytes → Bytes → Bytes
  | 0, _, t => t
  | n + 1, u, t =>
    let u := hmacSha3 p u
    pbkdf2Iter p n u (xorBytes u t)

/-- The first block of PBKDF2 with `c + 1` iterations. -/
def pbkdf2Block (c : Nat) (p s : Bytes) : Bytes :=
  let u := hmacSha3 p (s ++ [0, 0, 0, 1])
  pbkdf2Iter p c u u

/-- `pbkdf2.Key(p, s, 10000, 32, sha3.New256)`: 32 bytes are one block. -/
def pbkdf2 (p s : Bytes) : Bytes := pbkdf2Block 9999 p s

theorem sponge_length (ds : UInt8) (rate : Nat) (x : Bytes) (n : Nat) : (sponge ds rate x n).length = n := by
  simp only [sponge, fit, List.length_take, List.length_append, List.length_replicate]
  omega

theorem cshakeSponge_length (rate : Nat) (x : Bytes) (n : Nat) : (cshakeSponge rate x n).length = n :=
  sponge_length _ rate x n

theorem pbkdf2_length (p s : Bytes) : (pbkdf2 p s).length = 32 := by
  have h : ∀ c u t, t.length = 32 → (pbkdf2Iter p c u t).length = 32 := by
    intro c
    induction c with
    | zero => exact fun u t h => h
    | succ c ih =>
      intro u t h
      exact ih _ _ (by simp [xorBytes, h])
  exact h _ _ _ (by rw [hmacSha3, sha3_256, sponge_length])

end D1.Std
