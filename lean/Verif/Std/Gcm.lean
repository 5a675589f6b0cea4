import Verif.Std.AesProof
/-!
# Galois/Counter Mode (NIST SP 800-38D) over AES

`crypto/aes.go` calls Go's `cipher.NewGCM(aes.NewCipher(key))`.  This is the algorithm of the standard with a 128-bit
tag, and the proof that authenticated decryption inverts authenticated encryption.  Blocks are numbers below 2^128,
the first byte of the block the most significant.
-/
namespace D1.Std
open D1

/-- A byte string as a number, first byte most significant. -/
def beNat (b : Bytes) : Nat := b.foldl (fun v x => v * 256 + x.toNat) 0

/-- The `n` low bytes of a number, most significant first. -/
def beBytes (n v : Nat) : Bytes := (List.range n).map fun i => UInt8.ofNat (v >>> (8 * (n - 1 - i)))

/-- One step of the multiplication of blocks (algorithm 1): `Z` and `V` after looking at bit `i` of `X`, bit 0 being
the most significant. -/
def gfStep (x : Nat) (zv : Nat × Nat) (i : Nat) : Nat × Nat :=
  (if x.testBit (127 - i) then zv.1 ^^^ zv.2 else zv.1,
   if zv.2.testBit 0 then (zv.2 >>> 1) ^^^ (0xe1 <<< 120) else zv.2 >>> 1)

/-- `X • Y` (6.3). -/
def gfMul (x y : Nat) : Nat := ((List.range 128).foldl (gfStep x) (0, y)).1

/-- GHASH (6.4) of a byte string whose length is a multiple of 16; the first argument bounds the number of blocks. -/
def ghashFrom (h : Nat) : Nat → Nat → Bytes → Nat
  | 0, y, _ => y
  | n + 1, y, x => ghashFrom h n (gfMul (y ^^^ beNat (x.take 16)) h) (x.drop 16)

def ghash (h : Nat) (x : Bytes) : Nat := ghashFrom h (x.length / 16) 0 x

/-- Zeros up to a multiple of 16 bytes. -/
def pad16 (x : Bytes) : Bytes := x ++ List.replicate ((16 - x.length % 16) % 16) 0

/-- inc32 (6.2). -/
def inc32 (cb : Nat) : Nat := cb / 2 ^ 32 * 2 ^ 32 + (cb + 1) % 2 ^ 32

/-- The encryptions of `n` counter blocks, starting with `cb`. -/
def keyStream (k : Bytes) : Nat → Nat → Bytes
  | 0, _ => []
  | n + 1, cb => aesEnc k (beBytes 16 cb) ++ keyStream k n (inc32 cb)

/-- GCTR (6.5). -/
def gctr (k : Bytes) (icb : Nat) (x : Bytes) : Bytes := xorBytes (keyStream k ((x.length + 15) / 16) icb) x

/-- The hash subkey. -/
def hashKey (k : Bytes) : Nat := beNat (aesEnc k (List.replicate 16 0))

/-- The pre-counter block J0 (algorithm 4, step 2). -/
def preCounter (k n : Bytes) : Nat :=
  if n.length = 12 then beNat (n ++ [0, 0, 0, 1])
  else ghash (hashKey k) (pad16 n ++ beBytes 8 0 ++ beBytes 8 (8 * n.length))

/-- The tag of a ciphertext (algorithm 4, steps 5 and 6). -/
def gcmTag (k n a c : Bytes) : Bytes :=
  gctr k (preCounter k n)
    (beBytes 16 (ghash (hashKey k) (pad16 a ++ pad16 c ++ beBytes 8 (8 * a.length) ++ beBytes 8 (8 * c.length))))

/-- GCM-AE (algorithm 4); Go appends the tag to the ciphertext. -/
def gcmSeal (k n a p : Bytes) : Bytes :=
  let c := gctr k (inc32 (preCounter k n)) p
  c ++ gcmTag k n a c

/-- GCM-AD (algorithm 5). -/
def gcmOpen (k n a c : Bytes) : Option Bytes :=
  if c.length < 16 then none
  else
    let ct := c.take (c.length - 16)
    if gcmTag k n a ct = c.drop (c.length - 16) then some (gctr k (inc32 (preCounter k n)) ct) else none

theorem beBytes_length (n v : Nat) : (beBytes n v).length = n := by simp [beBytes]

theorem gctr_length (k : Bytes) (cb : Nat) (x : Bytes) : (gctr k cb x).length = x.length := xorBytes_length _ _

/-- Counter mode is its own inverse. -/
theorem gctr_gctr (k : Bytes) (cb : Nat) (x : Bytes) : gctr k cb (gctr k cb x) = x := by
  rw [gctr, gctr_length, gctr, xorBytes_twice]

theorem gcmTag_length (k n a c : Bytes) : (gcmTag k n a c).length = 16 := by
  rw [gcmTag, gctr_length, beBytes_length]

theorem gcmSeal_length (k n a p : Bytes) : (gcmSeal k n a p).length = p.length + 16 := by
  simp only [gcmSeal, List.length_append, gctr_length, gcmTag_length]

theorem gcmOpen_gcmSeal (k n a p : Bytes) : gcmOpen k n a (gcmSeal k n a p) = some p := by
  have h := gcmSeal_length k n a p
  have h1 : (gcmSeal k n a p).take p.length = gctr k (inc32 (preCounter k n)) p := by
    rw [gcmSeal, List.take_append_of_le_length (by simp [gctr_length]), List.take_of_length_le (by simp [gctr_length])]
  have h2 : (gcmSeal k n a p).drop p.length = gcmTag k n a (gctr k (inc32 (preCounter k n)) p) := by
    have := gctr_length k (inc32 (preCounter k n)) p
    rw [gcmSeal]
    rw [List.drop_append, this, Nat.sub_self, List.drop_zero, List.drop_of_length_le (by omega), List.nil_append]
  rw [gcmOpen, if_neg (by omega), h, Nat.add_sub_cancel]
  simp only [h1, h2, if_true, gctr_gctr]

theorem gcmSeal_gcmOpen (k n a c p : Bytes) (h : gcmOpen k n a c = some p) : c = gcmSeal k n a p := by
  rw [gcmOpen] at h
  split at h
  · simp at h
  simp only [] at h
  split at h
  · rename_i ht
    simp only [Option.some.injEq] at h
    subst h
    rw [gcmSeal]
    simp only [gctr_gctr]
    rw [ht, List.take_append_drop]
  · simp at h

end D1.Std
