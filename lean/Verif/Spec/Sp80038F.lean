import Verif.Spec.Sp800185
/-!
# Key wrapping with padding of NIST SP 800-38F

Algorithms 1, 2, 5 and 6 of the standard for a block cipher `ciph` with inverse `ciphInv` on 16-byte blocks, on byte
strings, written independently of the code.  Registers shift as in the standard; the code updates a buffer in place.
-/
namespace D1.Spec

/-- `X ⊕ Y`. -/
def xorBytes (x y : Bytes) : Bytes := List.zipWith (· ^^^ ·) x y

/-- The semiblocks (8 bytes) of a string of `n` semiblocks. -/
def semiblocks : Nat → Bytes → List Bytes
  | 0, _ => []
  | n + 1, b => b.take 8 :: semiblocks n (b.drop 8)

/-- Step `t` of Algorithm 1 (2.a to 2.c) on `A` and `R_2 … R_n`. -/
def wForward (ciph : Bytes → Bytes) (t : Nat) : Bytes × List Bytes → Bytes × List Bytes
  | (a, []) => (a, [])
  | (a, r2 :: rs) => (xorBytes ((ciph (a ++ r2)).take 8) (bytesBE 8 t), rs ++ [(ciph (a ++ r2)).drop 8])

/-- Step `t` of Algorithm 2 (2.a to 2.c) on `A` and `R_2 … R_n`. -/
def wBackward (ciphInv : Bytes → Bytes) (t : Nat) : Bytes × List Bytes → Bytes × List Bytes
  | (a, []) => (a, [])
  | (a, r :: rs) =>
    let o := ciphInv (xorBytes a (bytesBE 8 t) ++ (r :: rs).getLast (List.cons_ne_nil _ _))
    (o.take 8, o.drop 8 :: (r :: rs).dropLast)

/-- The steps `1 … s` in this order. -/
def stepsUp (f : Nat → Bytes × List Bytes → Bytes × List Bytes) : Nat → Bytes × List Bytes → Bytes × List Bytes
  | 0, x => x
  | s + 1, x => f (s + 1) (stepsUp f s x)

/-- The steps `s … 1` in this order. -/
def stepsDown (f : Nat → Bytes × List Bytes → Bytes × List Bytes) : Nat → Bytes × List Bytes → Bytes × List Bytes
  | 0, x => x
  | s + 1, x => stepsDown f s (f (s + 1) x)

/-- Algorithm 1, `W(S)`: `s = 6 (n - 1)` steps. -/
def kwW (ciph : Bytes → Bytes) (s : Bytes) : Bytes :=
  let n := s.length / 8
  let r := stepsUp (wForward ciph) (6 * (n - 1)) (s.take 8, semiblocks (n - 1) (s.drop 8))
  r.1 ++ r.2.flatten

/-- Algorithm 2, `W⁻¹(C)`. -/
def kwWInv (ciphInv : Bytes → Bytes) (c : Bytes) : Bytes :=
  let n := c.length / 8
  let r := stepsDown (wBackward ciphInv) (6 * (n - 1)) (c.take 8, semiblocks (n - 1) (c.drop 8))
  r.1 ++ r.2.flatten

/-- `ICV2`. -/
def icv2 : Bytes := [0xA6, 0x59, 0x59, 0xA6]

/-- The number of bytes that `padlen` bits fill up to a multiple of eight bytes. -/
def padBytes (n : Nat) : Nat := 8 * ((n + 7) / 8) - n

/-- Algorithm 5, `KWP-AE(P)`. -/
def kwpAE (ciph : Bytes → Bytes) (p : Bytes) : Bytes :=
  let s := icv2 ++ bytesBE 4 p.length ++ p ++ List.replicate (padBytes p.length) 0
  if p.length ≤ 8 then ciph s else kwW ciph s

/-- The number whose big-endian representation is `b`. -/
def valueBE (b : Bytes) : Nat := b.foldl (fun v x => 256 * v + x.toNat) 0

/-- Algorithm 6, `KWP-AD(C)`; `none` is FAIL. -/
def kwpAD (ciphInv : Bytes → Bytes) (c : Bytes) : Option Bytes :=
  let n := c.length / 8
  let s := if n = 2 then ciphInv c else kwWInv ciphInv c
  let plen := valueBE ((s.drop 4).take 4)
  let padlen : Int := 8 * ((n : Int) - 1) - plen
  if s.take 4 ≠ icv2 then none
  else if padlen < 0 ∨ padlen > 7 then none
  else if s.drop (s.length - padlen.toNat) ≠ List.replicate padlen.toNat 0 then none
  else some ((s.drop 8).take plen)

end D1.Spec
